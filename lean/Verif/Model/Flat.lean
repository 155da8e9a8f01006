import Verif.Model.Mpc
import Verif.Model.Mhe

/-!
# The vectors handed to the solver: `opt_x`, `opt_p` and their power indices

`/repo/do_mpc/controller/_mpc.py:1118-1145`, `/repo/do_mpc/estimator/_mhe.py:1049-1081` declare CasADi structures; the solver, the bounds and the
sensitivities use their flat vectors (`.cat`, `.master`), everything else reads them with power indices (`.f[...]` gives the flat positions).  CasADi's
`casadi.tools.structure3` is not part of the repository: the order of `.cat` (entries in order, the last repeat index fastest) is taken from its
documentation.  Only power indices with all repeat indices are modelled (integers, negative ones counting from the end).
-/
namespace DoMpc
section Structures

/-- `castools.entry(name, repeat=rep, struct=sub)` (`_mpc.py:1119-1124`) -/
structure SEntry where
  name : String
  rep : List Nat
  sub : Layout

/-- length of the entry in the flat vector -/
def SEntry.size (e : SEntry) : Nat := e.rep.prod * e.sub.size

/-- `sv.sym_struct([...])` (`_mpc.py:1118`) -/
abbrev SStruct := List SEntry

/-- `struct.shape[0]` (`_mpc.py:1126,1148`) -/
def SStruct.size (S : SStruct) : Nat := (S.map SEntry.size).sum

/-- the repeat indices of an entry in the order of the flat vector -/
def multi : List Nat → List (List Nat)
  | [] => [[]]
  | n :: ns => (List.range n).flatMap fun i => (multi ns).map (i :: ·)

/-- `struct(vals).cat`: the blocks one after the other (`_mpc.py:1137`) -/
def SStruct.cat {α : Type} (S : SStruct) (v : String → List Nat → List α) : List α :=
  S.flatMap fun e => (multi e.rep).flatMap fun i => v e.name i

/-- a Python index into a list of length `n` -/
def pyPos (n : Nat) (i : Int) : Option Nat :=
  if 0 ≤ i then (if i < n then some i.toNat else none) else if -(n : Int) ≤ i then some (n + i).toNat else none

/-- number of the block within the entry -/
def ravel : List Nat → List Int → Option Nat
  | [], [] => some 0
  | n :: ns, i :: is =>
    match pyPos n i, ravel ns is with
    | some a, some r => some (a * ns.prod + r)
    | _, _ => none
  | _, _ => none

/-- the entry with its start in the flat vector -/
def SStruct.find : SStruct → String → Option (Nat × SEntry)
  | [], _ => none
  | e :: S, nm => if e.name = nm then some (0, e) else (SStruct.find S nm).map fun q => (e.size + q.1, q.2)

/-- start of an entry of the block -/
def Layout.start : Layout → String → Option (Nat × Nat)
  | [], _ => none
  | e :: L, nm => if e.1 = nm then some (0, e.2) else (Layout.start L nm).map fun q => (e.2 + q.1, q.2)

/-- `struct.f[name, i, …]`: flat positions of a block (`optimizer.py:237`, `_nlpdifferentiator.py:781`); `none` if it raises -/
def SStruct.f (S : SStruct) (nm : String) (idx : List Int) : Option (List Nat) :=
  (S.find nm).bind fun q => (ravel q.2.rep idx).map fun r => (List.range q.2.sub.size).map fun j => q.1 + r * q.2.sub.size + j

/-- `struct.f[name, i, …, var]`: flat positions of a variable within a block -/
def SStruct.fSub (S : SStruct) (nm : String) (idx : List Int) (var : String) : Option (List Nat) :=
  (S.find nm).bind fun q => (ravel q.2.rep idx).bind fun r => (q.2.sub.start var).map fun t =>
    (List.range t.2).map fun j => q.1 + r * q.2.sub.size + t.1 + j

/-- `struct(vec)[name, i, …]` (`_mpc.py:1015`) -/
def SStruct.read {α : Type} (S : SStruct) (v : Nat → α) (nm : String) (idx : List Int) : List α := ((S.f nm idx).getD []).map v

end Structures

section Mpc
variable {K : Type} [Field K] [LinearOrder K] {d : Dims}

/-- names and sizes of the model's variables (`model._x`, …) -/
structure VarNames where
  x : Layout
  z : Layout
  u : Layout
  tvp : Layout
  p : Layout

/-- `_eps` (`optimizer.py:553-555`) -/
def epsLayout (calls : List (NlCall K d)) : Layout := (slackVars calls).map fun c => (c.name, c.dim)

/-- `_opt_x` (`_mpc.py:1118-1125`) -/
def MpcCfg.optX (cfg : MpcCfg K d) (V : VarNames) : SStruct :=
  [⟨"_x", [cfg.N + 1, cfg.nMax, 1 + cfg.ifcn.ncoll], V.x⟩, ⟨"_z", [cfg.N, cfg.nMax, max cfg.ifcn.ncoll 1], V.z⟩,
   ⟨"_u", [cfg.N, cfg.nU], V.u⟩, ⟨"_eps", [cfg.nEps, cfg.nMax], epsLayout cfg.nl⟩]

/-- `_opt_p` (`_mpc.py:1140-1145`) -/
def MpcCfg.optP (cfg : MpcCfg K d) (V : VarNames) : SStruct :=
  [⟨"_x0", [], V.x⟩, ⟨"_tvp", [cfg.N + 1], V.tvp⟩, ⟨"_p", [cfg.c], V.p⟩, ⟨"_u_prev", [], V.u⟩]

/-- the blocks of `opt_x` -/
def OptX.block (w : OptX K d) (calls : List (NlCall K d)) : String → List Nat → List K
  | "_x", [k, s, i] => List.ofFn (w.x k s i)
  | "_z", [k, s, i] => List.ofFn (w.z k s i)
  | "_u", [k, s] => List.ofFn (w.u k s)
  | "_eps", [k, s] => (epsLayout calls).flat (w.eps k s)
  | _, _ => []

/-- the blocks of `opt_p` -/
def OptP.block (q : OptP K d) : String → List Nat → List K
  | "_x0", [] => List.ofFn q.x0
  | "_tvp", [k] => List.ofFn (q.tvp k)
  | "_p", [c] => List.ofFn (q.p c)
  | "_u_prev", [] => List.ofFn q.uPrev
  | _, _ => []

/-- `opt_x.cat` (`_mpc.py:1137`) -/
def MpcCfg.catX (cfg : MpcCfg K d) (V : VarNames) (w : OptX K d) : List K := (cfg.optX V).cat (w.block cfg.nl)

/-- `opt_p.cat` -/
def MpcCfg.catP (cfg : MpcCfg K d) (V : VarNames) (q : OptP K d) : List K := (cfg.optP V).cat q.block

/-- a block as a vector -/
def vecOf {n : Nat} (l : List K) : Vec K n := fun j => l.getD j 0

/-- `opt_x(vec)`: the solution of the solver as a structure (`opt_x_num.master = r['x']`, `optimizer.py:772`) -/
def MpcCfg.ofX (cfg : MpcCfg K d) (V : VarNames) (v : Nat → K) : OptX K d where
  x := fun k s i => vecOf ((cfg.optX V).read v "_x" [k, s, i])
  z := fun k s i => vecOf ((cfg.optX V).read v "_z" [k, s, i])
  u := fun k s => vecOf ((cfg.optX V).read v "_u" [k, s])
  eps := fun k s n i => ((epsLayout cfg.nl).entry ((cfg.optX V).read v "_eps" [k, s]) n).getD i 0

/-- `opt_p(vec)` -/
def MpcCfg.ofP (cfg : MpcCfg K d) (V : VarNames) (v : Nat → K) : OptP K d where
  x0 := vecOf ((cfg.optP V).read v "_x0" [])
  tvp := fun k => vecOf ((cfg.optP V).read v "_tvp" [k])
  p := fun c => vecOf ((cfg.optP V).read v "_p" [c])
  uPrev := vecOf ((cfg.optP V).read v "_u_prev" [])

/-- `opt_x_scaling` (`_mpc.py:1132-1135`): ones, then the scaling of states, algebraic states and inputs -/
def MpcCfg.scalingX (cfg : MpcCfg K d) : OptX K d := ⟨fun _ _ _ => cfg.sx, fun _ _ _ => cfg.sz, fun _ _ => cfg.su, fun _ _ _ _ => 1⟩

/-- `x_scaling_factors` (`_nlpdifferentiator.py:765`) -/
def MpcCfg.scalingFlat (cfg : MpcCfg K d) (V : VarNames) (i : Nat) : K := (cfg.catX V cfg.scalingX).getD i 0

/-- the blocks of `_lb_opt_x`, `_ub_opt_x` (`_mpc.py:1159-1160`) -/
def OptXBounds.block (B : OptXBounds K d) (calls : List (NlCall K d)) : String → List Nat → List (Bound K)
  | "_x", [k, s, i] => List.ofFn (B.x k s i)
  | "_z", [k, s, i] => List.ofFn (B.z k s i)
  | "_u", [k, s] => List.ofFn (B.u k s)
  | "_eps", [k, s] => (epsLayout calls).flat (B.eps k s)
  | _, _ => []

/-- the vectors `lbx`, `ubx` of the solver call (`optimizer.py:756-757`) -/
def MpcCfg.flatLb (cfg : MpcCfg K d) (V : VarNames) : List (Bound K) := (cfg.optX V).cat (cfg.lbx.block cfg.nl)
/-- see `MpcCfg.flatLb` -/
def MpcCfg.flatUb (cfg : MpcCfg K d) (V : VarNames) : List (Bound K) := (cfg.optX V).cat (cfg.ubx.block cfg.nl)

/-- `f` of the NLP in the flat vectors (`_mpc.py:1296`) -/
def MpcCfg.flatObj (cfg : MpcCfg K d) (V : VarNames) (v q : Nat → K) : K := cfg.obj (cfg.ofX V v) (cfg.ofP V q)

/-- `g` of the NLP in the flat vectors with `lbg`, `ubg` (`_mpc.py:1286-1296`) -/
def MpcCfg.flatRows (cfg : MpcCfg K d) (V : VarNames) (v q : Nat → K) : List (Row K) := cfg.rows (cfg.ofX V v) (cfg.ofP V q)

/-- a feasible point of the NLP as the solver sees it: a vector within `lbx`, `ubx`, whose constraints are within `lbg`, `ubg` -/
def MpcCfg.FlatFeasible (cfg : MpcCfg K d) (V : VarNames) (v q : Nat → K) : Prop :=
  (∀ r ∈ cfg.flatRows V v q, r.Holds) ∧ ∀ i < (cfg.optX V).size, ((cfg.flatLb V).getD i .ninf).le (v i) ∧ ((cfg.flatUb V).getD i .pinf).ge (v i)

end Mpc

section Sensitivities

/-- `sens_num['dxdp', indexf[qx], indexf[qp]]` (`_nlpdifferentiator.py:772-789,853-856,862-870`): the rows of the block of `opt_x`, the columns of the
block of `opt_p` of the matrix that `differentiate` stored; `none` if it raises -/
def sensNum {α : Type} (SX SP : SStruct) (dxdp : Nat → Nat → α) (nx : String) (ix : List Int) (np : String) (ip : List Int) : Option (List (List α)) :=
  (SX.f nx ix).bind fun rows => (SP.f np ip).map fun cols => rows.map fun r => cols.map fun c => dxdp r c

end Sensitivities
end DoMpc
