import Verif.Model.Flat
import Verif.Model.MheRun

/-!
# The vectors handed to the solver by the moving horizon estimator

`/repo/do_mpc/estimator/_mhe.py:1049-1081,1093-1094`; structures as in `Model/Flat`.
-/
namespace DoMpc
variable {K : Type} [Field K] [LinearOrder K] {d : Dims} {ne ns : Nat}

/-- names and sizes of the variables: those of the model and the parts `_p_est`, `_p_set` of the parameters (`_mhe.py:163-171`) -/
structure MheNames extends VarNames where
  w : Layout
  v : Layout
  y : Layout
  pEst : Layout
  pSet : Layout

/-- `_opt_x` (`_mhe.py:1049-1057`) -/
def MheCfg.optX (cfg : MheCfg K d ne ns) (V : MheNames) : SStruct :=
  [⟨"_x", [cfg.N + 1, 1 + cfg.ifcn.ncoll], V.x⟩, ⟨"_z", [cfg.N, max cfg.ifcn.ncoll 1], V.z⟩, ⟨"_u", [cfg.N], V.u⟩, ⟨"_w", [cfg.N], V.w⟩, ⟨"_v", [cfg.N], V.v⟩,
   ⟨"_eps", [cfg.nEps], epsLayout cfg.nl⟩, ⟨"_p_est", [], V.pEst⟩]

/-- `_opt_p` (`_mhe.py:1075-1081`); `_p_est_prev` has the entries of `_p_est` -/
def MheCfg.optP (cfg : MheCfg K d ne ns) (V : MheNames) : SStruct :=
  [⟨"_x_prev", [], V.x⟩, ⟨"_p_est_prev", [], V.pEst⟩, ⟨"_p_set", [], V.pSet⟩, ⟨"_tvp", [cfg.N], V.tvp⟩, ⟨"_y_meas", [cfg.N], V.y⟩]

/-- the blocks of `opt_x` -/
def MheX.block (o : MheX K d ne) (calls : List (NlCall K d)) : String → List Nat → List K
  | "_x", [k, i] => List.ofFn (o.x k i)
  | "_z", [k, i] => List.ofFn (o.z k i)
  | "_u", [k] => List.ofFn (o.u k)
  | "_w", [k] => List.ofFn (o.w k)
  | "_v", [k] => List.ofFn (o.v k)
  | "_eps", [k] => (epsLayout calls).flat (o.eps k)
  | "_p_est", [] => List.ofFn o.pEst
  | _, _ => []

/-- the blocks of `opt_p` -/
def MheP.block (q : MheP K d ne ns) : String → List Nat → List K
  | "_x_prev", [] => List.ofFn q.xPrev
  | "_p_est_prev", [] => List.ofFn q.pEstPrev
  | "_p_set", [] => List.ofFn q.pSet
  | "_tvp", [k] => List.ofFn (q.tvp k)
  | "_y_meas", [k] => List.ofFn (q.yMeas k)
  | _, _ => []

/-- `opt_x.cat` (`_mhe.py:1072`) -/
def MheCfg.catX (cfg : MheCfg K d ne ns) (V : MheNames) (o : MheX K d ne) : List K := (cfg.optX V).cat (o.block cfg.nl)

/-- `opt_p.cat` -/
def MheCfg.catP (cfg : MheCfg K d ne ns) (V : MheNames) (q : MheP K d ne ns) : List K := (cfg.optP V).cat q.block

/-- `opt_x(vec)`: the solution of the solver as a structure (`optimizer.py:772`) -/
def MheCfg.ofX (cfg : MheCfg K d ne ns) (V : MheNames) (v : Nat → K) : MheX K d ne where
  x := fun k i => vecOf ((cfg.optX V).read v "_x" [k, i])
  z := fun k i => vecOf ((cfg.optX V).read v "_z" [k, i])
  u := fun k => vecOf ((cfg.optX V).read v "_u" [k])
  w := fun k => vecOf ((cfg.optX V).read v "_w" [k])
  v := fun k => vecOf ((cfg.optX V).read v "_v" [k])
  eps := fun k n i => ((epsLayout cfg.nl).entry ((cfg.optX V).read v "_eps" [k]) n).getD i 0
  pEst := vecOf ((cfg.optX V).read v "_p_est" [])

/-- `opt_p(vec)` -/
def MheCfg.ofP (cfg : MheCfg K d ne ns) (V : MheNames) (v : Nat → K) : MheP K d ne ns where
  xPrev := vecOf ((cfg.optP V).read v "_x_prev" [])
  pEstPrev := vecOf ((cfg.optP V).read v "_p_est_prev" [])
  pSet := vecOf ((cfg.optP V).read v "_p_set" [])
  tvp := fun k => vecOf ((cfg.optP V).read v "_tvp" [k])
  yMeas := fun k => vecOf ((cfg.optP V).read v "_y_meas" [k])

/-- `opt_x_scaling` (`_mhe.py:1065-1070`): ones for `_w`, `_v`, `_eps` -/
def MheCfg.scalingX (cfg : MheCfg K d ne ns) : MheX K d ne :=
  ⟨fun _ _ => cfg.sx, fun _ _ => cfg.sz, fun _ => cfg.su, fun _ => 1, fun _ => 1, fun _ _ _ => 1, cfg.sp⟩

/-- `x_scaling_factors` (`_nlpdifferentiator.py:765`) -/
def MheCfg.scalingFlat (cfg : MheCfg K d ne ns) (V : MheNames) (i : Nat) : K := (cfg.catX V cfg.scalingX).getD i 0

/-- the blocks of `_lb_opt_x`, `_ub_opt_x`; `_w` and `_v` keep the value `b` of `opt_x(∓np.inf)` (`_mhe.py:1093-1094`) -/
def MheBounds.block (B : MheBounds K d ne) (b : Bound K) (calls : List (NlCall K d)) : String → List Nat → List (Bound K)
  | "_x", [k, i] => List.ofFn (B.x k i)
  | "_z", [k, i] => List.ofFn (B.z k i)
  | "_u", [k] => List.ofFn (B.u k)
  | "_w", [_] => List.ofFn fun _ : Fin d.nw => b
  | "_v", [_] => List.ofFn fun _ : Fin d.nv => b
  | "_eps", [k] => (epsLayout calls).flat (B.eps k)
  | "_p_est", [] => List.ofFn B.pEst
  | _, _ => []

/-- the vectors `lbx`, `ubx` of the solver call (`optimizer.py:756-757`) -/
def MheCfg.flatLb (cfg : MheCfg K d ne ns) (V : MheNames) : List (Bound K) := (cfg.optX V).cat (cfg.lbx.block .ninf cfg.nl)
/-- see `MheCfg.flatLb` -/
def MheCfg.flatUb (cfg : MheCfg K d ne ns) (V : MheNames) : List (Bound K) := (cfg.optX V).cat (cfg.ubx.block .pinf cfg.nl)

/-- `f` of the NLP in the flat vectors (`_mhe.py:1222`) -/
def MheCfg.flatObj (cfg : MheCfg K d ne ns) (V : MheNames) (v q : Nat → K) : K := cfg.obj (cfg.ofX V v) (cfg.ofP V q)

/-- `g` of the NLP in the flat vectors with `lbg`, `ubg` (`_mhe.py:1198-1200,1222`) -/
def MheCfg.flatRows (cfg : MheCfg K d ne ns) (V : MheNames) (v q : Nat → K) : Except String (List (Row K)) := cfg.rows (cfg.ofX V v) (cfg.ofP V q)

/-- a feasible point of the NLP as the solver sees it -/
def MheCfg.FlatFeasible (cfg : MheCfg K d ne ns) (V : MheNames) (v q : Nat → K) : Prop :=
  ∃ rs, cfg.flatRows V v q = .ok rs ∧ (∀ r ∈ rs, r.Holds) ∧
    ∀ i < (cfg.optX V).size, ((cfg.flatLb V).getD i .ninf).le (v i) ∧ ((cfg.flatUb V).getD i .pinf).ge (v i)

end DoMpc
