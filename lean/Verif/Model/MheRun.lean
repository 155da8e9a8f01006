import Verif.Model.Mhe
import Verif.Model.MpcRun

/-!
# The moving horizon estimator at run time

Models `MHE.make_step` (`/repo/do_mpc/estimator/_mhe.py:886-990`), the default measurement function (`_mhe.py:839-853`),
`set_initial_guess` (`_mhe.py:861-884`), together with `Optimizer.solve` (`/repo/do_mpc/optimizer.py:731-787`),
`Optimizer.reset_history` (`optimizer.py:442-447`; `MHE(Optimizer, Estimator)` inherits this one).

As for the controller, the solver is an arbitrary function, a new one in every call, and the flattening of CasADi structures is an
arbitrary map.
-/
namespace DoMpc
variable {K : Type} [Field K] [LinearOrder K] {d : Dims} {ne ns : Nat}

/-- What does not change between calls. -/
structure MheEnv (K : Type) (d : Dims) (ne ns : Nat) where
  cfg : MheCfg K d ne ns
  tStep : K
  /-- `tvp_fun`: the template has `n_horizon+1` entries (`optimizer.py:588-630`), of which the problem takes the first `n_horizon` -/
  tvpFun : K → Nat → Vec K d.ntv
  pFun : K → Vec K ns
  /-- the user's measurement function; `none`: the default one (`settings.meas_from_data`) -/
  yFun : Option (K → Nat → Vec K d.ny) := none
  nOptX : Nat
  nOptP : Nat
  nOptAux : Nat
  nLagr : Nat
  flatX : MheX K d ne → Vec K nOptX
  flatP : MheP K d ne ns → Vec K nOptP
  flatAux : MheX K d ne → MheP K d ne ns → Vec K nOptAux
  storeFull : Bool := true
  storeLam : Bool := true
  storeStats : List String := []

/-- Arguments of the solver call that vary (`optimizer.py:753-769`). -/
structure MheArgs (K : Type) (d : Dims) (ne ns : Nat) where
  x0 : MheX K d ne
  p : MheP K d ne ns
  lam : Option (List K × List K)

/-- Result of a solver call (`optimizer.py:771-778`). -/
structure MheResult (K : Type) (d : Dims) (ne nLagr : Nat) where
  x : MheX K d ne
  lamG : Vec K nLagr
  lamX : List K
  stats : List (String × PyVal K)

/-- Attributes of the estimator that change. -/
structure MheSt (K : Type) (d : Dims) (ne ns : Nat) where
  setup : Bool
  t0 : K
  x0 : Vec K d.nx
  u0 : Vec K d.nu
  z0 : Vec K d.nz
  pEst0 : Vec K ne
  optX : MheX K d ne
  optP : MheP K d ne ns
  lamG : List K
  lamX : List K
  initialRun : Bool
  guessSet : Bool
  /-- `y_template` captured by the default measurement function -/
  yTmpl : Nat → Vec K d.ny
  data : Data K

/-- `data_fields` after `_prepare_data` (`data.py:64-73`, `optimizer.py:448-481`). -/
def MheEnv.fields (E : MheEnv K d ne ns) (nEps : Nat) : List (String × Nat) :=
  [("_time", 1), ("_x", d.nx), ("_y", d.ny), ("_u", d.nu), ("_z", d.nz), ("_tvp", d.ntv), ("_p", d.np), ("_aux", d.naux),
   ("_eps", nEps), ("opt_p_num", E.nOptP)] ++
  (if E.storeFull then [("_opt_x_num", E.nOptX), ("_opt_aux_num", E.nOptAux)] else []) ++
  (if E.storeLam then [("_lam_g_num", E.nLagr)] else []) ++
  E.storeStats.map fun s => (s, 1)

/-- a logged row as a vector -/
def rowVec {n : Nat} (row : List K) : Vec K n := fun i => row.getD i 0

/-- `y_template['y_meas', k] = v` -/
def setAt {α : Type} (T : Nat → α) (k : Nat) (v : α) : Nat → α := fun j => if j = k then v else T j

/-- The default `y_fun` (`_mhe.py:844-853`) on the logged measurements `ys`: first `y_meas[-n_steps … -1] = _y[-n_steps … -1]`, then
`y_meas[0 … N-n_steps-1] = _y[-n_steps]`.  With an empty log (`n_steps = 0`) the second loop reads `_y[0]`, whose `IndexError` is
swallowed. -/
def defaultYFun (N : Nat) (ys : List (List K)) (T : Nat → Vec K d.ny) : Nat → Vec K d.ny :=
  let n := min ys.length N
  let T1 := (List.range n).foldl (fun T j => setAt T (N - n + j) (rowVec (ys.getD (ys.length - n + j) []))) T
  if n = 0 then T1 else (List.range (N - n)).foldl (fun T k => setAt T k (rowVec (ys.getD (ys.length - n) []))) T1

/-- `y_fun(t)` with the measurements `ys` in the log (`_mhe.py:839-859`): the user's function or the default one. -/
def MheEnv.yTraj (E : MheEnv K d ne ns) (t : K) (ys : List (List K)) (T : Nat → Vec K d.ny) : Nat → Vec K d.ny :=
  match E.yFun with
  | some f => f t
  | none => defaultYFun E.cfg.N ys T

/-- `opt_x_num_unscaled` (`optimizer.py:773`). -/
def MheCfg.unscaled (cfg : MheCfg K d ne ns) (o : MheX K d ne) : MheX K d ne :=
  { o with x := fun k i => cfg.xPhys o k i, u := fun k => cfg.uPhys o k, z := fun k i => cfg.zPhys o k i, pEst := cfg.pEstPhys o }

/-- The key word arguments of the `data.update` calls after the solver (`_mhe.py:959-982`).  `x0`, `pEst0` are the values *before* the
call. -/
def MheEnv.record (E : MheEnv K d ne ns) (t : K) (x0 : Vec K d.nx) (pEst0 : Vec K ne) (q : MheP K d ne ns)
    (r : MheResult K d ne E.nLagr) : List (String × PyVal K) :=
  [("_x", .vec x0), ("_u", .vec (E.cfg.uPhys r.x (E.cfg.N - 1))), ("_z", .vec (E.cfg.zPhys r.x (E.cfg.N - 1) E.cfg.zLast)),
   ("_p", .vec (E.cfg.cat pEst0 q.pSet)), ("_tvp", .vec (E.tvpFun t E.cfg.N)), ("_time", .arr [t]),
   ("_aux", .vec (E.cfg.auxAt r.x q (E.cfg.N - 1))), ("opt_p_num", .vec (E.flatP q))] ++
  (if E.storeFull then [("_opt_x_num", .vec (E.flatX (E.cfg.unscaled r.x))), ("_opt_aux_num", .vec (E.flatAux r.x q))] else []) ++
  (if E.storeLam then [("_lam_g_num", .vec r.lamG)] else []) ++
  (if E.storeStats ≠ [] then r.stats.filter fun s => s.1 ∈ E.storeStats else [])

/-- `make_step` (`_mhe.py:886-990`): the state after the call and the returned estimate or the error. -/
def MheEnv.makeStep (E : MheEnv K d ne ns) (S : MheArgs K d ne ns → MheResult K d ne E.nLagr) (st : MheSt K d ne ns) (y0 : List K) :
    MheSt K d ne ns × Except String (Vec K d.nx) :=
  if !st.setup then (st, .error "AssertionError") else
  if y0.length ≠ d.ny then (st, .error "AssertionError") else
  let st := { st with guessSet := true }
  match st.data.update [("_y", .arr y0)] with
  | (D, some e) => ({ st with data := D }, .error e)
  | (D, none) =>
    let tvp := E.tvpFun st.t0
    let pSet := E.pFun st.t0
    let y := E.yTraj st.t0 (D.rows "_y") st.yTmpl
    let q : MheP K d ne ns :=
      { xPrev := E.cfg.xPhys st.optX 1 E.cfg.xLast, pEstPrev := st.pEst0, pSet := pSet, tvp := tvp, yMeas := y }
    let r := S { x0 := st.optX, p := q, lam := if st.initialRun then some (st.lamG, st.lamX) else none }
    let st := { st with data := D, optP := q, optX := r.x, lamG := List.ofFn r.lamG, lamX := r.lamX, initialRun := true, yTmpl := y }
    match st.data.update (E.record st.t0 st.x0 st.pEst0 q r) with
    | (D, some e) => ({ st with data := D }, .error e)
    | (D, none) =>
      let xNext := E.cfg.xPhys r.x E.cfg.N E.cfg.xLast
      ({ st with
          data := D, t0 := st.t0 + E.tStep, x0 := xNext, pEst0 := E.cfg.pEstPhys r.x
          u0 := E.cfg.uPhys r.x (E.cfg.N - 1), z0 := E.cfg.zPhys r.x (E.cfg.N - 1) E.cfg.zLast }, .ok xNext)

/-- `reset_history` (`optimizer.py:442-447`). -/
def MheSt.resetHistory (st : MheSt K d ne ns) : MheSt K d ne ns := { st with data := st.data.initStorage, t0 := 0 }

/-- `set_initial_guess` (`_mhe.py:861-884`). -/
def MheEnv.setInitialGuess (E : MheEnv K d ne ns) (st : MheSt K d ne ns) : MheSt K d ne ns × Option String :=
  if !st.setup then (st, some "AssertionError") else
  ({ st with
      optX := { st.optX with x := fun _ _ => st.x0 / E.cfg.sx, u := fun _ => st.u0 / E.cfg.su, z := fun _ _ => st.z0 / E.cfg.sz
                             pEst := st.pEst0 / E.cfg.sp }
      guessSet := true }, none)

/-- The estimator right after `setup` with the given initial values (`_mhe.py:1186-1191`). -/
def MheEnv.fresh (E : MheEnv K d ne ns) (nEps : Nat) (x0 : Vec K d.nx) (u0 : Vec K d.nu) (z0 : Vec K d.nz) (p0 : Vec K ne) :
    MheSt K d ne ns :=
  { setup := true, t0 := 0, x0 := x0, u0 := u0, z0 := z0, pEst0 := p0
    optX := ⟨fun _ _ => 0, fun _ _ => 0, fun _ => 0, fun _ => 0, fun _ => 0, fun _ _ _ => 0, 0⟩
    optP := ⟨0, 0, 0, fun _ => 0, fun _ => 0⟩
    lamG := [], lamX := [], initialRun := false, guessSet := false, yTmpl := fun _ => 0
    data := Data.new (E.fields nEps) }

end DoMpc
