import Verif.Model.Mpc
import Verif.Model.Data

/-!
# The MPC controller at run time

Models `MPC.make_step` (`/repo/do_mpc/controller/_mpc.py:966-1050`), `Optimizer.solve` (`/repo/do_mpc/optimizer.py:731-787`),
`Optimizer.reset_history` (`optimizer.py:442-447`), `MPC.set_initial_guess` (`_mpc.py:946-964`) and `_prepare_data`
(`optimizer.py:448-481`).

The solver is an arbitrary function of its arguments, a new one for every call, so nothing is assumed about it.  The user's
`tvp_fun`/`p_fun` are functions of time.  CasADi's flattening of structures (`.cat`) is an arbitrary map to vectors.
-/
namespace DoMpc
variable {K : Type} [Field K] [LinearOrder K] {d : Dims}

/-- `opt_aux['_aux', k, s]` (`_mpc.py:1257-1264`): assigned once per branch `b`, so the last one remains. -/
def MpcCfg.auxAt (cfg : MpcCfg K d) (m : DaeModel K d) (w : OptX K d) (q : OptP K d) (k s : Nat) : Vec K d.naux :=
  (List.range (nBranches cfg.c cfg.nRobust k)).foldl
    (fun _ b => m.aux (cfg.xPhys w k s cfg.xLast) (cfg.uPhys w k (cfg.sU s)) (cfg.zPhys w k s cfg.zLast) (q.tvp k) (q.p (cfg.cur k s b))) 0

/-- What does not change between calls. -/
structure MpcEnv (K : Type) (d : Dims) where
  model : DaeModel K d
  cfg : MpcCfg K d
  /-- `settings.t_step` -/
  tStep : K
  tvpFun : K → Nat → Vec K d.ntv
  pFun : K → Nat → Vec K d.np
  /-- numbers of entries of `opt_x`, `opt_p`, `opt_aux`, `nlp_cons` and the flattening of the structures -/
  nOptX : Nat
  nOptP : Nat
  nOptAux : Nat
  nLagr : Nat
  flatX : OptX K d → Vec K nOptX
  flatP : OptP K d → Vec K nOptP
  flatAux : OptX K d → OptP K d → Vec K nOptAux
  /-- `settings.store_full_solution`, `store_lagr_multiplier`, `store_solver_stats` -/
  storeFull : Bool := true
  storeLam : Bool := true
  storeStats : List String := []

/-- Keyword arguments of the solver call that vary (`optimizer.py:753-769`); bounds are those of `MpcCfg.lbx`, … -/
structure SolverArgs (K : Type) (d : Dims) where
  x0 : OptX K d
  p : OptP K d
  lam : Option (List K × List K)

/-- Result of a solver call (`optimizer.py:771-778`). -/
structure SolverResult (K : Type) (d : Dims) (nLagr : Nat) where
  x : OptX K d
  lamG : Vec K nLagr
  lamX : List K
  stats : List (String × PyVal K)

/-- Attributes of the controller that change. -/
structure MpcSt (K : Type) (d : Dims) where
  setup : Bool
  t0 : K
  x0 : Vec K d.nx
  u0 : Vec K d.nu
  z0 : Vec K d.nz
  /-- `opt_x_num`, `opt_p_num` -/
  optX : OptX K d
  optP : OptP K d
  /-- `lam_g_num`, `lam_x_num` -/
  lamG : List K
  lamX : List K
  /-- `flags['initial_run']`, `flags['set_initial_guess']` -/
  initialRun : Bool
  guessSet : Bool
  data : Data K

/-- `data_fields` after `_prepare_data` (`data.py:64-73`, `optimizer.py:448-481`); `_eps` is never written by the MPC. -/
def MpcEnv.fields (E : MpcEnv K d) (nEps : Nat) : List (String × Nat) :=
  [("_time", 1), ("_x", d.nx), ("_y", d.ny), ("_u", d.nu), ("_z", d.nz), ("_tvp", d.ntv), ("_p", d.np), ("_aux", d.naux),
   ("_eps", nEps), ("opt_p_num", E.nOptP)] ++
  (if E.storeFull then [("_opt_x_num", E.nOptX), ("_opt_aux_num", E.nOptAux)] else []) ++
  (if E.storeLam then [("_lam_g_num", E.nLagr)] else []) ++
  E.storeStats.map fun s => (s, 1)

/-- vector as a row -/
def PyVal.vec {n : Nat} (v : Vec K n) : PyVal K := .arr (List.ofFn v)

/-- The arguments with which `solve` calls the solver (`optimizer.py:753-769`). -/
def MpcSt.solverArgs (st : MpcSt K d) : SolverArgs K d :=
  { x0 := st.optX, p := st.optP, lam := if st.initialRun then some (st.lamG, st.lamX) else none }

/-- `solve` (`optimizer.py:731-787`) for a set-up controller. -/
def MpcSt.solve {n : Nat} (S : SolverArgs K d → SolverResult K d n) (st : MpcSt K d) : MpcSt K d :=
  let r := S st.solverArgs
  { st with optX := r.x, lamG := List.ofFn r.lamG, lamX := r.lamX, initialRun := true }

/-- `opt_x_num_unscaled` (`optimizer.py:773`). -/
def MpcEnv.unscaled (E : MpcEnv K d) (w : OptX K d) : OptX K d :=
  { w with x := fun k s i => E.cfg.xPhys w k s i, u := fun k s => E.cfg.uPhys w k s, z := fun k s i => E.cfg.zPhys w k s i }

/-- The key word arguments of the successive `data.update` calls of `make_step` (`_mpc.py:1017-1041`). -/
def MpcEnv.record (E : MpcEnv K d) (t : K) (x0 : Vec K d.nx) (q : OptP K d) (r : SolverResult K d E.nLagr) : List (String × PyVal K) :=
  [("_x", .vec x0), ("_u", .vec (E.cfg.uPhys r.x 0 0)), ("_z", .vec (E.cfg.zPhys r.x 0 0 0)), ("_tvp", .vec (q.tvp 0)),
   ("_p", .vec (q.p 0)), ("_time", .arr [t]), ("_aux", .vec (E.cfg.auxAt E.model r.x q 0 0)), ("opt_p_num", .vec (E.flatP q))] ++
  (if E.storeFull then [("_opt_x_num", .vec (E.flatX (E.unscaled r.x))), ("_opt_aux_num", .vec (E.flatAux r.x q))] else []) ++
  (if E.storeLam then [("_lam_g_num", .vec r.lamG)] else []) ++
  (if E.storeStats ≠ [] then r.stats.filter fun s => s.1 ∈ E.storeStats else [])

/-- `make_step` (`_mpc.py:966-1050`): the state after the call and the returned input or the error. -/
def MpcEnv.makeStep (E : MpcEnv K d) (S : SolverArgs K d → SolverResult K d E.nLagr) (st : MpcSt K d) (x0 : List K) :
    MpcSt K d × Except String (Vec K d.nu) :=
  if !st.setup then (st, .error "AssertionError") else
  if h : x0.length = d.nx then
    let x : Vec K d.nx := fun i => x0.get (i.cast h.symm)
    let st := { st with guessSet := true }
    let uPrev := st.u0
    let tvp := E.tvpFun st.t0
    let p := E.pFun st.t0
    let st := { st with optP := { x0 := x, tvp := tvp, p := p, uPrev := uPrev } }
    let r := S st.solverArgs
    let st := st.solve S
    let u := E.cfg.uPhys r.x 0 0
    let z := E.cfg.zPhys r.x 0 0 0
    match st.data.update (E.record st.t0 x st.optP r) with
    | (D, some e) => ({ st with data := D }, .error e)
    | (D, none) => ({ st with data := D, t0 := st.t0 + E.tStep, x0 := x, u0 := u, z0 := z }, .ok u)
  else (st, .error "AssertionError")

/-- `reset_history` (`optimizer.py:442-447`). -/
def MpcSt.resetHistory (st : MpcSt K d) : MpcSt K d := { st with data := st.data.initStorage, t0 := 0 }

/-- `set_initial_guess` (`_mpc.py:946-964`). -/
def MpcEnv.setInitialGuess (E : MpcEnv K d) (st : MpcSt K d) : MpcSt K d × Option String :=
  if !st.setup then (st, some "AssertionError") else
  ({ st with
      optX := { st.optX with x := fun _ _ _ => st.x0 / E.cfg.sx, u := fun _ _ => st.u0 / E.cfg.su, z := fun _ _ _ => st.z0 / E.cfg.sz }
      guessSet := true }, none)

/-- The controller right after `setup` with the given initial values: zero structures, empty log (`_mpc.py:1275-1279`,
`_iteratedvariables.py:39-43`). -/
def MpcEnv.fresh (E : MpcEnv K d) (nEps : Nat) (x0 : Vec K d.nx) (u0 : Vec K d.nu) (z0 : Vec K d.nz) : MpcSt K d :=
  { setup := true, t0 := 0, x0 := x0, u0 := u0, z0 := z0
    optX := ⟨fun _ _ _ => 0, fun _ _ _ => 0, fun _ _ => 0, fun _ _ _ _ => 0⟩
    optP := ⟨0, fun _ => 0, fun _ => 0, 0⟩
    lamG := [], lamX := [], initialRun := false, guessSet := false
    data := Data.new (E.fields nEps) }

end DoMpc
