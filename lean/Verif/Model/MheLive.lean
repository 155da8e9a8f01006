import Verif.Model.MheLife
import Verif.Model.MheRun

/-!
# An estimator from `setup()` on: configuration and run time together

`Model/MheLife.lean` has the attributes which configuration calls write, `Model/MheRun.lean` those which `make_step` writes.  A live MHE object has both: `make_step`
(`/repo/do_mpc/estimator/_mhe.py:886-990`) gives the solver the problem that the object holds *now* (`/repo/do_mpc/optimizer.py:753-769`), with the functions for parameters
and measurements that the object holds now (`_mhe.py:928-941`).  The attributes `t0`, `ys`, `yTmpl` of `MheObj` are not used here: they are those of `MheSt`.
-/
namespace DoMpc
variable {K : Type} [Field K] [LinearOrder K] {d : Dims} {ne ns : Nat}

/-- What the solver is given besides initial values, parameters and multipliers: the functions of `create_nlp`, the bounds (with the structure of `opt_x`). -/
structure MheSolverProblem (K : Type) (d : Dims) (ne ns : Nat) where
  funs : MheFuns K d ne ns
  prep : MhePrepared K d ne ns

/-- the problem the object holds (`optimizer.py:753-763`) -/
def MheObj.problem (o : MheObj K d ne ns) : Option (MheSolverProblem K d ne ns) :=
  match o.solver, o.prep with
  | some F, some P => some ⟨F, P⟩
  | _, _ => none

/-- A solver: what it answers depends on the problem and on the arguments of the call. -/
abbrev MheSolver (K : Type) (d : Dims) (ne ns n : Nat) := MheSolverProblem K d ne ns → MheArgs K d ne ns → MheResult K d ne n

/-- The MHE object. -/
structure MheLive (K : Type) (d : Dims) (ne ns : Nat) where
  obj : MheObj K d ne ns
  st : MheSt K d ne ns

/-- The run-time environment of the object: the structure of the prepared problem, the scaling attributes (`_mhe.py:942,951-956`), the functions set last and the sampling time
of the settings (`_mhe.py:928-941,984`).  Simplification: `_opt_x_num` and `_aux` of the log are unscaled by these, too (`prepare_nlp` made copies of them). -/
def MheEnv.on (E : MheEnv K d ne ns) (o : MheObj K d ne ns) (P : MhePrepared K d ne ns) : MheEnv K d ne ns :=
  { E with cfg := { P.cfg with sx := o.sx, su := o.su, sz := o.sz, sp := o.sp }, tStep := o.set.tStep, tvpFun := o.tvpFun.getD fun _ _ => 0, pFun := o.pFun.getD fun _ => 0,
           yFun := match o.yFun with | some (.user f) => some f | _ => none }

/-- `make_step(y0)` (`_mhe.py:886-990`) -/
def MheLive.makeStep (E : MheEnv K d ne ns) (S : MheSolver K d ne ns E.nLagr) (l : MheLive K d ne ns) (y0 : List K) : MheLive K d ne ns × Except String (Vec K d.nx) :=
  if l.obj.setup = false ∨ y0.length ≠ d.ny then (l, .error "AssertionError") else
  match l.obj.problem with
  | some pb =>
    let r := (E.on l.obj pb.prep).makeStep (S pb) l.st y0
    (⟨l.obj, r.1⟩, r.2)
  | none => (l, .error "AttributeError")

/-- What a user does with the object after `setup()`. -/
inductive MheLiveEv (K : Type) (d : Dims) (ne ns n : Nat) where
  /-- a configuration call, an assignment to `bounds`, `set_tvp_fun`, `set_p_fun`, `set_y_fun` (`MheObj.exec`) -/
  | config (op : MheOp K d ne ns)
  | step (y0 : List K) (S : MheSolver K d ne ns n)
  | reset
  | guess
  /-- `mhe.x0 = …`, `mhe.u0 = …`, `mhe.z0 = …`, `mhe.t0 = …` (`/repo/do_mpc/model/_iteratedvariables.py:60-253`), `mhe.p_est0 = …` (`_mhe.py:231-265`), values of the right
  size -/
  | setX0 (x : Vec K d.nx)
  | setU0 (u : Vec K d.nu)
  | setZ0 (z : Vec K d.nz)
  | setT0 (t : K)
  | setPEst0 (p : Vec K ne)

/-- One event: the object afterwards and, for `make_step`, the result.  Errors of the other calls are caught by the caller. -/
def MheLive.exec (T : MheTools K d ne ns) (E : MheEnv K d ne ns) (l : MheLive K d ne ns) :
    MheLiveEv K d ne ns E.nLagr → MheLive K d ne ns × Option (Except String (Vec K d.nx))
  | .config op => (⟨(l.obj.exec T op).1, l.st⟩, none)
  | .step y0 S => ((l.makeStep E S y0).1, some (l.makeStep E S y0).2)
  | .reset => (⟨l.obj, l.st.resetHistory⟩, none)
  | .guess =>
    match l.obj.prep with
    | some P => (⟨l.obj, ((E.on l.obj P).setInitialGuess l.st).1⟩, none)
    | none => (l, none)
  | .setX0 x => (⟨l.obj, { l.st with x0 := x }⟩, none)
  | .setU0 u => (⟨l.obj, { l.st with u0 := u }⟩, none)
  | .setZ0 z => (⟨l.obj, { l.st with z0 := z }⟩, none)
  | .setT0 t => (⟨l.obj, { l.st with t0 := t }⟩, none)
  | .setPEst0 p => (⟨l.obj, { l.st with pEst0 := p }⟩, none)

/-- The object after a sequence of events. -/
def MheLive.run (T : MheTools K d ne ns) (E : MheEnv K d ne ns) (l : MheLive K d ne ns) : List (MheLiveEv K d ne ns E.nLagr) → MheLive K d ne ns
  | [] => l
  | e :: es => MheLive.run T E (l.exec T E e).1 es

/-- The events with the results of `make_step`. -/
def MheLive.history (T : MheTools K d ne ns) (E : MheEnv K d ne ns) (l : MheLive K d ne ns) :
    List (MheLiveEv K d ne ns E.nLagr) → List (MheLiveEv K d ne ns E.nLagr × Option (Except String (Vec K d.nx)))
  | [] => []
  | e :: es => (e, (l.exec T E e).2) :: MheLive.history T E (l.exec T E e).1 es

/-- The object right after `setup()`, with initial values (`_prepare_data`, `optimizer.py:448-481`, `_mhe.py:1186-1191`; `t0 = 0`). -/
def MheLive.start (E : MheEnv K d ne ns) (o : MheObj K d ne ns) (nEps : Nat) (x0 : Vec K d.nx) (u0 : Vec K d.nu) (z0 : Vec K d.nz) (p0 : Vec K ne) : MheLive K d ne ns :=
  ⟨o, E.fresh nEps x0 u0 z0 p0⟩

end DoMpc
