import Verif.Model.Lifecycle
import Verif.Model.MpcRun

/-!
# A controller from `setup()` on: configuration and run time together

`Model/Lifecycle.lean` has the attributes which configuration calls write, `Model/MpcRun.lean` those which `make_step` writes.  A live MPC object has both: `make_step`
(`/repo/do_mpc/controller/_mpc.py:966-1050`) gives the solver the problem that the object holds *now* – the objective and constraints of the last `create_nlp`, the bounds as
they were assigned last (`/repo/do_mpc/optimizer.py:753-769`).
-/
namespace DoMpc
variable {K : Type} [Field K] [LinearOrder K] {d : Dims}

/-- A solver: what it answers depends on the problem and on the arguments of the call. -/
abbrev Solver (K : Type) (d : Dims) (n : Nat) := SolverProblem K d → SolverArgs K d → SolverResult K d n

/-- The MPC object. -/
structure Live (K : Type) (d : Dims) where
  obj : MpcObj K d
  st : MpcSt K d

/-- The run-time environment of the object: problem structure and scaling copied by `prepare_nlp`, except that the returned input and `z0` are unscaled with the attributes
`_u_scaling`, `_z_scaling` (`_mpc.py:1015-1016`).  Simplification: `_opt_x_num` and `_aux` of the log are unscaled by these, too (`prepare_nlp` made copies of them). -/
def MpcEnv.on (E : MpcEnv K d) (o : MpcObj K d) (P : Prepared K d) : MpcEnv K d := { E with cfg := { P.cfg with su := o.su, sz := o.sz } }

/-- `make_step(x0)` (`_mpc.py:966-1050`): the assertions, `solve()` – the multipliers must have the length of `opt_x` (`optimizer.py:753-769`) –, the log. -/
def Live.makeStep (E : MpcEnv K d) (S : Solver K d E.nLagr) (l : Live K d) (x0 : List K) : Live K d × Except String (Vec K d.nu) :=
  if l.obj.setup = false ∨ x0.length ≠ d.nx then (l, .error "AssertionError") else
  match l.obj.problem, l.obj.prep with
  | some pb, some P =>
    match l.obj.solve with
    | (_, some e) => (l, .error e)
    | (o, none) =>
      let r := (E.on l.obj P).makeStep (S pb) l.st x0
      (⟨o, r.1⟩, r.2)
  | _, _ => (l, .error "AttributeError")

/-- `solve()` called by the user (`optimizer.py:731-787`) -/
def Live.solve {n : Nat} (S : Solver K d n) (l : Live K d) : Live K d × Option String :=
  match l.obj.problem with
  | some pb =>
    match l.obj.solve with
    | (_, some e) => (l, some e)
    | (o, none) => (⟨o, l.st.solve (S pb)⟩, none)
  | none => (l, some "AssertionError")

/-- What a user does with the object after `setup()`. -/
inductive LiveEv (K : Type) (d : Dims) (n : Nat) where
  /-- a configuration call or an assignment to `bounds` (`MpcObj.exec`) -/
  | config (op : MpcOp K d)
  | step (x0 : List K) (S : Solver K d n)
  | solve (S : Solver K d n)
  | reset
  | guess
  /-- `mpc.x0 = …`, `mpc.u0 = …`, `mpc.z0 = …`, `mpc.t0 = …` (`/repo/do_mpc/model/_iteratedvariables.py:60-253`), values of the right size -/
  | setX0 (x : Vec K d.nx)
  | setU0 (u : Vec K d.nu)
  | setZ0 (z : Vec K d.nz)
  | setT0 (t : K)

/-- One event: the object afterwards and, for `make_step`, the result.  Errors of the other calls are caught by the caller. -/
def Live.exec (mk : Vec K d.nx → Vec K d.nu → Vec K d.nz → Ifcn K d) (E : MpcEnv K d) (l : Live K d) :
    LiveEv K d E.nLagr → Live K d × Option (Except String (Vec K d.nu))
  | .config op => (⟨(l.obj.exec mk op).1, l.st⟩, none)
  | .step x0 S => ((l.makeStep E S x0).1, some (l.makeStep E S x0).2)
  | .solve S => ((l.solve S).1, none)
  | .reset => (⟨l.obj, l.st.resetHistory⟩, none)
  | .guess =>
    match l.obj.prep with
    | some P => (⟨l.obj, ((E.on l.obj P).setInitialGuess l.st).1⟩, none)
    | none => (l, none)
  | .setX0 x => (⟨l.obj, { l.st with x0 := x }⟩, none)
  | .setU0 u => (⟨l.obj, { l.st with u0 := u }⟩, none)
  | .setZ0 z => (⟨l.obj, { l.st with z0 := z }⟩, none)
  | .setT0 t => (⟨l.obj, { l.st with t0 := t }⟩, none)

/-- The object after a sequence of events. -/
def Live.run (mk : Vec K d.nx → Vec K d.nu → Vec K d.nz → Ifcn K d) (E : MpcEnv K d) (l : Live K d) : List (LiveEv K d E.nLagr) → Live K d
  | [] => l
  | e :: es => Live.run mk E (l.exec mk E e).1 es

/-- The events with the results of `make_step`. -/
def Live.history (mk : Vec K d.nx → Vec K d.nu → Vec K d.nz → Ifcn K d) (E : MpcEnv K d) (l : Live K d) :
    List (LiveEv K d E.nLagr) → List (LiveEv K d E.nLagr × Option (Except String (Vec K d.nu)))
  | [] => []
  | e :: es => (e, (l.exec mk E e).2) :: Live.history mk E (l.exec mk E e).1 es

/-- The object right after `setup()`, with initial values `x0`, `u0`, `z0` (`_prepare_data`, `optimizer.py:448-481`; `t0 = 0`). -/
def Live.start (E : MpcEnv K d) (o : MpcObj K d) (nEps : Nat) (x0 : Vec K d.nx) (u0 : Vec K d.nu) (z0 : Vec K d.nz) : Live K d :=
  ⟨o, E.fresh nEps x0 u0 z0⟩

end DoMpc
