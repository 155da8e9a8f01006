import Verif.Model.Live
import Verif.Model.SimLife

/-!
# A controller and a simulator in the user's loop, from `setup()` on

The loop of the examples (`/repo/examples/*/main.py`): `u0 = mpc.make_step(x0)`, `y_next = simulator.make_step(u0)`, `x0 = estimator.make_step(y_next)` with a `StateFeedback`
estimator, together with everything the user may do with the two objects between two turns.
-/
namespace DoMpc
variable {K : Type} [Field K] [LinearOrder K] {d : Dims}

/-- `simulator.make_step(u0, v0, w0)` with what it returns (`/repo/do_mpc/simulator.py:617-706`; `SimObj.exec` has the same without the measurement) -/
def SimObj.step (T : SimTools K d) (o : SimObj K d) (c : SimCall K) : SimObj K d × Except String (Vec K d.ny) :=
  match o.plant, o.tStep, o.tvpFun, o.pFun with
  | some P, some dt, some tf, some pf =>
    let r := SimEnv.makeStep ⟨T.model, P, dt, tf, pf⟩ o.st c
    ({ o with st := r.1 }, r.2)
  | _, _, _, _ => (o, .error "AssertionError")

/-- The two objects and the variable `x0` of the script. -/
structure LiveLoop (K : Type) (d : Dims) where
  ctrl : Live K d
  sim : SimObj K d
  x : List K

/-- What happens in the script. -/
inductive LoopEv (K : Type) (d : Dims) (n : Nat) where
  /-- something is done with the controller -/
  | ctrl (e : LiveEv K d n)
  /-- something is done with the simulator -/
  | sim (op : SimOp K d)
  /-- one turn of the loop; `S` is what the solver does in it -/
  | turn (S : Solver K d n)
  /-- a new episode: `mpc.reset_history()`, `simulator.reset_history()`, `mpc.x0 = simulator.x0 = x0 = x` -/
  | restart (x : Vec K d.nx)

/-- One turn: input and measurement, or the exception of the call that raised (`_mpc.py:966-1050`, `simulator.py:617-706`, `/repo/do_mpc/estimator/_base.py:63-79`: the estimate
is the measurement). -/
def LiveLoop.turn (T : SimTools K d) (E : MpcEnv K d) (S : Solver K d E.nLagr) (l : LiveLoop K d) : LiveLoop K d × Except String (Vec K d.nu × Vec K d.ny) :=
  match l.ctrl.makeStep E S l.x with
  | (c, .error e) => (⟨c, l.sim, l.x⟩, .error e)
  | (c, .ok u) =>
    match l.sim.step T { u := some (List.ofFn u) } with
    | (s, .error e) => (⟨c, s, l.x⟩, .error e)
    | (s, .ok y) => (⟨c, s, List.ofFn y⟩, .ok (u, y))

/-- A new episode (`_mpc.py`/`optimizer.py:441-447`, `simulator.py:198-203`, `/repo/do_mpc/model/_iteratedvariables.py:78-110`) -/
def LiveLoop.restart (T : SimTools K d) (mk : Vec K d.nx → Vec K d.nu → Vec K d.nz → Ifcn K d) (E : MpcEnv K d) (x : Vec K d.nx) (l : LiveLoop K d) : LiveLoop K d :=
  ⟨((l.ctrl.exec mk E .reset).1.exec mk E (.setX0 x)).1, ((l.sim.exec T .resetHistory).1.exec T (.x0 x)).1, List.ofFn x⟩

/-- One event: the objects afterwards and, for a turn, the result.  Exceptions are caught by the script. -/
def LiveLoop.exec (T : SimTools K d) (mk : Vec K d.nx → Vec K d.nu → Vec K d.nz → Ifcn K d) (E : MpcEnv K d) (l : LiveLoop K d) :
    LoopEv K d E.nLagr → LiveLoop K d × Option (Except String (Vec K d.nu × Vec K d.ny))
  | .ctrl e => ({ l with ctrl := (l.ctrl.exec mk E e).1 }, none)
  | .sim op => ({ l with sim := (l.sim.exec T op).1 }, none)
  | .turn S => ((l.turn T E S).1, some (l.turn T E S).2)
  | .restart x => (l.restart T mk E x, none)

/-- The script after a sequence of events. -/
def LiveLoop.run (T : SimTools K d) (mk : Vec K d.nx → Vec K d.nu → Vec K d.nz → Ifcn K d) (E : MpcEnv K d) (l : LiveLoop K d) : List (LoopEv K d E.nLagr) → LiveLoop K d
  | [] => l
  | e :: es => LiveLoop.run T mk E (l.exec T mk E e).1 es

/-- The events with the results of the turns. -/
def LiveLoop.history (T : SimTools K d) (mk : Vec K d.nx → Vec K d.nu → Vec K d.nz → Ifcn K d) (E : MpcEnv K d) (l : LiveLoop K d) :
    List (LoopEv K d E.nLagr) → List (LoopEv K d E.nLagr × Option (Except String (Vec K d.nu × Vec K d.ny)))
  | [] => []
  | e :: es => (e, (l.exec T mk E e).2) :: LiveLoop.history T mk E (l.exec T mk E e).1 es

/-- The script right after both `setup()` calls and `mpc.x0 = simulator.x0 = x0`. -/
def LiveLoop.start (T : SimTools K d) (E : MpcEnv K d) (o : MpcObj K d) (s : SimObj K d) (nEps : Nat) (x0 : Vec K d.nx) (u0 : Vec K d.nu) (z0 : Vec K d.nz) : LiveLoop K d :=
  ⟨Live.start E o nEps x0 u0 z0, (s.exec T (.x0 x0)).1, List.ofFn x0⟩

end DoMpc
