import Verif.Model.LiveLoop
import Verif.Model.MheLive

/-!
# Controller, simulator and moving horizon estimator in the user's loop, from `setup()` on

The loop of `/repo/examples/rotating_oscillating_masses_mhe_mpc/main.py:134-140`: `u0 = mpc.make_step(x0)`, `y_next = simulator.make_step(u0)`, `x0 = mhe.make_step(y_next)`
(without the noise that the example adds), together with what the user may do with the three objects between two turns.
-/
namespace DoMpc
variable {K : Type} [Field K] [LinearOrder K] {d : Dims} {ne ns : Nat}

/-- The three objects and the variable `x0` of the script. -/
structure LiveOut (K : Type) (d : Dims) (ne ns : Nat) where
  ctrl : Live K d
  sim : SimObj K d
  est : MheLive K d ne ns
  x : List K

/-- What happens in the script. -/
inductive OutEv (K : Type) (d : Dims) (ne ns n n' : Nat) where
  /-- something is done with the controller -/
  | ctrl (e : LiveEv K d n)
  /-- something is done with the simulator -/
  | sim (op : SimOp K d)
  /-- something is done with the estimator -/
  | est (e : MheLiveEv K d ne ns n')
  /-- one turn of the loop; `Sc`, `Se` are what the solvers of controller and estimator do in it -/
  | turn (Sc : Solver K d n) (Se : MheSolver K d ne ns n')

section
variable (T : SimTools K d) (mk : Vec K d.nx → Vec K d.nu → Vec K d.nz → Ifcn K d) (E : MpcEnv K d) (TM : MheTools K d ne ns) (EM : MheEnv K d ne ns)

/-- One turn: input, measurement and estimate, or the exception of the call that raised (`/repo/do_mpc/controller/_mpc.py:966-1050`, `/repo/do_mpc/simulator.py:617-706`,
`/repo/do_mpc/estimator/_mhe.py:886-990`). -/
def LiveOut.turn (Sc : Solver K d E.nLagr) (Se : MheSolver K d ne ns EM.nLagr) (l : LiveOut K d ne ns) :
    LiveOut K d ne ns × Except String (Vec K d.nu × Vec K d.ny × Vec K d.nx) :=
  match l.ctrl.makeStep E Sc l.x with
  | (c, .error e) => (⟨c, l.sim, l.est, l.x⟩, .error e)
  | (c, .ok u) =>
    match l.sim.step T { u := some (List.ofFn u) } with
    | (s, .error e) => (⟨c, s, l.est, l.x⟩, .error e)
    | (s, .ok y) =>
      match l.est.makeStep EM Se (List.ofFn y) with
      | (m, .error e) => (⟨c, s, m, l.x⟩, .error e)
      | (m, .ok x) => (⟨c, s, m, List.ofFn x⟩, .ok (u, y, x))

/-- One event: the objects afterwards and, for a turn, the result.  Exceptions are caught by the script. -/
def LiveOut.exec (l : LiveOut K d ne ns) : OutEv K d ne ns E.nLagr EM.nLagr → LiveOut K d ne ns × Option (Except String (Vec K d.nu × Vec K d.ny × Vec K d.nx))
  | .ctrl e => ({ l with ctrl := (l.ctrl.exec mk E e).1 }, none)
  | .sim op => ({ l with sim := (l.sim.exec T op).1 }, none)
  | .est e => ({ l with est := (l.est.exec TM EM e).1 }, none)
  | .turn Sc Se => ((l.turn T E EM Sc Se).1, some (l.turn T E EM Sc Se).2)

/-- The script after a sequence of events. -/
def LiveOut.run (l : LiveOut K d ne ns) : List (OutEv K d ne ns E.nLagr EM.nLagr) → LiveOut K d ne ns
  | [] => l
  | e :: es => LiveOut.run (l.exec T mk E TM EM e).1 es

end
end DoMpc
