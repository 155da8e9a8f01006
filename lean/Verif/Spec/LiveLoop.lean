import Verif.Model.LiveLoop
import Verif.Spec.Live
import Verif.Spec.GuaranteesColl

/-!
# What a history of the loop of a controller and a simulator means

Read off the events and the results of the turns, without reference to how the objects store anything.
-/
namespace DoMpc.Spec
variable {K : Type} [Field K] [LinearOrder K] {d : Dims} {n : Nat}

/-- An event of the loop with its result -/
abbrev LoopRow (K : Type) (d : Dims) (n : Nat) := LoopEv K d n × Option (Except String (Vec K d.nu × Vec K d.ny))

/-- Events considered: turns, new episodes, everything of `LaterEv` done with the controller except what moves only one of the two clocks (a `make_step` outside of a turn,
`reset_history()` or an assignment to `t0` of the controller alone), guesses for the algebraic states and inputs of the simulator, and its refused calls. -/
def FairEv : LoopEv K d n → Prop
  | .ctrl (.step _ _) | .ctrl .reset | .ctrl (.setT0 _) => False
  | .ctrl e => LaterEv e
  | .sim (.setParam _) | .sim (.u0 _) | .sim (.z0 _) | .sim .setInitialGuess | .sim .initAlgebraic => True
  | .sim _ => False
  | .turn _ | .restart _ => True

/-- the assignments to the controller's `bounds`, in order -/
def boundsSet (es : List (LoopEv K d n)) : List (MpcOp K d) :=
  es.filterMap fun | .ctrl (.config (.bound s v b)) => some (.bound s v b) | _ => none

/-- a measurement of the whole state, as a state -/
def asState (y : Vec K d.ny) : Vec K d.nx := fun i => (List.ofFn y).getD i 0

/-- the state that an event puts the plant into: that of a new episode, or the one measured at the end of a turn -/
def plantState : LoopRow K d n → Option (Vec K d.nx)
  | (.restart x, _) => some x
  | (.turn _, some (.ok (_, y))) => some (asState y)
  | _ => none

/-- the input that an event makes the previous one -/
def inputGiven : LoopRow K d n → Option (Vec K d.nu)
  | (.ctrl (.setU0 u), _) => some u
  | (.turn _, some (.ok (u, _))) => some u
  | _ => none

/-- a turn in which nothing raised -/
def turned : LoopRow K d n → Bool
  | (.turn _, some (.ok _)) => true
  | _ => false

/-- number of turns in this episode -/
def turns (h : List (LoopRow K d n)) : Nat := (h.reverse.takeWhile fun | (.restart _, _) => false | _ => true).countP turned

/-- What the episode was so far: after an event the state of the plant and, for each turn of the episode, the state it started from and the input. -/
def recordStep : Vec K d.nx × List (Vec K d.nx × Vec K d.nu) → LoopRow K d n → Vec K d.nx × List (Vec K d.nx × Vec K d.nu)
  | _, (.restart x, _) => (x, [])
  | (x, rows), (.turn _, some (.ok (u, y))) => (asState y, rows ++ [(x, u)])
  | a, _ => a

/-- the states and inputs of the turns of this episode, in order, if the script started at `x0` -/
def episode (x0 : Vec K d.nx) (h : List (LoopRow K d n)) : List (Vec K d.nx × Vec K d.nu) := (h.foldl recordStep (x0, [])).2

/-! ## Configuration of the simulator -/

/-- Calls before `setup()` of the simulator: time step, functions for parameters, initial values. -/
def SimConfigures : SimOp K d → Prop
  | .settings _ | .setParam _ | .setTvpFun _ _ | .setPFun _ _ | .x0 _ | .u0 _ | .z0 _ => True
  | _ => False

/-- the time step given by a call -/
def simStepOf : SimOp K d → Option K
  | .settings t => some t
  | .setParam t => some t
  | _ => none

/-- the function for time-varying parameters given by a call that is not refused -/
def simTvpOf : SimOp K d → Option (K → Vec K d.ntv)
  | .setTvpFun f true => some f
  | _ => none

/-- the function for parameters given by a call that is not refused -/
def simParamOf : SimOp K d → Option (K → Vec K d.np)
  | .setPFun f true => some f
  | _ => none

/-- The simulator was configured for the time step `dt`; the predictions `tvp` of the controller are right for the time-varying parameters of the simulator, and at
each time one of the realisations `p` of the parameters, of those the controller takes into account (the nominal one if `nR = 0`), is the simulator's. -/
structure PredictsPlant (sops : List (SimOp K d)) (dt : K) (c nR : Nat) (tvp : K → Nat → Vec K d.ntv) (p : K → Nat → Vec K d.np) : Prop where
  step : lastOf (fun op => (simStepOf op).map some) sops none = some dt
  tvp : ∀ t, lastOf simTvpOf sops (fun _ => 0) t = tvp t 0
  params : ∀ t, ∃ r, MayOccur c nR 0 [] r ∧ lastOf simParamOf sops (fun _ => 0) t = p t r

end DoMpc.Spec

namespace DoMpc
open Spec
variable {K : Type} [Field K] [LinearOrder K] {d : Dims}

/-- The simulator's model is `m`, in discrete time, its whole state is measured; the algebraic equations have at most one solution, which the simulator's root finder finds. -/
structure DiscretePlant (m : DaeModel K d) (T : SimTools K d) : Prop where
  model : T.model = m
  root : ∃ root, (∀ dt, T.build dt = .discrete root) ∧ ∀ z x u tv p, m.alg x u (root z x u tv p 0) tv p 0 = 0
  unique : ∀ x u z z' tv p, m.alg x u z tv p 0 = 0 → m.alg x u z' tv p 0 = 0 → z = z'
  measured : StateMeasured m

/-- The simulator integrates the model `m`, its whole state is measured; where the collocation equations of the controller have a solution its integrator ends where the solution
ends. -/
structure ContinuousPlant (s : Scheme K) (m : DaeModel K d) (T : SimTools K d) : Prop where
  model : T.model = m
  integ : ∃ integ, T.build s.tStep = .continuous integ ∧ ∀ z0 x u tv p x' P ζ, s.Interval m x u tv p x' P ζ → (integ x z0 u tv p 0).1 = x'
  measured : StateMeasured m

end DoMpc
