import Verif.Model.LiveOutLoop
import Verif.Spec.LiveSafe
import Verif.Spec.MheLive

/-!
# Output feedback with configured objects

What the estimator has to know at the beginning, how controller and estimator have to fit, and what may happen in the script; in terms of the calls, of attributes the user can read
(`simulator.x0`, `simulator.t0`, `mpc.t0`) and of what an ideal estimator remembers.
-/
namespace DoMpc.Spec
variable {K : Type} [Field K] [LinearOrder K] {d : Dims} {ne ns n n' : Nat}

/-- Calls to a simulator after `setup()` which leave model, time step and functions for parameters as they are. -/
def SimLater : SimOp K d → Prop
  | .settings _ | .setTvpFun _ _ | .setPFun _ _ | .setup => False
  | _ => True

/-- What an ideal estimator (`Memory`) knows suffices at the time `t`, the plant being in the state `x`: its clock is right, it estimates the parameters `pT` and is given `pG`,
it is told the time-varying parameters `tvS` of the plant, the measurements are those of `make_step`; the plant moved for (at least) the last `n_horizon - 1` steps within bounds and
constraints of the estimator, the measurements remembered last are exact, and the prior of the first state in the window is the state then. -/
structure Informed (task : EstimationTask K d ne ns) (dt : K) (tvS : K → Vec K d.ntv) (pT : Vec K ne) (pG : Vec K ns) (M : Memory K d ne ns) (t : K) (x : Vec K d.nx) : Prop where
  time : M.t = t
  params : M.p = pT
  given : ∀ t, M.pFun t = pG
  tvp : ∀ t, ∀ k < task.N, M.tvpFun t k = tvS (t - ((task.N - 1 - k : Nat) : K) * dt)
  measurements : M.yFun = none
  window : ∃ old X U Z, let tv := fun k : Nat => tvS (t - ((task.N - 1 - k : Nat) : K) * dt)
    task.NoiseFreeRun (task.N - 1) X U Z tv pT pG ∧ X (task.N - 1) = x ∧ M.prior = X 0 ∧
    M.ys = old ++ (List.range (task.N - 1)).map fun k => List.ofFn (task.measured X U Z tv pT pG k)

/-- All calls of nonlinear constraints hold, soft ones up to their maximum violation. -/
def CallsHold (calls : List (MpcOp K d)) (x : Vec K d.nx) (u : Vec K d.nu) (z : Vec K d.nz) (tv : Vec K d.ntv) (p : Vec K d.np) : Prop :=
  ∀ call ∈ calls.filterMap nlConsOf, ∀ i < call.dim,
    if call.soft then ∃ v, 0 ≤ v ∧ call.maxViolation.ge v ∧ call.ub.ge (call.expr x u z tv p i - v) else call.ub.ge (call.expr x u z tv p i)

/-- What the bounds and constraints of the controller admit is admitted by the estimator. -/
structure Covers (S : MpcSettings) (calls : List (MpcOp K d)) (task : EstimationTask K d ne ns) : Prop where
  states : ∀ x, (if (lastOf settingsOf calls S).N = 1 then InTerminalBounds S calls x else InStateBounds calls x) → Within task.xlb task.xub x
  inputs : ∀ u, InInputBounds calls u → Within task.ulb task.uub u
  algebraic : ∀ z, InAlgebraicBounds calls z → Within task.zlb task.zub z
  constraints : ∀ x u z tv p, CallsHold calls x u z tv p → ∀ call ∈ task.cons, ∀ i < call.dim, call.ub.ge (call.expr x u z tv p i)

/-- What is done with the estimator between two turns: assignments to `x0`, `u0`, `z0` and refused configuration calls. -/
def QuietEstimator : MheLiveEv K d ne ns n → Prop
  | .setX0 _ | .setU0 _ | .setZ0 _ => True
  | .config (.bound _ _ _) | .config (.setTvpFun _ _) | .config (.setPFun _ _) | .config (.setYFun _ _) | .config (.makeStep _) | .config .resetHistory => False
  | .config op => MheLater op
  | _ => False

/-- Events considered: turns with solvers which find a feasible point (controller) and a best explanation (estimator), what `SafeEv` admits for controller and simulator, and
`QuietEstimator`. -/
def SafeOutEv (o : MpcObj K d) (names names' : List String) : OutEv K d ne ns n n' → Prop
  | .turn Sc Se => (FindsPoint o Sc ∧ ReportsNumbers names Sc) ∧ GlobalSolver names' Se
  | .ctrl e => SafeEv o names (.ctrl e)
  | .sim op => SafeEv o names (.sim op : LoopEv K d n)
  | .est e => QuietEstimator e

/-- The plant moved from `x` to `x'` by the model's equations without noise; input, algebraic state and next state are within the controller's bounds, its constraints hold. -/
def SafeMove (S : MpcSettings) (calls : List (MpcOp K d)) (m : DaeModel K d) (x : Vec K d.nx) (tv : Vec K d.ntv) (p : Vec K d.np) (u : Vec K d.nu) (x' : Vec K d.nx)
    (y : Vec K d.ny) : Prop :=
  ∃ z, m.alg x u z tv p 0 = 0 ∧ x' = m.rhs x u z tv p 0 ∧ y = m.meas x' u z tv p 0 ∧ InInputBounds calls u ∧ InAlgebraicBounds calls z ∧
    (if (lastOf settingsOf calls S).N = 1 then InTerminalBounds S calls x' else InStateBounds calls x') ∧ CallsHold calls x u z tv p

end DoMpc.Spec

namespace DoMpc
open Spec
variable {K : Type} [Field K] [LinearOrder K] {d : Dims}

/-- The simulator's model is `m`, in discrete time; the algebraic equations have at most one solution, which the simulator's root finder finds.  (As `DiscretePlant`, for any
measurement equation.) -/
structure OutputPlant (m : DaeModel K d) (T : SimTools K d) : Prop where
  model : T.model = m
  root : ∃ root, (∀ dt, T.build dt = .discrete root) ∧ ∀ z x u tv p, m.alg x u (root z x u tv p 0) tv p 0 = 0
  unique : ∀ x u z z' tv p, m.alg x u z tv p 0 = 0 → m.alg x u z' tv p 0 = 0 → z = z'

end DoMpc
