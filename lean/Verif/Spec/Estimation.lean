import Verif.Spec.Mhe
import Verif.Spec.Mpc

/-!
# Specification: the estimation problem of a moving horizon estimator

In physical units and without reference to optimisation vectors, scaling or the layout of structures.
-/
namespace DoMpc.Spec
variable {K : Type} [Field K] [LinearOrder K] {d : Dims} {ne ns : Nat}

/-- What the user specifies: model, horizon, which parameters are estimated, bounds, constraints, costs. -/
structure EstimationTask (K : Type) (d : Dims) (ne ns : Nat) where
  N : Nat
  model : DaeModel K d
  /-- the model's parameter vector from estimated and given parameters -/
  merge : Vec K ne → Vec K ns → Vec K d.np
  xlb : Fin d.nx → Bound K
  xub : Fin d.nx → Bound K
  zlb : Fin d.nz → Bound K
  zub : Fin d.nz → Bound K
  ulb : Fin d.nu → Bound K
  uub : Fin d.nu → Bound K
  plb : Fin ne → Bound K
  pub : Fin ne → Bound K
  cons : List (NlCall K d)
  /-- one slack for the whole window instead of one per interval -/
  singleSlack : Bool
  stage : Vec K d.nw → Vec K d.nv → Vec K d.ntv → Vec K d.np → K
  arrival : Vec K d.nx → Vec K d.nx → Vec K ne → Vec K ne → Vec K ns → K

/-- What is known at the time of an estimate: the priors, the given and time-varying parameters, the measurements. -/
structure EstimationData (K : Type) (d : Dims) (ne ns : Nat) where
  xPrior : Vec K d.nx
  pPrior : Vec K ne
  pGiven : Vec K ns
  tvp : Nat → Vec K d.ntv
  y : Nat → Vec K d.ny

/-- A candidate explanation of the data: states `X 0 … X N`, inputs, algebraic states, noises and slacks of the intervals, estimated
parameters. -/
structure Explanation (K : Type) (d : Dims) (ne : Nat) where
  X : Nat → Vec K d.nx
  U : Nat → Vec K d.nu
  Z : Nat → Vec K d.nz
  W : Nat → Vec K d.nw
  V : Nat → Vec K d.nv
  E : Nat → Eps K
  p : Vec K ne

/-- The explanation is consistent with the model, the measurements, the constraints and the bounds. -/
def EstimationTask.Admissible (T : EstimationTask K d ne ns) (D : EstimationData K d ne ns) (e : Explanation K d ne) : Prop :=
  FollowsNoisyModel T.model T.N e.X e.U e.Z e.W D.tvp (T.merge e.p D.pGiven) ∧
  ExplainsMeasurements T.model T.N e.X e.U e.Z e.V D.tvp (T.merge e.p D.pGiven) D.y ∧
  RespectsOnWindow T.cons T.N e.X e.U e.Z D.tvp (T.merge e.p D.pGiven) e.E ∧
  (∀ k ≤ T.N, Within T.xlb T.xub (e.X k)) ∧
  (∀ k < T.N, Within T.zlb T.zub (e.Z k)) ∧
  (∀ k < T.N, Within T.ulb T.uub (e.U k)) ∧
  (∀ k < T.N, ∀ call ∈ T.cons, call.soft = true → ∀ i < call.dim,
    0 ≤ e.E k call.name i ∧ call.maxViolation.ge (e.E k call.name i)) ∧
  (T.singleSlack = true → ∀ k < T.N, e.E k = e.E 0) ∧
  Within T.plb T.pub e.p

/-- Arrival cost plus stage costs plus slack penalties. -/
def EstimationTask.cost (T : EstimationTask K d ne ns) (D : EstimationData K d ne ns) (e : Explanation K d ne) : K :=
  T.arrival (e.X 0) D.xPrior e.p D.pPrior D.pGiven +
    ((List.range T.N).map fun k => T.stage (e.W k) (e.V k) (D.tvp k) (T.merge e.p D.pGiven) + slackCost T.cons (e.E k)).sum

/-- `e` is a best explanation of the data. -/
def EstimationTask.Optimal (T : EstimationTask K d ne ns) (D : EstimationData K d ne ns) (e : Explanation K d ne) : Prop :=
  T.Admissible D e ∧ ∀ e', T.Admissible D e' → T.cost D e ≤ T.cost D e'

/-- A noise-free run of the plant over `n` steps: it is the model with parameters `pT`, `pG`, and it stays within the user's bounds and constraints. -/
def EstimationTask.NoiseFreeRun (T : EstimationTask K d ne ns) (n : Nat) (x : Nat → Vec K d.nx) (u : Nat → Vec K d.nu) (z : Nat → Vec K d.nz)
    (tv : Nat → Vec K d.ntv) (pT : Vec K ne) (pG : Vec K ns) : Prop :=
  (∀ k < n, T.model.alg (x k) (u k) (z k) (tv k) (T.merge pT pG) 0 = 0 ∧
    x (k + 1) = T.model.rhs (x k) (u k) (z k) (tv k) (T.merge pT pG) 0) ∧
  (∀ k < n, ∀ call ∈ T.cons, ∀ i < call.dim, call.ub.ge (call.expr (x k) (u k) (z k) (tv k) (T.merge pT pG) i)) ∧
  (∀ k ≤ n, Within T.xlb T.xub (x k)) ∧ (∀ k < n, Within T.zlb T.zub (z k) ∧ Within T.ulb T.uub (u k)) ∧ Within T.plb T.pub pT

/-- Its exact measurement number `k`. -/
def EstimationTask.measured (T : EstimationTask K d ne ns) (x : Nat → Vec K d.nx) (u : Nat → Vec K d.nu) (z : Nat → Vec K d.nz)
    (tv : Nat → Vec K d.ntv) (pT : Vec K ne) (pG : Vec K ns) (k : Nat) : Vec K d.ny :=
  T.model.meas (x (k + 1)) (u k) (z k) (tv k) (T.merge pT pG) 0

/-- The costs vanish exactly for no noise and an exact prior, and are positive otherwise; slacks are allowed and not rewarded. -/
def EstimationTask.DefiniteCosts (T : EstimationTask K d ne ns) : Prop :=
  (∀ w v tv p, 0 ≤ T.stage w v tv p ∧ (T.stage w v tv p = 0 ↔ w = 0 ∧ v = 0)) ∧
  (∀ x xp p pp g, 0 ≤ T.arrival x xp p pp g ∧ (T.arrival x xp p pp g = 0 ↔ x = xp ∧ p = pp)) ∧
  (∀ call ∈ T.cons, call.soft = true → 0 ≤ call.penalty ∧ call.maxViolation.ge 0)

/-- Noise-free measurements determine the inputs (e.g. because the inputs are measured), and the algebraic equations the algebraic
states. -/
def EstimationTask.InputsObserved (T : EstimationTask K d ne ns) : Prop :=
  (∀ x x' u u' z z' tv p, T.model.meas x u z tv p 0 = T.model.meas x' u' z' tv p 0 → u = u') ∧
  (∀ x u z z' tv p, T.model.alg x u z tv p 0 = 0 → T.model.alg x u z' tv p 0 = 0 → z = z')

end DoMpc.Spec
