import Verif.Spec.Estimation
import Verif.Spec.Collocation

/-!
# Specification: the estimation problem for continuous-time models

As `Spec.Estimation`, but between two measurements the state follows the model's differential-algebraic equations, discretised by collocation.
-/
namespace DoMpc.Spec
open Polynomial
variable {K : Type} [Field K] [LinearOrder K] {d : Dims} {ne ns : Nat}

/-- … with degree and number of the elements of an interval, the collocation points and the length of an interval. -/
structure CollEstimation (K : Type) (d : Dims) (ne ns : Nat) extends EstimationTask K d ne ns where
  deg : Nat
  ni : Nat
  tau : Nat → K
  tStep : K

/-- A candidate explanation: states `X 0 … X N` at the sampling times, inputs, noises and slacks of the intervals, estimated parameters, and for every interval the polynomials
of the state and the algebraic states at the collocation points. -/
structure CollExplanation (K : Type) [Field K] (d : Dims) (ne : Nat) where
  X : Nat → Vec K d.nx
  U : Nat → Vec K d.nu
  W : Nat → Vec K d.nw
  V : Nat → Vec K d.nv
  E : Nat → Eps K
  p : Vec K ne
  P : Nat → Nat → Fin d.nx → K[X]
  ζ : Nat → Nat → Nat → Vec K d.nz

/-- The explanation is consistent with the model, the measurements, the constraints and the bounds.  A measurement is taken at the end of its interval: with the state
there and the algebraic state at the last point. -/
structure CollEstimation.Admissible (T : CollEstimation K d ne ns) (D : EstimationData K d ne ns) (e : CollExplanation K d ne) : Prop where
  dynamics : ∀ k < T.N, IsCollocationSolution T.model T.deg T.ni T.tau (T.tStep / T.ni) (e.X k) (e.U k) (D.tvp k) (T.merge e.p D.pGiven) (e.W k)
    (e.X (k + 1)) (e.P k) (e.ζ k)
  measurements : ∀ k < T.N, T.model.meas (e.X (k + 1)) (e.U k) (e.ζ k (T.ni - 1) T.deg) (D.tvp k) (T.merge e.p D.pGiven) (e.V k) = D.y k
  constraints : RespectsOnWindow T.cons T.N e.X e.U (fun k => e.ζ k 0 0) D.tvp (T.merge e.p D.pGiven) e.E
  states : ∀ k ≤ T.N, Within T.xlb T.xub (e.X k)
  inside : ∀ k < T.N, ∀ i < T.ni, ∀ j ≤ T.deg, ¬ (i = 0 ∧ j = 0) → Within T.xlb T.xub (valueAt (e.P k i) (T.tau j))
  algebraic : ∀ k < T.N, ∀ i < T.ni, ∀ j ≤ T.deg, Within T.zlb T.zub (e.ζ k i j)
  inputs : ∀ k < T.N, Within T.ulb T.uub (e.U k)
  slacks : ∀ k < T.N, ∀ call ∈ T.cons, call.soft = true → ∀ i < call.dim, 0 ≤ e.E k call.name i ∧ call.maxViolation.ge (e.E k call.name i)
  oneSlack : T.singleSlack = true → ∀ k < T.N, e.E k = e.E 0
  params : Within T.plb T.pub e.p

/-- Arrival cost plus stage costs plus slack penalties. -/
def CollEstimation.explanationCost (T : CollEstimation K d ne ns) (D : EstimationData K d ne ns) (e : CollExplanation K d ne) : K :=
  T.arrival (e.X 0) D.xPrior e.p D.pPrior D.pGiven +
    ((List.range T.N).map fun k => T.stage (e.W k) (e.V k) (D.tvp k) (T.merge e.p D.pGiven) + slackCost T.cons (e.E k)).sum

/-- `e` is a best explanation of the data. -/
def CollEstimation.Optimal (T : CollEstimation K d ne ns) (D : EstimationData K d ne ns) (e : CollExplanation K d ne) : Prop :=
  T.Admissible D e ∧ ∀ e', T.Admissible D e' → T.explanationCost D e ≤ T.explanationCost D e'

/-- A run of the plant over `n` intervals without noise: it is the model with parameters `pT`, `pG`, and it stays within the user's bounds and constraints. -/
structure CollEstimation.NoiseFree (T : CollEstimation K d ne ns) (n : Nat) (x : Nat → Vec K d.nx) (u : Nat → Vec K d.nu)
    (P : Nat → Nat → Fin d.nx → K[X]) (ζ : Nat → Nat → Nat → Vec K d.nz) (tv : Nat → Vec K d.ntv) (pT : Vec K ne) (pG : Vec K ns) : Prop where
  dynamics : ∀ k < n, IsCollocationSolution T.model T.deg T.ni T.tau (T.tStep / T.ni) (x k) (u k) (tv k) (T.merge pT pG) 0 (x (k + 1)) (P k) (ζ k)
  constraints : ∀ k < n, ∀ call ∈ T.cons, ∀ i < call.dim, call.ub.ge (call.expr (x k) (u k) (ζ k 0 0) (tv k) (T.merge pT pG) i)
  states : ∀ k ≤ n, Within T.xlb T.xub (x k)
  inside : ∀ k < n, ∀ i < T.ni, ∀ j ≤ T.deg, ¬ (i = 0 ∧ j = 0) → Within T.xlb T.xub (valueAt (P k i) (T.tau j))
  algebraic : ∀ k < n, ∀ i < T.ni, ∀ j ≤ T.deg, Within T.zlb T.zub (ζ k i j)
  inputs : ∀ k < n, Within T.ulb T.uub (u k)
  params : Within T.plb T.pub pT

/-- Its exact measurement number `k`. -/
def CollEstimation.measuredAt (T : CollEstimation K d ne ns) (x : Nat → Vec K d.nx) (u : Nat → Vec K d.nu) (ζ : Nat → Nat → Nat → Vec K d.nz)
    (tv : Nat → Vec K d.ntv) (pT : Vec K ne) (pG : Vec K ns) (k : Nat) : Vec K d.ny :=
  T.model.meas (x (k + 1)) (u k) (ζ k (T.ni - 1) T.deg) (tv k) (T.merge pT pG) 0

/-- Noise-free measurements determine the inputs, and state, input and parameters determine the next state. -/
def CollEstimation.InputsDetermined (T : CollEstimation K d ne ns) : Prop :=
  (∀ x x' u u' z z' tv p, T.model.meas x u z tv p 0 = T.model.meas x' u' z' tv p 0 → u = u') ∧
  (∀ x u tv p x1 x2 P1 P2 ζ1 ζ2, IsCollocationSolution T.model T.deg T.ni T.tau (T.tStep / T.ni) x u tv p 0 x1 P1 ζ1 →
    IsCollocationSolution T.model T.deg T.ni T.tau (T.tStep / T.ni) x u tv p 0 x2 P2 ζ2 → x1 = x2)

end DoMpc.Spec
