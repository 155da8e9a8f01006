import Verif.Spec.MultiStage
import Verif.Spec.Collocation

/-!
# The robust multi-stage problem for continuous-time models, discretised by collocation

As `Spec.MultiStage`, but between two decision times the model is a differential-algebraic equation, and a policy contains for each branch the piecewise
polynomial trajectory of the states and the algebraic states at the collocation points.
-/
namespace DoMpc.Spec
open Polynomial
variable {K : Type} [Field K] [LinearOrder K] {d : Dims}

/-- The data of the problem: degree and number of the elements per interval, collocation points, length of an interval, and whether the bounds are
imposed on all points. -/
structure CollStage (K : Type) (d : Dims) extends MultiStage K d where
  deg : Nat
  ni : Nat
  tau : Nat → K
  tStep : K
  allPoints : Bool

/-- A policy: states at the decision times, inputs, slacks; polynomials and algebraic states of each branch (named by the history after it). -/
structure CollPolicy (K : Type) [Field K] (d : Dims) where
  X : Nat → List Nat → Vec K d.nx
  U : Nat → List Nat → Vec K d.nu
  E : Nat → List Nat → Eps K
  P : Nat → List Nat → Nat → Fin d.nx → K[X]
  ζ : Nat → List Nat → Nat → Nat → Vec K d.nz

/-- What is seen at the decision times; the algebraic state is the one at the beginning of the interval. -/
def CollPolicy.atNodes (π : CollPolicy K d) : Policy K d := ⟨π.X, π.U, fun k h => π.ζ k h 0 0, π.E⟩

/-- The policy may be applied. -/
structure CollStage.Admissible (S : CollStage K d) (π : CollPolicy K d) : Prop where
  start : π.X 0 [] = S.x0
  dynamics : ∀ k < S.N, ∀ h, IsHistory S.c S.nR k h → ∀ r, MayOccur S.c S.nR k h r →
    IsCollocationSolution S.model S.deg S.ni S.tau (S.tStep / S.ni) (π.X k h) (π.U k h) (S.tvp k) (S.p r) 0
      (π.X (k + 1) (extend S.nR k h r)) (π.P k (extend S.nR k h r)) (π.ζ k (extend S.nR k h r))
  states : ∀ k, 1 ≤ k → k < S.N → ∀ h, IsHistory S.c S.nR k h → ∀ j, (S.xlb j).le (π.X k h j) ∧ (S.xub j).ge (π.X k h j)
  /-- … at the collocation points of every interval but the last -/
  inside : S.allPoints = true → ∀ k, k + 1 < S.N → ∀ h, IsHistory S.c S.nR (k + 1) h → ∀ i < S.ni, ∀ j ≤ S.deg, ¬ (i = 0 ∧ j = 0) → ∀ e,
    (S.xlb e).le (valueAt (π.P k h i) (S.tau j) e) ∧ (S.xub e).ge (valueAt (π.P k h i) (S.tau j) e)
  terminal : ∀ h, IsHistory S.c S.nR S.N h → ∀ j, (S.xtlb j).le (π.X S.N h j) ∧ (S.xtub j).ge (π.X S.N h j)
  inputs : ∀ k < S.N, ∀ h, IsHistory S.c S.nR k h → ∀ j, (S.ulb j).le (π.U k h j) ∧ (S.uub j).ge (π.U k h j)
  algebraic : ∀ k < S.N, ∀ h, IsHistory S.c S.nR (k + 1) h → ∀ i < S.ni, ∀ j ≤ S.deg, (S.allPoints = true ∨ (i = 0 ∧ j = 0)) → ∀ e,
    (S.zlb e).le (π.ζ k h i j e) ∧ (S.zub e).ge (π.ζ k h i j e)
  constraints : ∀ k < S.N, ∀ h, IsHistory S.c S.nR k h → ∀ r, MayOccur S.c S.nR k h r → ∀ call ∈ S.cons, ∀ i < call.dim,
    if call.soft then
      call.ub.ge (call.expr (π.X k h) (π.U k h) (π.ζ k (extend S.nR k h r) 0 0) (S.tvp k) (S.p r) i - π.E k h call.name i)
    else call.ub.ge (call.expr (π.X k h) (π.U k h) (π.ζ k (extend S.nR k h r) 0 0) (S.tvp k) (S.p r) i)
  slacks : ∀ k < S.N, ∀ h, IsHistory S.c S.nR k h → ∀ call ∈ S.cons, call.soft = true → ∀ i < call.dim,
    0 ≤ π.E k h call.name i ∧ call.maxViolation.ge (π.E k h call.name i)
  oneInput : S.openLoop = true → ∀ k < S.N, ∀ h h', IsHistory S.c S.nR k h → IsHistory S.c S.nR k h' → π.U k h = π.U k h'

/-- Cost: states, inputs and algebraic states at the decision times. -/
def CollStage.policyCost (S : CollStage K d) (π : CollPolicy K d) : K := S.toMultiStage.cost π.atNodes

/-- `π` is an optimal policy. -/
def CollStage.Optimal (S : CollStage K d) (π : CollPolicy K d) : Prop :=
  S.Admissible π ∧ ∀ π', S.Admissible π' → S.policyCost π ≤ S.policyCost π'

end DoMpc.Spec
