import Verif.Spec.Differentiator

/-!
# Constraint qualification, strict complementarity, conditions of second order
-/
namespace DoMpc.Diff.Spec

open scoped BigOperators

variable {K : Type} [Field K] [LinearOrder K] [IsStrictOrderedRing K]

/-- The gradients of the active constraints and bounds are linearly independent. -/
def LICQ (N : Nlp K) (x p : Nat → K) (actG actX : Nat → Prop) : Prop :=
  ∀ muG muX : Nat → K, (∀ i < N.nx, ∑ c ∈ Finset.range N.ng, muG c * N.jac x p c i + muX i = 0) →
    (∀ c < N.ng, ¬ actG c → muG c = 0) → (∀ i < N.nx, ¬ actX i → muX i = 0) → (∀ c < N.ng, muG c = 0) ∧ ∀ i < N.nx, muX i = 0

/-- Strict complementarity up to a tolerance: multipliers of active constraints and bounds are not small. -/
def StrictCompl (N : Nlp K) (tol : K) (s : Sol K) (actG actX : Nat → Prop) : Prop :=
  (∀ c < N.ng, actG c → tol ≤ |s.lamG c|) ∧ ∀ i < N.nx, actX i → tol ≤ |s.lamX i|

/-- The condition of second order: the Hessian of the Lagrangian is positive on directions that keep the active constraints (and change a variable that
occurs in the problem). -/
def SecondOrder (N : Nlp K) (x l p : Nat → K) (actG actX : Nat → Prop) : Prop :=
  ∀ d : Nat → K, (∀ c < N.ng, actG c → ∑ j ∈ Finset.range N.nx, N.jac x p c j * d j = 0) → (∀ i < N.nx, actX i → d i = 0) →
    (∃ i < N.nx, N.depX i = true ∧ d i ≠ 0) →
    0 < ∑ i ∈ Finset.range N.nx, d i * ∑ j ∈ Finset.range N.nx, N.hxx x l p i j * d j

end DoMpc.Diff.Spec
