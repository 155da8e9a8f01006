import Verif.Spec.DiffStatus
import Verif.Props.DifferentiatorDeriv
import Mathlib.Analysis.Calculus.ContDiff.Basic

/-!
# Conditions of first order of a parametric NLP
-/
namespace DoMpc.Diff.Spec

/-- The conditions of first order of `min f(x, p)` subject to `lbg ≤ g(x, p) ≤ ubg`, `lbx ≤ x ≤ ubx`, with CasADi's sign convention: a multiplier is positive
only at an upper bound, negative only at a lower bound.  `grad (x, lam_g, p)` is the gradient of `f + lam_g' g` with respect to `x`. -/
structure KktPoint (N : Nlp ℝ) (grad : (Fin N.nx → ℝ) × (Fin N.ng → ℝ) × (Fin N.np → ℝ) → Fin N.nx → ℝ)
    (g : (Fin N.nx → ℝ) × (Fin N.np → ℝ) → Fin N.ng → ℝ) (x : Fin N.nx → ℝ) (lG : Fin N.ng → ℝ) (lX : Fin N.nx → ℝ) (p : Fin N.np → ℝ) : Prop where
  stationarity : ∀ i, grad (x, lG, p) i + lX i = 0
  lowerG : ∀ c : Fin N.ng, ∀ b, N.lbg c = some b → b ≤ g (x, p) c
  upperG : ∀ c : Fin N.ng, ∀ b, N.ubg c = some b → g (x, p) c ≤ b
  lowerX : ∀ i : Fin N.nx, ∀ b, N.lbx i = some b → b ≤ x i
  upperX : ∀ i : Fin N.nx, ∀ b, N.ubx i = some b → x i ≤ b
  posG : ∀ c : Fin N.ng, 0 < lG c → N.ubg c = some (g (x, p) c)
  negG : ∀ c : Fin N.ng, lG c < 0 → N.lbg c = some (g (x, p) c)
  posX : ∀ i : Fin N.nx, 0 < lX i → N.ubx i = some (x i)
  negX : ∀ i : Fin N.nx, lX i < 0 → N.lbx i = some (x i)

/-- The functions of the NLP: continuously differentiable at the point, with the derivatives of `N`; variables that do not occur have no influence. -/
structure Smooth (N : Nlp ℝ) (grad : (Fin N.nx → ℝ) × (Fin N.ng → ℝ) × (Fin N.np → ℝ) → Fin N.nx → ℝ)
    (g : (Fin N.nx → ℝ) × (Fin N.np → ℝ) → Fin N.ng → ℝ) (x l p : Nat → ℝ) : Prop where
  contGrad : ContDiffAt ℝ 1 grad (toFin _ x, toFin _ l, toFin _ p)
  contG : ContDiffAt ℝ 1 g (toFin _ x, toFin _ p)
  derivatives : Derivatives N grad g x l p
  gradX : ∀ (x x' : Fin N.nx → ℝ) (l : Fin N.ng → ℝ) (p : Fin N.np → ℝ), (∀ i : Fin N.nx, N.depX i = true → x i = x' i) → grad (x, l, p) = grad (x', l, p)
  gX : ∀ (x x' : Fin N.nx → ℝ) (p : Fin N.np → ℝ), (∀ i : Fin N.nx, N.depX i = true → x i = x' i) → g (x, p) = g (x', p)
  gradZero : ∀ z (i : Fin N.nx), N.depX i = false → grad z i = 0

end DoMpc.Diff.Spec
