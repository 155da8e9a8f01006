import Verif.Spec.Kkt

/-!
# Solutions of a parametric NLP
-/
namespace DoMpc.Diff.Spec

/-- the admissible points of the NLP for the parameters `q` -/
structure Admissible (N : Nlp ℝ) (g : (Fin N.nx → ℝ) × (Fin N.np → ℝ) → Fin N.ng → ℝ) (x : Fin N.nx → ℝ) (q : Fin N.np → ℝ) : Prop where
  lowerG : ∀ c : Fin N.ng, ∀ b, N.lbg c = some b → b ≤ g (x, q) c
  upperG : ∀ c : Fin N.ng, ∀ b, N.ubg c = some b → g (x, q) c ≤ b
  lowerX : ∀ i : Fin N.nx, ∀ b, N.lbx i = some b → b ≤ x i
  upperX : ∀ i : Fin N.nx, ∀ b, N.ubx i = some b → x i ≤ b

/-- `x` solves the NLP for the parameters `q` (a global minimiser). -/
def Minimiser (N : Nlp ℝ) (f : (Fin N.nx → ℝ) × (Fin N.np → ℝ) → ℝ) (g : (Fin N.nx → ℝ) × (Fin N.np → ℝ) → Fin N.ng → ℝ)
    (x : Fin N.nx → ℝ) (q : Fin N.np → ℝ) : Prop :=
  Admissible N g x q ∧ ∀ x', Admissible N g x' q → f (x, q) ≤ f (x', q)

/-- `grad` is the gradient of `f + lam_g' g` for all points close to `(x, lam_g, p)`; variables that do not occur have no influence on `f`. -/
structure LagrangianOf (N : Nlp ℝ) (f : (Fin N.nx → ℝ) × (Fin N.np → ℝ) → ℝ) (g : (Fin N.nx → ℝ) × (Fin N.np → ℝ) → Fin N.ng → ℝ)
    (grad : (Fin N.nx → ℝ) × (Fin N.ng → ℝ) × (Fin N.np → ℝ) → Fin N.nx → ℝ) (x l p : Nat → ℝ) : Prop where
  gradient : ∀ᶠ z in nhds (toFin N.nx x, toFin N.ng l, toFin N.np p), ∃ D : (Fin N.nx → ℝ) →L[ℝ] ℝ,
    HasFDerivAt (fun y => f (y, z.2.2) + ∑ c, z.2.1 c * g (y, z.2.2) c) D z.1 ∧ ∀ dx, D dx = ∑ i, grad z i * dx i
  fX : ∀ (y y' : Fin N.nx → ℝ) (q : Fin N.np → ℝ), (∀ i : Fin N.nx, N.depX i = true → y i = y' i) → f (y, q) = f (y', q)

end DoMpc.Diff.Spec
