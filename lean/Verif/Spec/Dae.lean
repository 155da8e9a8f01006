import Verif.Model.Basic
import Mathlib.Analysis.Calculus.Deriv.Basic
import Mathlib.Analysis.Normed.Module.FiniteDimension

/-!
# Solutions of differential(-algebraic) equations on `[0, T]`
-/
namespace DoMpc.Dae.Spec
open Set

/-- `ξ` (flat vectors of length `n`) solves `ξ' = rhs(t, ξ)` on `[0, T]`, entry by entry. -/
def SolvesOde (n : Nat) (rhs : ℝ → List ℝ → List ℝ) (ξ : ℝ → List ℝ) (T : ℝ) : Prop :=
  ∀ t ∈ Icc 0 T, (rhs t (ξ t)).length = n ∧
    ∀ i < n, HasDerivWithinAt (fun s => (ξ s).getD i 0) ((rhs t (ξ t)).getD i 0) (Icc 0 T) t

/-- `x' = f(t, x, u, z)`, `0 = g(x, u, z)` on `[0, T]`; `f` and `g` take and return flat vectors. -/
def SolvesDae {nx nu nz : Nat} (f : ℝ → List ℝ → List ℝ → List ℝ → List ℝ) (g : List ℝ → List ℝ → List ℝ → List ℝ)
    (x : ℝ → Fin nx → ℝ) (u : ℝ → Fin nu → ℝ) (z : ℝ → Fin nz → ℝ) (T : ℝ) : Prop :=
  ∀ t ∈ Icc 0 T,
    (∀ i : Fin nx, HasDerivWithinAt (fun s => x s i) ((f t (List.ofFn (x t)) (List.ofFn (u t)) (List.ofFn (z t))).getD i 0) (Icc 0 T) t) ∧
    ∀ i < nz, (g (List.ofFn (x t)) (List.ofFn (u t)) (List.ofFn (z t))).getD i 0 = 0

end DoMpc.Dae.Spec
