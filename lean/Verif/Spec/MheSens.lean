import Verif.Spec.FlatSens
import Verif.Spec.FlatMhe

/-!
# The NLP of an estimator in flat vectors, for the differentiator
-/
namespace DoMpc.FlatSpec
open Diff Diff.Spec
variable {d : Dims} {ne ns : Nat}

/-- `N`, with the gradient `grad` of its Lagrangian and its constraints `g`, is the NLP of the estimator in flat vectors. -/
structure IsNlpOfMhe (cfg : MheCfg ℝ d ne ns) (V : MheNames) (N : Nlp ℝ) (grad : (Fin N.nx → ℝ) × (Fin N.ng → ℝ) × (Fin N.np → ℝ) → Fin N.nx → ℝ)
    (g : (Fin N.nx → ℝ) × (Fin N.np → ℝ) → Fin N.ng → ℝ) : Prop where
  nx : N.nx = (cfg.optX V).size
  np : N.np = (cfg.optP V).size
  lbx : cfg.flatLb V = (List.range N.nx).map fun i => lowerBound (N.lbx i)
  ubx : cfg.flatUb V = (List.range N.nx).map fun i => upperBound (N.ubx i)
  rows : ∀ x p, cfg.flatRows V (ofFin x) (ofFin p) = .ok (List.ofFn fun c => ⟨lowerBound (N.lbg c), g (x, p) c, upperBound (N.ubg c)⟩)
  grad : ∀ x l p, ∃ D : (Fin N.nx → ℝ) →L[ℝ] ℝ, HasFDerivAt (fun x => cfg.flatObj V (ofFin x) (ofFin p) + ∑ c, l c * g (x, p) c) D x ∧
    ∀ dx, D dx = ∑ i, grad (x, l, p) i * dx i

/-- `w` is a solution of the estimation problem with the parameters `q`. -/
def SolvesMhe (cfg : MheCfg ℝ d ne ns) (w : MheX ℝ d ne) (q : MheP ℝ d ne ns) : Prop :=
  cfg.Feasible w q ∧ ∀ w', cfg.Feasible w' q → cfg.obj w q ≤ cfg.obj w' q

end DoMpc.FlatSpec
