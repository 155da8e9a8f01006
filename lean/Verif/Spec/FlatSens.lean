import Verif.Spec.Flat
import Verif.Spec.Kkt

/-!
# The NLP of an MPC in flat vectors, for the differentiator
-/
namespace DoMpc.FlatSpec
open Diff Diff.Spec
variable {d : Dims}

/-- CasADi's infinite bounds -/
def lowerBound : Option ℝ → Bound ℝ
  | none => .ninf
  | some b => .fin b
/-- see `lowerBound` -/
def upperBound : Option ℝ → Bound ℝ
  | none => .pinf
  | some b => .fin b

/-- `N`, with the gradient `grad` of its Lagrangian and its constraints `g`, is the NLP of the MPC in flat vectors. -/
structure IsNlpOf (cfg : MpcCfg ℝ d) (V : VarNames) (N : Nlp ℝ) (grad : (Fin N.nx → ℝ) × (Fin N.ng → ℝ) × (Fin N.np → ℝ) → Fin N.nx → ℝ)
    (g : (Fin N.nx → ℝ) × (Fin N.np → ℝ) → Fin N.ng → ℝ) : Prop where
  nx : N.nx = (cfg.optX V).size
  np : N.np = (cfg.optP V).size
  lbx : cfg.flatLb V = (List.range N.nx).map fun i => lowerBound (N.lbx i)
  ubx : cfg.flatUb V = (List.range N.nx).map fun i => upperBound (N.ubx i)
  rows : ∀ x p, cfg.flatRows V (ofFin x) (ofFin p) = List.ofFn fun c => ⟨lowerBound (N.lbg c), g (x, p) c, upperBound (N.ubg c)⟩
  grad : ∀ x l p, ∃ D : (Fin N.nx → ℝ) →L[ℝ] ℝ, HasFDerivAt (fun x => cfg.flatObj V (ofFin x) (ofFin p) + ∑ c, l c * g (x, p) c) D x ∧
    ∀ dx, D dx = ∑ i, grad (x, l, p) i * dx i

end DoMpc.FlatSpec
