import Verif.Model.LinearModel
import Mathlib.Analysis.Calculus.FDeriv.Basic
import Mathlib.Analysis.Normed.Module.FiniteDimension
import Mathlib.LinearAlgebra.Matrix.ToLin

/-!
# Linearisation (`/repo/do_mpc/model/_linearize.py`, `get_linear_system_matrices` of `_model.py`)

The Jacobians that CasADi computes symbolically are modelled by the derivative over the real numbers.
-/
namespace DoMpc
variable {nx nu ny : Nat}

/-- A model without algebraic states, for fixed parameters and zero noise: right-hand side and measurement function
(`_model.py:955-995`; `w = v = 0` in `get_linear_system_matrices`, `_model.py:1107-1109`). -/
structure SmoothModel (nx nu ny : Nat) where
  f : Vec ℝ nx → Vec ℝ nu → Vec ℝ nx
  h : Vec ℝ nx → Vec ℝ nu → Vec ℝ ny

/-- Jacobian of `g` with respect to its first argument (`A_fun`, `C_fun`, `_model.py:992-995`) -/
noncomputable def jacobianX {n : Nat} (g : Vec ℝ nx → Vec ℝ nu → Vec ℝ n) (x : Vec ℝ nx) (u : Vec ℝ nu) : Matrix (Fin n) (Fin nx) ℝ :=
  LinearMap.toMatrix' (fderiv ℝ (fun x' => g x' u) x : Vec ℝ nx →ₗ[ℝ] Vec ℝ n)

/-- Jacobian of `g` with respect to its second argument (`B_fun`, `D_fun`) -/
noncomputable def jacobianU {n : Nat} (g : Vec ℝ nx → Vec ℝ nu → Vec ℝ n) (x : Vec ℝ nx) (u : Vec ℝ nu) : Matrix (Fin n) (Fin nu) ℝ :=
  LinearMap.toMatrix' (fderiv ℝ (fun u' => g x u') u : Vec ℝ nu →ₗ[ℝ] Vec ℝ n)

/-- `linearize(model, xss, uss)` (`_linearize.py:69-102`), with the matrices of `get_linear_system_matrices` (`_model.py:1111-1128`).
The states of the new model have the names and sizes of the old one (`_transfer_variables`). -/
noncomputable def linearize (dup : Except String (LinModel ℝ nx nu)) (states : List (String × Nat)) (discrete : Bool) (m : SmoothModel nx nu ny) (xss : Vec ℝ nx) (uss : Vec ℝ nu) :
    Except String (LinModel ℝ nx nu) :=
  linearizeWith dup states discrete (.of (jacobianX m.f xss uss)) (.of (jacobianU m.f xss uss)) (.of (jacobianX m.h xss uss)) (.of (jacobianU m.h xss uss))

end DoMpc
