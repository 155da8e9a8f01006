import Verif.Model.Basic
import Mathlib.Algebra.Polynomial.Derivative

/-! # Specification: piecewise polynomial collocation solution of a DAE on one interval -/
namespace DoMpc.Spec
open Polynomial
variable {K : Type} [Field K] {d : Dims}

/-- value and slope of a vector of polynomials -/
noncomputable def valueAt {n : Nat} (P : Fin n → K[X]) (t : K) : Vec K n := fun e => (P e).eval t
noncomputable def slopeAt {n : Nat} (P : Fin n → K[X]) (t : K) : Vec K n := fun e => (derivative (P e)).eval t

/-- On each of the `ni` elements (element time running from 0 to 1, of length `h`) the state is a polynomial `P i` of degree at
most `deg`; the first starts at `x0`, each next one where the previous ends, the last ends at `x1`; at the collocation points
`tau 1 … tau deg` the slope is the right-hand side times `h`; the algebraic equations hold at all points including the start.
`ζ i j` is the algebraic state at point `j` of element `i`. -/
structure IsCollocationSolution (m : DaeModel K d) (deg ni : Nat) (tau : Nat → K) (h : K) (x0 : Vec K d.nx) (u : Vec K d.nu)
    (tv : Vec K d.ntv) (p : Vec K d.np) (w : Vec K d.nw) (x1 : Vec K d.nx)
    (P : Nat → Fin d.nx → K[X]) (ζ : Nat → Nat → Vec K d.nz) : Prop where
  degree : ∀ i < ni, ∀ e, (P i e).natDegree ≤ deg
  start : valueAt (P 0) 0 = x0
  ode : ∀ i < ni, ∀ j, 1 ≤ j → j ≤ deg →
    slopeAt (P i) (tau j) = h • m.rhs (valueAt (P i) (tau j)) u (ζ i j) tv p w
  algebraic : ∀ i < ni, ∀ j ≤ deg, m.alg (valueAt (P i) (tau j)) u (ζ i j) tv p w = 0
  join : ∀ i, i + 1 < ni → valueAt (P (i + 1)) 0 = valueAt (P i) 1
  final : valueAt (P (ni - 1)) 1 = x1

end DoMpc.Spec
