import Verif.Model.Basic
import Mathlib.LinearAlgebra.Matrix.NonsingularInverse

/-!
# Linear-quadratic control, as in a textbook

Independent of the model of the code.
-/
namespace DoMpc.Spec
open Matrix
variable {K : Type} [Field K] [LinearOrder K]
variable {n m : Nat}

/-- `xᵀ M x` -/
def qf {n : Nat} (M : Matrix (Fin n) (Fin n) K) (x : Vec K n) : K := x ⬝ᵥ (M *ᵥ x)

/-- symmetric positive semidefinite -/
def Psd {n : Nat} (M : Matrix (Fin n) (Fin n) K) : Prop := Mᵀ = M ∧ ∀ x, 0 ≤ qf M x

/-- symmetric positive definite -/
def Pd {n : Nat} (M : Matrix (Fin n) (Fin n) K) : Prop := Mᵀ = M ∧ ∀ x, x ≠ 0 → 0 < qf M x

/-- the trajectory of `x⁺ = A x + B u` from `x0` for the inputs `u` -/
def traj (A : Matrix (Fin n) (Fin n) K) (B : Matrix (Fin n) (Fin m) K) (x0 : Vec K n) (u : Nat → Vec K m) : Nat → Vec K n
  | 0 => x0
  | k + 1 => A *ᵥ traj A B x0 u k + B *ᵥ u k

/-- `Σ_{k<N} (x_k − xs)ᵀQ(x_k − xs) + (u_k − us)ᵀR(u_k − us) + (x_N − xs)ᵀP(x_N − xs)` (twice the `J` of the documentation,
`/repo/do_mpc/controller/_lqr.py:341-345`) -/
def trackCost (A : Matrix (Fin n) (Fin n) K) (B : Matrix (Fin n) (Fin m) K) (Q P : Matrix (Fin n) (Fin n) K)
    (R : Matrix (Fin m) (Fin m) K) (xs : Vec K n) (us : Vec K m) (N : Nat) (x0 : Vec K n) (u : Nat → Vec K m) : K :=
  ∑ k ∈ Finset.range N, (qf Q (traj A B x0 u k - xs) + qf R (u k - us)) + qf P (traj A B x0 u N - xs)

/-- The input that was applied before step `k`, given the one applied before step 0. -/
def prevInput (uPrev : Vec K m) (u : Nat → Vec K m) : Nat → Vec K m
  | 0 => uPrev
  | k + 1 => u k

/-- The cost with input rate penalty:
`Σ_{k<N} (x_k − xs)ᵀQ(x_k − xs) + (u_{k−1} − us)ᵀR(u_{k−1} − us) + (u_k − u_{k−1})ᵀΔR(u_k − u_{k−1})
 + (x_N − xs)ᵀP(x_N − xs) + (u_{N−1} − us)ᵀR(u_{N−1} − us)` (`_lqr.py:347-351` with the weights of `:198-203`) -/
def rateCost (A : Matrix (Fin n) (Fin n) K) (B : Matrix (Fin n) (Fin m) K) (Q P : Matrix (Fin n) (Fin n) K)
    (R dR : Matrix (Fin m) (Fin m) K) (xs : Vec K n) (us : Vec K m) (N : Nat) (x0 : Vec K n) (uPrev : Vec K m)
    (u : Nat → Vec K m) : K :=
  ∑ k ∈ Finset.range N, (qf Q (traj A B x0 u k - xs) + qf R (prevInput uPrev u k - us) + qf dR (u k - prevInput uPrev u k))
    + (qf P (traj A B x0 u N - xs) + qf R (prevInput uPrev u N - us))

end DoMpc.Spec
