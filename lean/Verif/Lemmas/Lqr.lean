import Verif.Model.Lqr
import Verif.Spec.Lqr
import Mathlib.LinearAlgebra.Matrix.ToLinearEquiv
import Mathlib.Tactic.Ring
import Mathlib.Tactic.Linarith
import Mathlib.Algebra.BigOperators.Fin

/-! # Lemmas on NumPy arrays, quadratic forms and the Riccati recursion -/
set_option linter.unusedSectionVars false
namespace DoMpc
open Matrix Spec
variable {K : Type} [Field K] [LinearOrder K] [IsStrictOrderedRing K]

/-! ## arrays of known shape -/

theorem NpMat.mul_of {a b c : Nat} (A : Matrix (Fin a) (Fin b) K) (B : Matrix (Fin b) (Fin c) K) :
    (NpMat.of A).mul (NpMat.of B) = .ok (NpMat.of (A * B)) := by
  simp [NpMat.mul]

theorem NpMat.T_of {a b : Nat} (A : Matrix (Fin a) (Fin b) K) : (NpMat.of A).T = NpMat.of Aᵀ := rfl

theorem NpMat.neg_of {a b : Nat} (A : Matrix (Fin a) (Fin b) K) : (NpMat.of A).neg = NpMat.of (-A) := rfl

theorem NpMat.bget_of {a b : Nat} (A : Matrix (Fin a) (Fin b) K) (i : Fin a) (j : Fin b) : (NpMat.of A).bget i j = A i j := by
  have hi : (if a = 1 then 0 else (i : Nat)) = i := by
    split
    · have := i.isLt; omega
    · rfl
  have hj : (if b = 1 then 0 else (j : Nat)) = j := by
    split
    · have := j.isLt; omega
    · rfl
  unfold NpMat.bget
  have h : (if a = 1 then 0 else (i : Nat)) < a ∧ (if b = 1 then 0 else (j : Nat)) < b := by rw [hi, hj]; exact ⟨i.isLt, j.isLt⟩
  simp only [h, and_self, dif_pos]
  congr 1 <;> exact Fin.ext (by first | exact hi | exact hj)

theorem NpMat.zip_of {a b : Nat} (f : K → K → K) (A B : Matrix (Fin a) (Fin b) K) :
    NpMat.zip f (NpMat.of A) (NpMat.of B) = .ok (NpMat.of fun i j => f (A i j) (B i j)) := by
  simp only [NpMat.zip, bdim, if_true]
  refine congrArg (fun M => Except.ok (NpMat.of M)) ?_
  funext i j
  rw [show NpMat.bget ⟨a, b, A⟩ i j = A i j from NpMat.bget_of A i j, show NpMat.bget ⟨a, b, B⟩ i j = B i j from NpMat.bget_of B i j]

theorem NpMat.add_of {a b : Nat} (A B : Matrix (Fin a) (Fin b) K) :
    (NpMat.of A).add (NpMat.of B) = .ok (NpMat.of (A + B)) := NpMat.zip_of _ A B

theorem NpMat.sub_of {a b : Nat} (A B : Matrix (Fin a) (Fin b) K) :
    (NpMat.of A).sub (NpMat.of B) = .ok (NpMat.of (A - B)) := NpMat.zip_of _ A B

theorem NpMat.inv_of {a : Nat} (A : Matrix (Fin a) (Fin a) K) (h : A.det ≠ 0) : (NpMat.of A).inv = .ok (NpMat.of A⁻¹) := by
  simp [NpMat.inv, h]

theorem NpMat.block_of {a b c d : Nat} (A : Matrix (Fin a) (Fin c) K) (B : Matrix (Fin a) (Fin d) K) (C : Matrix (Fin b) (Fin c) K)
    (D : Matrix (Fin b) (Fin d) K) : NpMat.block (.of A) (.of B) (.of C) (.of D) = .ok (.of (blk A B C D)) := by
  simp [NpMat.block]

theorem NpMat.vstack_of {a b c : Nat} (A : Matrix (Fin a) (Fin c) K) (C : Matrix (Fin b) (Fin c) K) :
    NpMat.vstack (.of A) (.of C) = .ok (.of (vblk A C)) := by
  simp [NpMat.vstack]

/-! ## quadratic forms -/
section quad
variable {n m : Nat}

theorem dot_sym (M : Matrix (Fin n) (Fin n) K) (h : Mᵀ = M) (x y : Vec K n) : x ⬝ᵥ (M *ᵥ y) = y ⬝ᵥ (M *ᵥ x) := by
  rw [dotProduct_mulVec, dotProduct_comm, ← mulVec_transpose, h]

theorem qf_add (M : Matrix (Fin n) (Fin n) K) (h : Mᵀ = M) (x y : Vec K n) :
    qf M (x + y) = qf M x + 2 * (x ⬝ᵥ (M *ᵥ y)) + qf M y := by
  unfold qf
  rw [mulVec_add, dotProduct_add, add_dotProduct, add_dotProduct, dot_sym M h y x]
  ring

theorem qf_mulVec (M : Matrix (Fin n) (Fin n) K) (A : Matrix (Fin n) (Fin m) K) (x : Vec K m) : qf M (A *ᵥ x) = qf (Aᵀ * M * A) x := by
  unfold qf
  rw [← mulVec_mulVec, ← mulVec_mulVec, dotProduct_mulVec x Aᵀ, vecMul_transpose]

theorem qf_addM (M N : Matrix (Fin n) (Fin n) K) (x : Vec K n) : qf (M + N) x = qf M x + qf N x := by
  unfold qf; rw [add_mulVec, dotProduct_add]

theorem qf_subM (M N : Matrix (Fin n) (Fin n) K) (x : Vec K n) : qf (M - N) x = qf M x - qf N x := by
  unfold qf; rw [sub_mulVec, dotProduct_sub]

theorem qf_zero (M : Matrix (Fin n) (Fin n) K) : qf M 0 = 0 := by simp [qf]

theorem Spec.Pd.psd {M : Matrix (Fin n) (Fin n) K} (h : Pd M) : Psd M := by
  refine ⟨h.1, fun x => ?_⟩
  rcases eq_or_ne x 0 with rfl | hx
  · rw [qf_zero]
  · exact (h.2 x hx).le

theorem Spec.Pd.det_ne {M : Matrix (Fin n) (Fin n) K} (h : Pd M) : M.det ≠ 0 := by
  intro h0
  obtain ⟨v, hv, hMv⟩ := Matrix.exists_mulVec_eq_zero_iff.2 h0
  have := h.2 v hv
  rw [qf, hMv] at this
  simp at this

/-- the matrix `BᵀPB + R` -/
def ricG (B : Matrix (Fin n) (Fin m) K) (R : Matrix (Fin m) (Fin m) K) (P : Matrix (Fin n) (Fin n) K) : Matrix (Fin m) (Fin m) K :=
  Bᵀ * P * B + R

/-- the gain for the cost-to-go `P` -/
noncomputable def ricK (A : Matrix (Fin n) (Fin n) K) (B : Matrix (Fin n) (Fin m) K) (R : Matrix (Fin m) (Fin m) K)
    (P : Matrix (Fin n) (Fin n) K) : Matrix (Fin m) (Fin n) K := -(ricG B R P)⁻¹ * Bᵀ * P * A

/-- the Riccati step -/
noncomputable def ricP (A : Matrix (Fin n) (Fin n) K) (B : Matrix (Fin n) (Fin m) K) (Q : Matrix (Fin n) (Fin n) K)
    (R : Matrix (Fin m) (Fin m) K) (P : Matrix (Fin n) (Fin n) K) : Matrix (Fin n) (Fin n) K :=
  Q + Aᵀ * P * A - Aᵀ * P * B * (ricG B R P)⁻¹ * Bᵀ * P * A

variable (A : Matrix (Fin n) (Fin n) K) (B : Matrix (Fin n) (Fin m) K) (Q P : Matrix (Fin n) (Fin n) K) (R : Matrix (Fin m) (Fin m) K)

theorem ricG_pd (hR : Pd R) (hP : Psd P) : Pd (ricG B R P) := by
  constructor
  · simp [ricG, transpose_mul, hR.1, hP.1, Matrix.mul_assoc]
  · intro x hx
    rw [ricG, qf_addM, ← qf_mulVec]
    exact add_pos_of_nonneg_of_pos (hP.2 _) (hR.2 x hx)

/-- completing the square -/
theorem complete_square (hP : Pᵀ = P) (hG : (ricG B R P)ᵀ = ricG B R P) (hdet : (ricG B R P).det ≠ 0) (x : Vec K n) (u : Vec K m) :
    qf Q x + qf R u + qf P (A *ᵥ x + B *ᵥ u) = qf (ricP A B Q R P) x + qf (ricG B R P) (u - ricK A B R P *ᵥ x) := by
  have hu : IsUnit (ricG B R P).det := isUnit_iff_ne_zero.2 hdet
  have hGi : ((ricG B R P)⁻¹)ᵀ = (ricG B R P)⁻¹ := by rw [transpose_nonsing_inv, hG]
  have e1 : u - ricK A B R P *ᵥ x = u + (ricG B R P)⁻¹ *ᵥ (Bᵀ *ᵥ (P *ᵥ (A *ᵥ x))) := by
    simp [ricK, neg_mulVec, mulVec_mulVec, Matrix.mul_assoc]
  set y := Bᵀ *ᵥ (P *ᵥ (A *ᵥ x)) with hy
  rw [e1, qf_add _ hG]
  have e2 : ricG B R P *ᵥ ((ricG B R P)⁻¹ *ᵥ y) = y := by rw [mulVec_mulVec, mul_nonsing_inv _ hu, one_mulVec]
  have e3 : qf (ricG B R P) ((ricG B R P)⁻¹ *ᵥ y) = y ⬝ᵥ ((ricG B R P)⁻¹ *ᵥ y) := by
    rw [qf, e2, dotProduct_comm]
  have e4 : qf (ricP A B Q R P) x = qf Q x + qf P (A *ᵥ x) - y ⬝ᵥ ((ricG B R P)⁻¹ *ᵥ y) := by
    rw [ricP, qf_subM, qf_addM, qf_mulVec]
    congr 1
    rw [qf]
    have : (Aᵀ * P * B * (ricG B R P)⁻¹ * Bᵀ * P * A) *ᵥ x = Aᵀ *ᵥ (P *ᵥ (B *ᵥ ((ricG B R P)⁻¹ *ᵥ y))) := by
      simp only [hy, mulVec_mulVec, Matrix.mul_assoc]
    rw [this, hy, dotProduct_mulVec x, vecMul_transpose, dot_sym P hP, dotProduct_comm, dotProduct_mulVec _ B, ← mulVec_transpose]
  have e5 : qf P (A *ᵥ x + B *ᵥ u) = qf P (A *ᵥ x) + 2 * (u ⬝ᵥ y) + qf P (B *ᵥ u) := by
    rw [qf_add _ hP, dot_sym P hP]
    congr 3
    rw [hy, dotProduct_mulVec u, vecMul_transpose]
  have e6 : qf (ricG B R P) u = qf P (B *ᵥ u) + qf R u := by rw [ricG, qf_addM, qf_mulVec]
  rw [e3, e4, e5, e6, e2]
  ring

theorem ricP_psd (hQ : Psd Q) (hR : Pd R) (hP : Psd P) : Psd (ricP A B Q R P) := by
  have hG := ricG_pd B P R hR hP
  have hGi : ((ricG B R P)⁻¹)ᵀ = (ricG B R P)⁻¹ := by rw [transpose_nonsing_inv, hG.1]
  constructor
  · simp [ricP, transpose_mul, hQ.1, hP.1, hGi, Matrix.mul_assoc]
  · intro x
    have := complete_square A B Q P R hP.1 hG.1 hG.det_ne x (ricK A B R P *ᵥ x)
    rw [sub_self, qf_zero, add_zero] at this
    rw [← this]
    exact add_nonneg (add_nonneg (hQ.2 _) (hR.psd.2 _)) (hP.2 _)

/-- the cost-to-go matrices after `j` passes -/
noncomputable def ricSeq : Nat → Matrix (Fin n) (Fin n) K
  | 0 => P
  | j + 1 => ricP A B Q R (ricSeq j)

theorem ricSeq_psd (hQ : Psd Q) (hR : Pd R) (hP : Psd P) (j : Nat) : Psd (ricSeq A B Q P R j) := by
  induction j with
  | zero => exact hP
  | succ j ih => exact ricP_psd A B Q _ R hQ hR ih

theorem ricSeq_shift (j : Nat) : ricSeq A B Q (ricP A B Q R P) R j = ricSeq A B Q P R (j + 1) := by
  induction j with
  | zero => rfl
  | succ j ih => rw [ricSeq, ih]; rfl

/-- the code's loop body on arrays of matching shapes -/
theorem riccatiPass_of (hdet : (ricG B R P).det ≠ 0) :
    riccatiPass (.of A) (.of B) (.of Q) (.of R) (.of P) = .ok (.of (ricK A B R P), .of (ricP A B Q R P)) := by
  have hi : (NpMat.of (Bᵀ * P * B + R)).inv = .ok (NpMat.of (ricG B R P)⁻¹) := NpMat.inv_of _ hdet
  simp only [riccatiPass, NpMat.T_of, NpMat.mul_of, NpMat.add_of, NpMat.sub_of, NpMat.neg_of, hi, bind, Except.bind, pure, Except.pure]
  rfl

theorem gainLoop_of (hQ : Psd Q) (hR : Pd R) (N : Nat) :
    ∀ (P : Matrix (Fin n) (Fin n) K) (g : Option (NpMat K)), Psd P →
      gainLoop (.of A) (.of B) (.of Q) (.of R) (N + 1) (.of P) g = .ok (.of (ricK A B R (ricSeq A B Q P R N))) := by
  induction N with
  | zero =>
    intro P g hP
    simp only [gainLoop, riccatiPass_of A B Q P R (ricG_pd B P R hR hP).det_ne, bind, Except.bind, ricSeq]
  | succ N ih =>
    intro P g hP
    rw [gainLoop]
    simp only [riccatiPass_of A B Q P R (ricG_pd B P R hR hP).det_ne, bind, Except.bind]
    rw [ih _ _ (ricP_psd A B Q P R hQ hR hP), ricSeq_shift]

end quad
end DoMpc

namespace DoMpc
open Matrix Spec
variable {K : Type} [Field K] [LinearOrder K] [IsStrictOrderedRing K]
section opt
variable {n m : Nat}
variable (A : Matrix (Fin n) (Fin n) K) (B : Matrix (Fin n) (Fin m) K) (Q P : Matrix (Fin n) (Fin n) K) (R : Matrix (Fin m) (Fin m) K)

theorem traj_shift (x0 : Vec K n) (u : Nat → Vec K m) (k : Nat) :
    traj A B x0 u (k + 1) = traj A B (A *ᵥ x0 + B *ᵥ u 0) (fun j => u (j + 1)) k := by
  induction k with
  | zero => rfl
  | succ k ih => rw [traj, ih]; rfl

/-- cost relative to the origin -/
theorem trackCost_succ (N : Nat) (x0 : Vec K n) (u : Nat → Vec K m) :
    trackCost A B Q P R 0 0 (N + 1) x0 u
      = qf Q x0 + qf R (u 0) + trackCost A B Q P R 0 0 N (A *ᵥ x0 + B *ᵥ u 0) (fun j => u (j + 1)) := by
  simp only [trackCost, sub_zero, Finset.sum_range_succ', traj_shift A B x0 u]
  simp only [traj]
  ring

theorem trackCost_ge (hQ : Psd Q) (hR : Pd R) (hP : Psd P) (N : Nat) : ∀ (x0 : Vec K n) (u : Nat → Vec K m),
    qf (ricSeq A B Q P R N) x0 ≤ trackCost A B Q P R 0 0 N x0 u := by
  induction N with
  | zero => intro x0 u; simp [trackCost, ricSeq, traj]
  | succ N ih =>
    intro x0 u
    have hPN := ricSeq_psd A B Q P R hQ hR hP N
    have hG := ricG_pd B _ R hR hPN
    have := complete_square A B Q _ R hPN.1 hG.1 hG.det_ne x0 (u 0)
    have h2 := ih (A *ᵥ x0 + B *ᵥ u 0) (fun j => u (j + 1))
    have h3 := hG.psd.2 (u 0 - ricK A B R (ricSeq A B Q P R N) *ᵥ x0)
    rw [trackCost_succ, ricSeq]
    linarith

theorem trackCost_first (hQ : Psd Q) (hR : Pd R) (hP : Psd P) (N : Nat) (x0 : Vec K n) (u : Nat → Vec K m)
    (h : trackCost A B Q P R 0 0 (N + 1) x0 u ≤ qf (ricSeq A B Q P R (N + 1)) x0) :
    u 0 = ricK A B R (ricSeq A B Q P R N) *ᵥ x0 := by
  have hPN := ricSeq_psd A B Q P R hQ hR hP N
  have hG := ricG_pd B _ R hR hPN
  have := complete_square A B Q _ R hPN.1 hG.1 hG.det_ne x0 (u 0)
  have h2 := trackCost_ge A B Q P R hQ hR hP N (A *ᵥ x0 + B *ᵥ u 0) (fun j => u (j + 1))
  rw [trackCost_succ, ricSeq] at h
  by_contra hne
  have h3 := hG.2 (u 0 - ricK A B R (ricSeq A B Q P R N) *ᵥ x0) (sub_ne_zero.2 hne)
  linarith

theorem trackCost_attained (hQ : Psd Q) (hR : Pd R) (hP : Psd P) (N : Nat) : ∀ (x0 : Vec K n),
    ∃ u : Nat → Vec K m, trackCost A B Q P R 0 0 N x0 u = qf (ricSeq A B Q P R N) x0 := by
  induction N with
  | zero => intro x0; exact ⟨fun _ => 0, by simp [trackCost, ricSeq, traj]⟩
  | succ N ih =>
    intro x0
    have hPN := ricSeq_psd A B Q P R hQ hR hP N
    have hG := ricG_pd B _ R hR hPN
    obtain ⟨u, hu⟩ := ih (A *ᵥ x0 + B *ᵥ (ricK A B R (ricSeq A B Q P R N) *ᵥ x0))
    refine ⟨fun j => Nat.casesOn j (ricK A B R (ricSeq A B Q P R N) *ᵥ x0) u, ?_⟩
    have := complete_square A B Q _ R hPN.1 hG.1 hG.det_ne x0 (ricK A B R (ricSeq A B Q P R N) *ᵥ x0)
    rw [sub_self, qf_zero, add_zero] at this
    rw [trackCost_succ, ricSeq, ← this, ← hu]
    rfl

/-- tracking an equilibrium is regulating the deviation -/
theorem traj_dev (xs : Vec K n) (us : Vec K m) (heq : A *ᵥ xs + B *ᵥ us = xs) (x0 : Vec K n) (u : Nat → Vec K m) (k : Nat) :
    traj A B x0 u k - xs = traj A B (x0 - xs) (fun j => u j - us) k := by
  induction k with
  | zero => rfl
  | succ k ih =>
    rw [traj, traj, ← ih, mulVec_sub, mulVec_sub]
    nth_rw 1 [← heq]
    abel

theorem trackCost_dev (xs : Vec K n) (us : Vec K m) (heq : A *ᵥ xs + B *ᵥ us = xs) (N : Nat) (x0 : Vec K n) (u : Nat → Vec K m) :
    trackCost A B Q P R xs us N x0 u = trackCost A B Q P R 0 0 N (x0 - xs) (fun j => u j - us) := by
  simp only [trackCost, traj_dev A B xs us heq, sub_zero]

/-! ## the augmented system -/

theorem blk_mulVec {a b c d : Nat} (M11 : Matrix (Fin a) (Fin c) K) (M12 : Matrix (Fin a) (Fin d) K) (M21 : Matrix (Fin b) (Fin c) K)
    (M22 : Matrix (Fin b) (Fin d) K) (x : Vec K c) (v : Vec K d) :
    blk M11 M12 M21 M22 *ᵥ Fin.append x v = Fin.append (M11 *ᵥ x + M12 *ᵥ v) (M21 *ᵥ x + M22 *ᵥ v) := by
  funext i
  simp only [mulVec, dotProduct, Fin.sum_univ_add]
  refine Fin.addCases (fun i => ?_) (fun i => ?_) i <;> simp [blk, Pi.add_apply, mulVec, dotProduct]

theorem vblk_mulVec {a b c : Nat} (M1 : Matrix (Fin a) (Fin c) K) (M2 : Matrix (Fin b) (Fin c) K) (x : Vec K c) :
    vblk M1 M2 *ᵥ x = Fin.append (M1 *ᵥ x) (M2 *ᵥ x) := by
  funext i
  refine Fin.addCases (fun i => ?_) (fun i => ?_) i <;> simp [vblk, mulVec, dotProduct]

theorem append_add {a b : Nat} (x x' : Vec K a) (v v' : Vec K b) : Fin.append x v + Fin.append x' v' = Fin.append (x + x') (v + v') := by
  funext i
  refine Fin.addCases (fun i => ?_) (fun i => ?_) i <;> simp

theorem append_sub {a b : Nat} (x x' : Vec K a) (v v' : Vec K b) : Fin.append x v - Fin.append x' v' = Fin.append (x - x') (v - v') := by
  funext i
  refine Fin.addCases (fun i => ?_) (fun i => ?_) i <;> simp

theorem qf_blk {a b : Nat} (M : Matrix (Fin a) (Fin a) K) (N : Matrix (Fin b) (Fin b) K) (x : Vec K a) (v : Vec K b) :
    qf (blk M 0 0 N) (Fin.append x v) = qf M x + qf N v := by
  rw [qf, blk_mulVec]
  simp [dotProduct, Fin.sum_univ_add, qf]

theorem blk_psd {a b : Nat} {M : Matrix (Fin a) (Fin a) K} {N : Matrix (Fin b) (Fin b) K} (hM : Psd M) (hN : Psd N) : Psd (blk M 0 0 N) := by
  constructor
  · funext i j
    have h1 : ∀ i j, M i j = M j i := fun i j => congrFun (congrFun hM.1 j) i
    have h2 : ∀ i j, N i j = N j i := fun i j => congrFun (congrFun hN.1 j) i
    refine Fin.addCases (fun i => ?_) (fun i => ?_) i <;> refine Fin.addCases (fun j => ?_) (fun j => ?_) j <;>
      simp [blk]
    · exact h1 _ _
    · exact h2 _ _
  · intro x
    have : x = Fin.append (fun i => x (Fin.castAdd b i)) (fun i => x (Fin.natAdd a i)) := by
      funext i
      refine Fin.addCases (fun i => ?_) (fun i => ?_) i <;> simp
    rw [this, qf_blk]
    exact add_nonneg (hM.2 _) (hN.2 _)

theorem traj_rate (x0 : Vec K n) (uPrev : Vec K m) (u : Nat → Vec K m) (k : Nat) :
    traj (blk A B 0 1) (vblk B 1) (Fin.append x0 uPrev) (fun j => u j - prevInput uPrev u j) k
      = Fin.append (traj A B x0 u k) (prevInput uPrev u k) := by
  induction k with
  | zero => rfl
  | succ k ih =>
    rw [traj, ih, blk_mulVec, vblk_mulVec, append_add]
    congr 1
    · rw [mulVec_sub, traj]; abel
    · simp [prevInput]

theorem rateCost_eq (dR : Matrix (Fin m) (Fin m) K) (xs : Vec K n) (us : Vec K m) (N : Nat) (x0 : Vec K n) (uPrev : Vec K m) (u : Nat → Vec K m) :
    rateCost A B Q P R dR xs us N x0 uPrev u
      = trackCost (blk A B 0 1) (vblk B 1) (blk Q 0 0 R) (blk P 0 0 R) dR (Fin.append xs us) 0 N (Fin.append x0 uPrev)
          (fun j => u j - prevInput uPrev u j) := by
  simp only [rateCost, trackCost, traj_rate, append_sub, qf_blk, sub_zero]

/-- inputs with given increments -/
def integrate (uPrev : Vec K m) (v : Nat → Vec K m) : Nat → Vec K m
  | 0 => uPrev + v 0
  | k + 1 => integrate uPrev v k + v (k + 1)

theorem integrate_incr (uPrev : Vec K m) (v : Nat → Vec K m) (k : Nat) :
    integrate uPrev v k - prevInput uPrev (integrate uPrev v) k = v k := by
  cases k <;> simp [integrate, prevInput]

end opt
end DoMpc
