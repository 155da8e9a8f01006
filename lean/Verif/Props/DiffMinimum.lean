import Verif.Props.DiffSolution
import Verif.Spec.NlpMin
import Mathlib.Algebra.BigOperators.Field
import Mathlib.Analysis.Calculus.MeanValue
import Mathlib.Analysis.Calculus.LocalExtr.Rolle
import Mathlib.Analysis.Calculus.Deriv.MeanValue

set_option linter.unusedSectionVars false
set_option linter.unusedSimpArgs false

/-!
# C59: points that satisfy the conditions of first order are the solutions nearby
-/
namespace DoMpc.Diff
open Spec Filter Topology

/-! ### Estimates -/

theorem sum_mul_le {n : Nat} (v e : Fin n → ℝ) : |∑ i, v i * e i| ≤ n * (‖v‖ * ‖e‖) := by
  refine (Finset.abs_sum_le_sum_abs _ _).trans ?_
  have : ∀ i ∈ Finset.univ, |v i * e i| ≤ ‖v‖ * ‖e‖ := fun i _ => by
    rw [abs_mul]
    exact mul_le_mul (norm_le_pi_norm v i) (norm_le_pi_norm e i) (abs_nonneg _) (norm_nonneg _)
  refine (Finset.sum_le_sum this).trans ?_
  simp

/-- a quadratic form and a seminorm that do not vanish together are bounded below -/
theorem coercive {n : Nat} (S : Set (Fin n → ℝ)) (hS : IsClosed S) (hSc : ∀ e ∈ S, ∀ t : ℝ, t • e ∈ S) (Q R : (Fin n → ℝ) → ℝ) (hQ : Continuous Q) (hR : Continuous R)
    (hQ2 : ∀ (t : ℝ) e, Q (t • e) = t ^ 2 * Q e) (hR1 : ∀ (t : ℝ) e, R (t • e) = |t| * R e) (hR0 : ∀ e, 0 ≤ R e)
    (h : ∀ e ∈ S, e ≠ 0 → R e = 0 → 0 < Q e) : ∃ k > 0, ∀ e ∈ S, k * ‖e‖ ^ 2 ≤ Q e ∨ k * ‖e‖ ≤ R e := by
  have hcomp : IsCompact (S ∩ Metric.sphere 0 1) := (isCompact_sphere 0 1).inter_left hS
  have hpos : ∀ e ∈ S ∩ Metric.sphere (0 : Fin n → ℝ) 1, 0 < max (Q e) (R e) := by
    rintro e ⟨he, hn⟩
    have hne : e ≠ 0 := by
      rintro rfl
      simp at hn
    rcases (hR0 e).eq_or_lt with h0 | h0
    · exact lt_max_of_lt_left (h e he hne h0.symm)
    · exact lt_max_of_lt_right h0
  obtain ⟨k, hk, hkm⟩ : ∃ k > 0, ∀ e ∈ S ∩ Metric.sphere (0 : Fin n → ℝ) 1, k ≤ max (Q e) (R e) := by
    rcases (S ∩ Metric.sphere (0 : Fin n → ℝ) 1).eq_empty_or_nonempty with he | hne
    · exact ⟨1, one_pos, fun e h => by rw [he] at h; cases h⟩
    · obtain ⟨e0, he0, hmin⟩ := hcomp.exists_isMinOn hne ((hQ.max hR).continuousOn)
      exact ⟨_, hpos e0 he0, fun e h => hmin h⟩
  refine ⟨k, hk, fun e he => ?_⟩
  by_cases h0 : e = 0
  · right
    rw [h0, norm_zero, mul_zero]
    exact hR0 _
  · have hn : 0 < ‖e‖ := norm_pos_iff.2 h0
    have hm := hkm (‖e‖⁻¹ • e) ⟨hSc e he _, by simp [norm_smul, hn.ne']⟩
    rw [hQ2, hR1, abs_of_pos (inv_pos.2 hn)] at hm
    rcases le_max_iff.1 hm with h1 | h1
    · left
      rw [inv_pow, inv_mul_eq_div, le_div_iff₀ (by positivity)] at h1
      exact h1
    · right
      rw [inv_mul_eq_div, le_div_iff₀ hn] at h1
      exact h1

theorem neg_mul_le_of {a b t : ℝ} (ha : 0 ≤ a) (hb : -a ≤ b) (h0 : 0 ≤ t) (h1 : t ≤ 1) : -a ≤ t * b := by
  nlinarith

/-- a multiplier times the change of an admissible value -/
theorem sign_term (lam v w : ℝ) (lb ub : Option ℝ) (hp : 0 < lam → ub = some v) (hn : lam < 0 → lb = some v) (hl : ∀ b, lb = some b → b ≤ w)
    (hu : ∀ b, ub = some b → w ≤ b) : -(lam * (w - v)) = |lam| * |w - v| := by
  rcases lt_trichotomy lam 0 with h | h | h
  · rw [abs_of_neg h, abs_of_nonneg (sub_nonneg.2 (hl _ (hn h)))]
    ring
  · simp [h]
  · rw [abs_of_pos h, abs_of_nonpos (sub_nonpos.2 (hu _ (hp h)))]
    ring

section growth
variable (N : Nlp ℝ) (f : (Fin N.nx → ℝ) × (Fin N.np → ℝ) → ℝ) (grad : (Fin N.nx → ℝ) × (Fin N.ng → ℝ) × (Fin N.np → ℝ) → Fin N.nx → ℝ)
  (g : (Fin N.nx → ℝ) × (Fin N.np → ℝ) → Fin N.ng → ℝ)

/-- how much an admissible point costs more than a point that satisfies the conditions of first order -/
theorem growth (Z : Fin N.nx → ℝ) (L : Fin N.ng → ℝ) (M : Fin N.nx → ℝ) (q : Fin N.np → ℝ) (hk : KktPoint N grad g Z L M q) (e : Fin N.nx → ℝ)
    (ha : Admissible N g (Z + e) q)
    (hD : ∀ t ∈ Set.Icc (0 : ℝ) 1, ∃ D : (Fin N.nx → ℝ) →L[ℝ] ℝ, HasFDerivAt (fun y => f (y, q) + ∑ c, L c * g (y, q) c) D (Z + t • e) ∧
      ∀ dx, D dx = ∑ i, grad (Z + t • e, L, q) i * dx i)
    (H : (Fin N.nx → ℝ) → Fin N.nx → ℝ) (J : (Fin N.nx → ℝ) → Fin N.ng → ℝ) (eps : ℝ)
    (hH : ∀ t ∈ Set.Ioo (0 : ℝ) 1, ‖grad (Z + t • e, L, q) - grad (Z, L, q) - t • H e‖ ≤ eps * (t * ‖e‖))
    (hJ : ‖g (Z + e, q) - g (Z, q) - J e‖ ≤ eps * ‖e‖) (l0 : Fin N.ng → ℝ) (m0 : Fin N.nx → ℝ) (hl : ∀ c, |l0 c| / 2 ≤ |L c|) (hm : ∀ i, |m0 i| / 2 ≤ |M i|) :
    ∃ t ∈ Set.Ioo (0 : ℝ) 1, t * (∑ i, H e i * e i - eps * N.nx * ‖e‖ ^ 2) ≤ f (Z + e, q) - f (Z, q) ∧
      t * (∑ i, H e i * e i - eps * N.nx * ‖e‖ ^ 2) + (∑ c, |l0 c| * |J e c| + ∑ i, |m0 i| * |e i|) / 2 - (∑ c, |l0 c|) / 2 * (eps * ‖e‖) ≤
      f (Z + e, q) - f (Z, q) := by
  set φ : ℝ → ℝ := fun t => f (Z + t • e, q) + ∑ c, L c * g (Z + t • e, q) c with hφ
  have hd : ∀ t ∈ Set.Icc (0 : ℝ) 1, HasDerivAt φ (∑ i, grad (Z + t • e, L, q) i * e i) t := by
    intro t ht
    obtain ⟨D, h1, h2⟩ := hD t ht
    have hline : HasDerivAt (fun t : ℝ => Z + t • e) e t := by
      simpa using ((hasDerivAt_id t).smul_const e).const_add Z
    have := HasFDerivAt.comp_hasDerivAt (f := fun t : ℝ => Z + t • e) t h1 hline
    rw [h2] at this
    exact this
  obtain ⟨t, ht, hmv⟩ := exists_hasDerivAt_eq_slope φ _ one_pos (fun t ht => (hd t ht).continuousAt.continuousWithinAt)
    (fun t ht => hd t (Set.Ioo_subset_Icc_self ht))
  refine ⟨t, ht, ?_⟩
  have e1 : φ 1 - φ 0 = f (Z + e, q) - f (Z, q) + ∑ c, L c * (g (Z + e, q) c - g (Z, q) c) := by
    simp only [hφ, one_smul, zero_smul, add_zero, mul_sub, Finset.sum_sub_distrib]
    ring
  have e2 : f (Z + e, q) - f (Z, q) = ∑ i, grad (Z + t • e, L, q) i * e i - ∑ c, L c * (g (Z + e, q) c - g (Z, q) c) := by
    have : φ 1 - φ 0 = ∑ i, grad (Z + t • e, L, q) i * e i := by rw [hmv]; ring
    linarith [e1]
  have e3 : ∑ i, grad (Z + t • e, L, q) i * e i = t * (∑ i, H e i * e i) + (∑ i, (grad (Z + t • e, L, q) - grad (Z, L, q) - t • H e) i * e i) + ∑ i, -(M i * e i) := by
    rw [Finset.mul_sum, ← Finset.sum_add_distrib, ← Finset.sum_add_distrib]
    refine Finset.sum_congr rfl fun i _ => ?_
    have := hk.stationarity i
    simp only [Pi.sub_apply, Pi.smul_apply, smul_eq_mul]
    linear_combination (e i) * this
  have hM : ∀ i, -(M i * e i) = |M i| * |e i| := by
    intro i
    have := sign_term (M i) (Z i) ((Z + e) i) _ _ (hk.posX i) (hk.negX i) (ha.lowerX i) (ha.upperX i)
    simpa using this
  have hG : ∀ c, -(L c * (g (Z + e, q) c - g (Z, q) c)) = |L c| * |g (Z + e, q) c - g (Z, q) c| :=
    fun c => sign_term (L c) _ _ _ _ (hk.posG c) (hk.negG c) (ha.lowerG c) (ha.upperG c)
  have b1 : -(eps * N.nx * t * ‖e‖ ^ 2) ≤ ∑ i, (grad (Z + t • e, L, q) - grad (Z, L, q) - t • H e) i * e i := by
    have h1 := (abs_le.1 (sum_mul_le (grad (Z + t • e, L, q) - grad (Z, L, q) - t • H e) e)).1
    have h2 := mul_le_mul_of_nonneg_left (mul_le_mul_of_nonneg_right (hH t ht) (norm_nonneg e)) (Nat.cast_nonneg (α := ℝ) N.nx)
    nlinarith [h1, h2]
  have b2 : (∑ i, |m0 i| * |e i|) / 2 ≤ ∑ i, -(M i * e i) := by
    rw [Finset.sum_div]
    refine Finset.sum_le_sum fun i _ => ?_
    rw [hM]
    have := mul_le_mul_of_nonneg_right (hm i) (abs_nonneg (e i))
    linarith
  have b3 : (∑ c, |l0 c| * |J e c|) / 2 - (∑ c, |l0 c|) / 2 * (eps * ‖e‖) ≤ ∑ c, -(L c * (g (Z + e, q) c - g (Z, q) c)) := by
    rw [Finset.sum_div, Finset.sum_div, Finset.sum_mul, ← Finset.sum_sub_distrib]
    refine Finset.sum_le_sum fun c _ => ?_
    rw [hG]
    have h1 : |J e c| - eps * ‖e‖ ≤ |g (Z + e, q) c - g (Z, q) c| := by
      have h2 : |(g (Z + e, q) - g (Z, q) - J e) c| ≤ eps * ‖e‖ := (norm_le_pi_norm (g (Z + e, q) - g (Z, q) - J e) c).trans hJ
      have h3 := abs_sub_abs_le_abs_sub (J e c) (g (Z + e, q) c - g (Z, q) c)
      rw [abs_sub_comm (J e c)] at h3
      have h4 : |g (Z + e, q) c - g (Z, q) c - J e c| ≤ eps * ‖e‖ := h2
      linarith
    have h5 := mul_le_mul_of_nonneg_right (hl c) (abs_nonneg (g (Z + e, q) c - g (Z, q) c))
    have h6 := mul_le_mul_of_nonneg_left h1 (abs_nonneg (l0 c))
    linarith
  have b2' : 0 ≤ ∑ i, -(M i * e i) := Finset.sum_nonneg fun i _ => by rw [hM]; positivity
  have b3' : 0 ≤ ∑ c, -(L c * (g (Z + e, q) c - g (Z, q) c)) := Finset.sum_nonneg fun c _ => by rw [hG]; positivity
  rw [Finset.sum_neg_distrib] at b3 b3'
  rw [e2, e3]
  have : t * (∑ i, H e i * e i - eps * N.nx * ‖e‖ ^ 2) = t * (∑ i, H e i * e i) - eps * N.nx * t * ‖e‖ ^ 2 := by ring
  rw [this, add_div]
  constructor <;> linarith

set_option maxHeartbeats 1000000 in
/-- Close to a point with strict complementarity and the condition of second order, a point that satisfies the conditions of first order costs less than every
admissible point that differs from it in a variable that occurs. -/
theorem nearby_minimum (x l lX p : Nat → ℝ) (hS : Smooth N grad g x l p) (hL : LagrangianOf N f g grad x l p) (aG aX : Nat → Prop)
    (hG : ∀ c : Fin N.ng, aG c → l c ≠ 0) (hX : ∀ i : Fin N.nx, N.depX i = true → aX i → lX i ≠ 0) (h2 : SecondOrder N x l p aG aX) :
    ∃ r > 0, ∀ Z L M q, dist Z (toFin _ x) < r → dist L (toFin _ l) < r → dist M (toFin _ lX) < r → dist q (toFin _ p) < r → KktPoint N grad g Z L M q →
      ∀ y, (∀ i : Fin N.nx, N.depX i = true → |y i - x i| < r) → Admissible N g y q → (∃ i : Fin N.nx, N.depX i = true ∧ y i ≠ Z i) → f (Z, q) < f (y, q) := by
  have hg1 := (hS.contGrad.hasStrictFDerivAt (by norm_num))
  have hg2 := (hS.contG.hasStrictFDerivAt (by norm_num))
  set Dg := fderiv ℝ grad (toFin _ x, toFin _ l, toFin _ p)
  set Dc := fderiv ℝ g (toFin _ x, toFin _ p)
  have e1 : ∀ i dx, Dg (dx, 0, 0) i = ∑ j : Fin N.nx, N.hxx x l p i j * dx j := by
    intro i dx
    obtain ⟨D, hD, hf⟩ := hS.derivatives.grad i
    have := ((hasFDerivAt_pi'.1 hg1.hasFDerivAt) i).unique hD
    have h' := congrArg (fun T => T (dx, 0, 0)) this
    rw [hf] at h'
    simpa using h'
  have e2 : ∀ c dx, Dc (dx, 0) c = ∑ j : Fin N.nx, N.jac x p c j * dx j := by
    intro c dx
    obtain ⟨D, hD, hf⟩ := hS.derivatives.g c
    have := ((hasFDerivAt_pi'.1 hg2.hasFDerivAt) c).unique hD
    have h' := congrArg (fun T => T (dx, 0)) this
    rw [hf] at h'
    simpa using h'
  set H : (Fin N.nx → ℝ) →L[ℝ] (Fin N.nx → ℝ) := Dg ∘L .inl ℝ _ _ with hH
  set J : (Fin N.nx → ℝ) →L[ℝ] (Fin N.ng → ℝ) := Dc ∘L .inl ℝ _ _ with hJ
  have hHe : ∀ e i, H e i = ∑ j : Fin N.nx, N.hxx x l p i j * e j := fun e i => e1 i e
  have hJe : ∀ e c, J e c = ∑ j : Fin N.nx, N.jac x p c j * e j := fun e c => e2 c e
  -- the lower bound
  obtain ⟨k, hk, hco⟩ := coercive {e : Fin N.nx → ℝ | ∀ i : Fin N.nx, N.depX i = false → e i = 0}
    (by
      simp only [Set.setOf_forall]
      exact isClosed_iInter fun i => isClosed_iInter fun _ => isClosed_eq (continuous_apply i) continuous_const)
    (fun e he t i hi => by rw [Pi.smul_apply, he i hi, smul_zero])
    (fun e => ∑ i, H e i * e i) (fun e => ∑ c : Fin N.ng, |l c| * |J e c| + ∑ i : Fin N.nx, |lX i| * |e i|)
    (continuous_finset_sum _ fun i _ => ((continuous_apply i).comp H.continuous).mul (continuous_apply i))
    ((continuous_finset_sum _ fun c _ => continuous_const.mul ((continuous_apply c).comp J.continuous).abs).add
      (continuous_finset_sum _ fun i _ => continuous_const.mul (continuous_apply i).abs))
    (fun t e => by
      simp only [map_smul, Pi.smul_apply, smul_eq_mul, Finset.mul_sum]
      exact Finset.sum_congr rfl fun i _ => by ring)
    (fun t e => by
      simp only [map_smul, Pi.smul_apply, smul_eq_mul, abs_mul, mul_add, Finset.mul_sum]
      congr 1 <;> exact Finset.sum_congr rfl fun i _ => by ring)
    (fun e => by positivity)
    (fun e he hne h0 => by
      have n1 : 0 ≤ ∑ c : Fin N.ng, |l c| * |J e c| := by positivity
      have n2 : 0 ≤ ∑ i : Fin N.nx, |lX i| * |e i| := by positivity
      have z1 : ∑ c : Fin N.ng, |l c| * |J e c| = 0 := by linarith
      have z2 : ∑ i : Fin N.nx, |lX i| * |e i| = 0 := by linarith
      rw [Finset.sum_eq_zero_iff_of_nonneg fun _ _ => by positivity] at z1 z2
      have := h2 (ofFin e) (fun c hc ha => by
          rw [sum_ofFin (fun j => N.jac x p c j)]
          have := z1 ⟨c, hc⟩ (Finset.mem_univ _)
          rcases mul_eq_zero.1 this with h | h
          · exact absurd (abs_eq_zero.1 h) (hG ⟨c, hc⟩ ha)
          · rw [← hJe e ⟨c, hc⟩]
            exact abs_eq_zero.1 h)
        (fun i hi ha => by
          rw [ofFin_val _ _ hi]
          by_cases hd : N.depX i = true
          · rcases mul_eq_zero.1 (z2 ⟨i, hi⟩ (Finset.mem_univ _)) with h | h
            · exact absurd (abs_eq_zero.1 h) (hX ⟨i, hi⟩ hd ha)
            · exact abs_eq_zero.1 h
          · exact he ⟨i, hi⟩ (by simpa using hd))
        (by
          obtain ⟨i, hi⟩ := Function.ne_iff.1 hne
          refine ⟨i, i.2, ?_, by rw [ofFin_val _ _ i.2]; exact hi⟩
          by_contra hd
          exact hi (he i (by simpa using hd)))
      rw [Finset.sum_range] at this
      refine lt_of_lt_of_eq this (Finset.sum_congr rfl fun i _ => ?_)
      rw [ofFin_val _ _ i.2, sum_ofFin (fun j => N.hxx x l p i j), hHe, mul_comm])
  -- constants
  set n : ℝ := (N.nx : ℝ) with hn
  have hn0 : 0 ≤ n := Nat.cast_nonneg _
  set Λ : ℝ := ∑ c : Fin N.ng, |l c| with hΛ
  have hΛ0 : 0 ≤ Λ := by positivity
  set C : ℝ := n * ‖H‖ with hC
  have hC0 : 0 ≤ C := by positivity
  set eps : ℝ := k / (2 * (n + Λ + 1)) with heps
  have hepos : 0 < eps := by positivity
  have hen : eps * n ≤ k / 2 := by
    rw [heps, div_mul_eq_mul_div, div_le_iff₀ (by positivity)]
    nlinarith
  have heΛ : eps * Λ ≤ k / 2 := by
    rw [heps, div_mul_eq_mul_div, div_le_iff₀ (by positivity)]
    nlinarith
  obtain ⟨r1, hr1, hb1⟩ := Metric.eventually_nhds_iff.1 (hg1.isLittleO.bound hepos)
  obtain ⟨r2, hr2, hb2⟩ := Metric.eventually_nhds_iff.1 (hg2.isLittleO.bound hepos)
  obtain ⟨r3, hr3, hb3⟩ := Metric.eventually_nhds_iff.1 hL.gradient
  have half : ∀ {m : Nat} (v : Fin m → ℝ), ∃ r > 0, ∀ w, dist w v < r → ∀ c, |v c| / 2 ≤ |w c| := by
    intro m v
    have : ∀ c, ∀ᶠ w in 𝓝 v, |v c| / 2 ≤ |w c| := by
      intro c
      by_cases h0 : v c = 0
      · exact Eventually.of_forall fun w => by rw [h0]; simp
      · have hc : ContinuousAt (fun w : Fin m → ℝ => |w c|) v := (continuous_apply c).abs.continuousAt
        have : |v c| / 2 < |v c| := by
          have := abs_pos.2 h0
          linarith
        exact (hc.eventually (lt_mem_nhds this)).mono fun w hw => le_of_lt hw
    obtain ⟨r, hr, h⟩ := Metric.eventually_nhds_iff.1 (eventually_all.2 this)
    exact ⟨r, hr, fun w hw => h hw⟩
  obtain ⟨r4, hr4, hb4⟩ := half (toFin N.ng l)
  obtain ⟨r5, hr5, hb5⟩ := half (toFin N.nx lX)
  set r6 : ℝ := k / (8 * (C + k)) with hr6d
  have hr6 : 0 < r6 := by positivity
  obtain ⟨r, hr, hle⟩ : ∃ r > 0, r ≤ r1 ∧ r ≤ r2 ∧ r ≤ r3 ∧ r ≤ r4 ∧ r ≤ r5 ∧ r ≤ r6 :=
    ⟨min r1 (min r2 (min r3 (min r4 (min r5 r6)))), lt_min hr1 (lt_min hr2 (lt_min hr3 (lt_min hr4 (lt_min hr5 hr6)))), min_le_left _ _,
      (min_le_right _ _).trans (min_le_left _ _), (min_le_right _ _).trans ((min_le_right _ _).trans (min_le_left _ _)),
      (min_le_right _ _).trans ((min_le_right _ _).trans ((min_le_right _ _).trans (min_le_left _ _))),
      (min_le_right _ _).trans ((min_le_right _ _).trans ((min_le_right _ _).trans ((min_le_right _ _).trans (min_le_left _ _)))),
      (min_le_right _ _).trans ((min_le_right _ _).trans ((min_le_right _ _).trans ((min_le_right _ _).trans (min_le_right _ _))))⟩
  obtain ⟨h1, h2', h3, h4, h5, h6⟩ := hle
  refine ⟨r, hr, fun Z L M q hZ hLl hM hq hkkt y hy hya hne => ?_⟩
  set e : Fin N.nx → ℝ := fun i => if N.depX i = true then y i - Z i else 0 with he
  have hein : ∀ i : Fin N.nx, N.depX i = false → e i = 0 := fun i hi => by simp [he, hi]
  have hZi : ∀ i : Fin N.nx, |Z i - x i| < r := fun i => (dist_pi_lt_iff hr).1 hZ i
  have hcv : ∀ t ∈ Set.Icc (0 : ℝ) 1, dist (Z + t • e) (toFin _ x) < r := by
    intro t ht
    rw [dist_pi_lt_iff hr]
    intro i
    rw [Real.dist_eq]
    show |Z i + t * e i - x i| < r
    by_cases hd : N.depX i = true
    · have a1 := abs_lt.1 (hZi i)
      have a2 := abs_lt.1 (hy i hd)
      have : Z i + t * e i - x i = (1 - t) * (Z i - x i) + t * (y i - x i) := by
        simp only [he, hd, if_true]
        ring
      rw [this, abs_lt]
      have t0 := ht.1
      have t1 := ht.2
      constructor
      · rcases eq_or_lt_of_le t0 with h0 | h0
        · rw [← h0]; linarith [a1.1]
        · nlinarith [a1.1, a2.1]
      · rcases eq_or_lt_of_le t0 with h0 | h0
        · rw [← h0]; linarith [a1.2]
        · nlinarith [a1.2, a2.2]
    · rw [hein i (by simpa using hd), mul_zero, add_zero]
      exact hZi i
  have hagree : ∀ i : Fin N.nx, N.depX i = true → y i = (Z + e) i := fun i hi => by simp [he, hi]
  have hgy : g (y, q) = g (Z + e, q) := hS.gX _ _ _ hagree
  have hfy : f (y, q) = f (Z + e, q) := hL.fX _ _ _ hagree
  have hae : Admissible N g (Z + e) q := by
    refine ⟨fun c => hgy ▸ hya.lowerG c, fun c => hgy ▸ hya.upperG c, fun i b hb => ?_, fun i b hb => ?_⟩
    · by_cases hd : N.depX i = true
      · rw [← hagree i hd]; exact hya.lowerX i b hb
      · rw [Pi.add_apply, hein i (by simpa using hd), add_zero]; exact hkkt.lowerX i b hb
    · by_cases hd : N.depX i = true
      · rw [← hagree i hd]; exact hya.upperX i b hb
      · rw [Pi.add_apply, hein i (by simpa using hd), add_zero]; exact hkkt.upperX i b hb
  have hZ0 : dist (Z + (0 : ℝ) • e) (toFin _ x) < r := hcv 0 ⟨le_rfl, zero_le_one⟩
  have hZ1 : dist (Z + e) (toFin _ x) < r := by simpa using hcv 1 ⟨zero_le_one, le_rfl⟩
  obtain ⟨t, ht, hA, hB⟩ := growth N f grad g Z L M q hkkt e hae
    (fun t ht => hb3 (y := (Z + t • e, L, q)) (by
      simp only [Prod.dist_eq, max_lt_iff]
      exact ⟨(hcv t ht).trans_le h3, hLl.trans_le h3, hq.trans_le h3⟩))
    H J eps
    (fun t ht => by
      have hh := hb1 (y := ((Z + t • e, L, q), (Z, L, q))) (by
        simp only [Prod.dist_eq, max_lt_iff]
        exact ⟨⟨(hcv t (Set.Ioo_subset_Icc_self ht)).trans_le h1, hLl.trans_le h1, hq.trans_le h1⟩, hZ.trans_le h1, hLl.trans_le h1, hq.trans_le h1⟩)
      have hsub : ((Z + t • e, L, q) : (Fin N.nx → ℝ) × (Fin N.ng → ℝ) × (Fin N.np → ℝ)) - (Z, L, q) = (t • e, 0, 0) := by rw [Prod.mk_sub_mk, Prod.mk_sub_mk, add_sub_cancel_left, sub_self, sub_self]
      simp only [hsub] at hh
      rw [show Dg (t • e, 0, 0) = t • H e from by rw [← map_smul]; rfl] at hh
      refine hh.trans (le_of_eq ?_)
      rw [show ‖((t • e, 0, 0) : (Fin N.nx → ℝ) × (Fin N.ng → ℝ) × (Fin N.np → ℝ))‖ = ‖t • e‖ by simp [Prod.norm_def], norm_smul, Real.norm_eq_abs, abs_of_pos ht.1])
    (by
      have hh := hb2 (y := ((Z + e, q), (Z, q))) (by
        simp only [Prod.dist_eq, max_lt_iff]
        exact ⟨⟨hZ1.trans_le h2', hq.trans_le h2'⟩, hZ.trans_le h2', hq.trans_le h2'⟩)
      have hsub : ((Z + e, q) : (Fin N.nx → ℝ) × (Fin N.np → ℝ)) - (Z, q) = (e, 0) := by simp
      simp only [hsub] at hh
      refine hh.trans (le_of_eq ?_)
      rw [show ‖((e, 0) : (Fin N.nx → ℝ) × (Fin N.np → ℝ))‖ = ‖e‖ by simp [Prod.norm_def]])
    (toFin N.ng l) (toFin N.nx lX) (hb4 L (hLl.trans_le h4)) (hb5 M (hM.trans_le h5))
  rw [hfy]
  have hepos' : 0 < ‖e‖ := by
    rw [norm_pos_iff]
    obtain ⟨i, hd, hi⟩ := hne
    intro h0
    have := congrFun h0 i
    simp only [he, hd, if_true, Pi.zero_apply] at this
    exact hi (sub_eq_zero.1 this)
  have hesmall : ‖e‖ < 2 * r := by
    rw [pi_norm_lt_iff (by linarith)]
    intro i
    by_cases hd : N.depX i = true
    · simp only [he, hd, if_true, Real.norm_eq_abs]
      have a1 := abs_lt.1 (hZi i)
      have a2 := abs_lt.1 (hy i hd)
      rw [abs_lt]
      constructor <;> linarith [a1.1, a1.2, a2.1, a2.2]
    · rw [hein i (by simpa using hd), norm_zero]
      linarith
  have hQb : |∑ i, H e i * e i| ≤ C * ‖e‖ ^ 2 := by
    refine (sum_mul_le _ _).trans ?_
    have := mul_le_mul_of_nonneg_right (H.le_opNorm e) (norm_nonneg e)
    have := mul_le_mul_of_nonneg_left this hn0
    calc _ ≤ n * (‖H‖ * ‖e‖ * ‖e‖) := this
      _ = _ := by rw [hC]; ring
  have hen2 : eps * n * ‖e‖ ^ 2 ≤ k / 2 * ‖e‖ ^ 2 := mul_le_mul_of_nonneg_right hen (by positivity)
  rcases hco e hein with hq1 | hr1'
  · have : 0 < t * (∑ i, H e i * e i - eps * n * ‖e‖ ^ 2) := by
      apply mul_pos ht.1
      have : 0 < k * ‖e‖ ^ 2 := by positivity
      linarith
    linarith
  · have hlow : -((C + k / 2) * ‖e‖ ^ 2) ≤ t * (∑ i, H e i * e i - eps * n * ‖e‖ ^ 2) := by
      have a := (abs_le.1 hQb).1
      have b : -((C + k / 2) * ‖e‖ ^ 2) ≤ ∑ i, H e i * e i - eps * n * ‖e‖ ^ 2 := by linarith
      have c : 0 ≤ (C + k / 2) * ‖e‖ ^ 2 := by positivity
      exact neg_mul_le_of c b ht.1.le ht.2.le
    have hsm : (C + k / 2) * ‖e‖ < k / 4 := by
      have a : (C + k / 2) * ‖e‖ ≤ (C + k / 2) * (2 * r6) := mul_le_mul_of_nonneg_left (by linarith) (by positivity)
      refine a.trans_lt ?_
      rw [hr6d, show (C + k / 2) * (2 * (k / (8 * (C + k)))) = ((C + k / 2) * (2 * k)) / (8 * (C + k)) by ring, div_lt_iff₀ (by positivity)]
      nlinarith
    have hΛe : Λ / 2 * (eps * ‖e‖) ≤ k / 4 * ‖e‖ := by
      have := mul_le_mul_of_nonneg_right heΛ (norm_nonneg e)
      linarith
    have hmul := mul_lt_mul_of_pos_right hsm hepos'
    have hsum : ∑ c : Fin N.ng, |toFin N.ng l c| = Λ := rfl
    rw [hsum] at hB
    have hRe : k * ‖e‖ ≤ ∑ c, |toFin N.ng l c| * |J e c| + ∑ i, |toFin N.nx lX i| * |e i| := hr1'
    have hsq : (C + k / 2) * ‖e‖ ^ 2 = (C + k / 2) * ‖e‖ * ‖e‖ := by ring
    rw [hsq] at hlow
    linarith

end growth

/-- **C59** (partial): the solutions.  Let the differentiator report the constraint qualification and strict complementarity for a point that satisfies the
conditions of first order, let the condition of second order hold, the functions be continuously differentiable and the tolerance be positive.  Then
* for all parameters close to `p` the NLP has close to the point exactly one solution (up to variables that do not occur): every other admissible point there
  costs more;
* this solution is differentiable at `p`, and the matrix returned by `differentiate` is its derivative;
* the same holds for every function that gives (global) solutions of the NLP and is continuous at `p`. -/
theorem C59_solution_partial (N : Nlp ℝ) (hdep : DependsCorrect N) (S : Settings ℝ) (ht : 0 < S.tol) (C : Checks) (lin lstsq : LinSolver ℝ)
    (hlin : Solves lin) (hcomp : Complete lin) (hls : S.lstsqFallback = true → Solves lstsq) (s : Sol ℝ) (p : List ℝ) (st st' : Status ℝ) (o : Out ℝ)
    (h : differentiateSt N S C lin lstsq s p st = (.ok o, st')) (hCl : C.licq = true) (hCs : C.sc = true)
    (hlicq : st'.licq = some true) (hsc : st'.sc = some true)
    (h2 : SecondOrder N s.x s.lamG (fun i => p.getD i 0) (fun c => AtBound S.tol (s.g c) (N.lbg c) (N.ubg c))
      (fun i => AtBound S.tol (s.x i) (N.lbx i) (N.ubx i)))
    (f) (grad) (g) (hS : Smooth N grad g s.x s.lamG (fun i => p.getD i 0)) (hL : LagrangianOf N f g grad s.x s.lamG (fun i => p.getD i 0))
    (hg0 : g (toFin _ s.x, toFin _ fun i => p.getD i 0) = toFin _ s.g)
    (hk0 : KktPoint N grad g (toFin _ s.x) (toFin _ s.lamG) (toFin _ s.lamX) (toFin _ fun i => p.getD i 0)) :
    let p0 := toFin N.np fun i => p.getD i 0
    ∃ r > 0, ∃ (X : (Fin N.np → ℝ) → Fin N.nx → ℝ) (LG : (Fin N.np → ℝ) → Fin N.ng → ℝ) (LX : (Fin N.np → ℝ) → Fin N.nx → ℝ),
      (X p0 = toFin _ s.x ∧ LG p0 = toFin _ s.lamG ∧ LX p0 = toFin _ s.lamX ∧ ContinuousAt X p0 ∧ ContinuousAt LG p0 ∧ ContinuousAt LX p0 ∧
        ∀ᶠ q in 𝓝 p0, KktPoint N grad g (X q) (LG q) (LX q) q) ∧
      (∀ᶠ q in 𝓝 p0, Admissible N g (X q) q ∧ ∀ y, (∀ i : Fin N.nx, N.depX i = true → |y i - s.x i| < r) → Admissible N g y q →
        (∃ i : Fin N.nx, N.depX i = true ∧ y i ≠ X q i) → f (X q, q) < f (y, q)) ∧
      (∀ i : Fin N.nx, N.depX i = true → ∃ D : (Fin N.np → ℝ) →L[ℝ] ℝ, HasFDerivAt (fun q => X q i) D p0 ∧ ∀ k : Fin N.np, o.dx i k = some (D (Pi.single k 1))) ∧
      ∀ Y : (Fin N.np → ℝ) → Fin N.nx → ℝ, (∀ i : Fin N.nx, N.depX i = true → Y p0 i = s.x i) →
        (∀ i : Fin N.nx, N.depX i = true → ContinuousAt (fun q => Y q i) p0) → (∀ᶠ q in 𝓝 p0, Minimiser N f g (Y q) q) →
        ∀ i : Fin N.nx, N.depX i = true → ∃ D : (Fin N.np → ℝ) →L[ℝ] ℝ, HasFDerivAt (fun q => Y q i) D p0 ∧ ∀ k : Fin N.np, o.dx i k = some (D (Pi.single k 1)) := by
  intro p0
  obtain ⟨⟨X, LG, LX, hX0, hG0, hL0, hXc, hGc, hLc, hk⟩, hder⟩ :=
    C59_sensitivity_partial N hdep S ht C lin lstsq hlin hcomp hls s p st st' o h hCl hCs hlicq hsc h2 grad g hS hg0 hk0
  obtain ⟨b, hb, hbi⟩ := C91_sc_partial N S C lin lstsq s p st st' o h hCs
  have hstr := strict_of_reported N S ht s (hbi.1 (by rw [hb] at hsc; exact Option.some.inj hsc))
  obtain ⟨r, hr, hmin⟩ := nearby_minimum N f grad g s.x s.lamG s.lamX (fun i => p.getD i 0) hS hL _ _ hstr.1 hstr.2 h2
  have near : ∀ᶠ q in 𝓝 p0, dist (X q) (toFin _ s.x) < r ∧ dist (LG q) (toFin _ s.lamG) < r ∧ dist (LX q) (toFin _ s.lamX) < r ∧ dist q p0 < r := by
    have a1 := Metric.tendsto_nhds.1 hXc.tendsto r hr
    have a2 := Metric.tendsto_nhds.1 hGc.tendsto r hr
    have a3 := Metric.tendsto_nhds.1 hLc.tendsto r hr
    rw [hX0] at a1
    rw [hG0] at a2
    rw [hL0] at a3
    filter_upwards [a1, a2, a3, Metric.ball_mem_nhds p0 hr] with q q1 q2 q3 q4
    exact ⟨q1, q2, q3, q4⟩
  have hloc : ∀ᶠ q in 𝓝 p0, Admissible N g (X q) q ∧ ∀ y, (∀ i : Fin N.nx, N.depX i = true → |y i - s.x i| < r) → Admissible N g y q →
      (∃ i : Fin N.nx, N.depX i = true ∧ y i ≠ X q i) → f (X q, q) < f (y, q) := by
    filter_upwards [near, hk] with q hn hkq
    exact ⟨⟨hkq.lowerG, hkq.upperG, hkq.lowerX, hkq.upperX⟩, fun y => hmin _ _ _ q hn.1 hn.2.1 hn.2.2.1 hn.2.2.2 hkq y⟩
  have hd := (hder X LG LX (fun i _ => congrFun hX0 i) hG0 hL0 (fun i _ => (continuousAt_pi.1 hXc) i) hGc hLc hk).1
  refine ⟨r, hr, X, LG, LX, ⟨hX0, hG0, hL0, hXc, hGc, hLc, hk⟩, hloc, hd, fun Y hY0 hYc hYm i hi => ?_⟩
  obtain ⟨D, hD, hDk⟩ := hd i hi
  have hYn : ∀ᶠ q in 𝓝 p0, ∀ i : Fin N.nx, N.depX i = true → |Y q i - s.x i| < r := by
    refine eventually_all.2 fun i => ?_
    by_cases hdi : N.depX i = true
    · have := Metric.tendsto_nhds.1 (hYc i hdi).tendsto r hr
      rw [hY0 i hdi] at this
      exact this.mono fun q hq _ => hq
    · exact Eventually.of_forall fun q hq => absurd hq hdi
  refine ⟨D, hD.congr_of_eventuallyEq ?_, hDk⟩
  filter_upwards [hloc, hYm, hYn] with q q1 q2 q3
  by_contra hne
  exact absurd (q1.2 (Y q) q3 q2.1 ⟨i, hi, hne⟩) (not_lt.2 (q2.2 _ q1.1))

/-- **C59** (partial): the same along any differentiable change `π` of the parameters, for solutions that are given along this change only. -/
theorem C59_solution_along_partial (N : Nlp ℝ) (hdep : DependsCorrect N) (S : Settings ℝ) (ht : 0 < S.tol) (C : Checks) (lin lstsq : LinSolver ℝ)
    (hlin : Solves lin) (hcomp : Complete lin) (hls : S.lstsqFallback = true → Solves lstsq) (s : Sol ℝ) (p : List ℝ) (st st' : Status ℝ) (o : Out ℝ)
    (h : differentiateSt N S C lin lstsq s p st = (.ok o, st')) (hCl : C.licq = true) (hCs : C.sc = true)
    (hlicq : st'.licq = some true) (hsc : st'.sc = some true)
    (h2 : SecondOrder N s.x s.lamG (fun i => p.getD i 0) (fun c => AtBound S.tol (s.g c) (N.lbg c) (N.ubg c))
      (fun i => AtBound S.tol (s.x i) (N.lbx i) (N.ubx i)))
    (f) (grad) (g) (hS : Smooth N grad g s.x s.lamG (fun i => p.getD i 0)) (hL : LagrangianOf N f g grad s.x s.lamG (fun i => p.getD i 0))
    (hg0 : g (toFin _ s.x, toFin _ fun i => p.getD i 0) = toFin _ s.g)
    (hk0 : KktPoint N grad g (toFin _ s.x) (toFin _ s.lamG) (toFin _ s.lamX) (toFin _ fun i => p.getD i 0))
    {E : Type} [NormedAddCommGroup E] [NormedSpace ℝ E] (π : E → Fin N.np → ℝ) (e0 : E) (P : E →L[ℝ] (Fin N.np → ℝ)) (hP : HasFDerivAt π P e0)
    (h0 : π e0 = toFin N.np fun i => p.getD i 0) (Y : E → Fin N.nx → ℝ) (hY0 : ∀ i : Fin N.nx, N.depX i = true → Y e0 i = s.x i)
    (hYc : ∀ i : Fin N.nx, N.depX i = true → ContinuousAt (fun e => Y e i) e0) (hYm : ∀ᶠ e in 𝓝 e0, Minimiser N f g (Y e) (π e))
    (i : Fin N.nx) (hi : N.depX i = true) :
    ∃ D : (Fin N.np → ℝ) →L[ℝ] ℝ, (∀ k : Fin N.np, o.dx i k = some (D (Pi.single k 1))) ∧ HasFDerivAt (fun e => Y e i) (D.comp P) e0 := by
  obtain ⟨r, hr, X, LG, LX, -, hloc, hd, -⟩ :=
    C59_solution_partial N hdep S ht C lin lstsq hlin hcomp hls s p st st' o h hCl hCs hlicq hsc h2 f grad g hS hL hg0 hk0
  obtain ⟨D, hD, hDk⟩ := hd i hi
  refine ⟨D, hDk, ?_⟩
  rw [← h0] at hD hloc
  have hcomp := hD.comp e0 hP
  refine hcomp.congr_of_eventuallyEq ?_
  have hYn : ∀ᶠ e in 𝓝 e0, ∀ i : Fin N.nx, N.depX i = true → |Y e i - s.x i| < r := by
    refine eventually_all.2 fun i => ?_
    by_cases hdi : N.depX i = true
    · have := Metric.tendsto_nhds.1 (hYc i hdi).tendsto r hr
      rw [hY0 i hdi] at this
      exact this.mono fun q hq _ => hq
    · exact Eventually.of_forall fun q hq => absurd hq hdi
  filter_upwards [hP.continuousAt.tendsto.eventually hloc, hYm, hYn] with e q1 q2 q3
  show Y e i = X (π e) i
  by_contra hne
  exact absurd (q1.2 (Y e) q3 q2.1 ⟨i, hi, hne⟩) (not_lt.2 (q2.2 _ q1.1))

end DoMpc.Diff
