import Verif.Lemmas.MpcNlp
import Mathlib.Algebra.BigOperators.Ring.List

/-! Sums over the scenario tree. -/
set_option linter.unusedSectionVars false
namespace DoMpc
open Spec
variable {K : Type} [Field K] [LinearOrder K] [IsStrictOrderedRing K] {d : Dims}

theorem sum_flatMap {α β : Type} (l : List α) (f : α → List β) (g : β → K) :
    ((l.flatMap f).map g).sum = (l.map fun a => ((f a).map g).sum).sum := by
  induction l with
  | nil => simp
  | cons a t ih => simp [List.flatMap_cons, ih]

theorem sum_map_add' {α : Type} (l : List α) (f g : α → K) :
    (l.map fun a => f a + g a).sum = (l.map f).sum + (l.map g).sum := by
  induction l with
  | nil => simp
  | cons a t ih => simp [ih]; ring

theorem sum_map_mul_left' {α : Type} (l : List α) (r : K) (f : α → K) :
    (l.map fun a => r * f a).sum = r * (l.map f).sum := by
  induction l with
  | nil => simp
  | cons a t ih => simp [ih]; ring

theorem sum_map_const {α : Type} (l : List α) (r : K) : (l.map fun _ => r).sum = (l.length : K) * r := by
  induction l with
  | nil => simp
  | cons a t ih => rw [List.map_cons, List.sum_cons, ih]; push_cast [List.length_cons]; ring

theorem sum_map_congr {α : Type} {l : List α} {f g : α → K} (h : ∀ a ∈ l, f a = g a) : (l.map f).sum = (l.map g).sum := by
  rw [List.map_congr_left h]

theorem sum_map_swap {α β : Type} (l : List α) (l' : List β) (f : α → β → K) :
    (l.map fun a => (l'.map fun b => f a b).sum).sum = (l'.map fun b => (l.map fun a => f a b).sum).sum := by
  induction l with
  | nil => simp
  | cons a t ih => simp only [List.map_cons, List.sum_cons, ih, sum_map_add']

theorem length_allHistories (c m : Nat) : (allHistories c m).length = c ^ m := by
  have := congrArg List.length (map_number_allHistories c m)
  simpa using this

/-- Averaging a function of a prefix. -/
theorem sum_allHistories_take (c m e : Nat) (G : List Nat → K) :
    ((allHistories c (m + e)).map fun σ => G (σ.take m)).sum = (c : K) ^ e * ((allHistories c m).map G).sum := by
  induction e with
  | zero =>
    simp only [Nat.add_zero, pow_zero, one_mul]
    apply sum_map_congr
    intro σ hσ
    rw [mem_allHistories] at hσ
    rw [List.take_of_length_le (by omega)]
  | succ e ih =>
    rw [← Nat.add_assoc]
    simp only [allHistories]
    rw [sum_flatMap]
    have : ∀ h ∈ allHistories c (m + e), (((List.range c).map fun b => h ++ [b]).map fun σ => G (σ.take m)).sum =
        (c : K) * G (h.take m) := by
      intro h hh
      rw [mem_allHistories] at hh
      rw [List.map_map]
      have : ((fun σ => G (σ.take m)) ∘ fun b => h ++ [b]) = fun _ => G (h.take m) := by
        funext b
        simp only [Function.comp_apply]
        rw [List.take_append_of_le_length (by omega)]
      rw [this, sum_map_const]
      simp
    rw [sum_map_congr this, sum_map_mul_left', ih, pow_succ]
    ring

/-- One stage of the average. -/
theorem stage_average (c N nR k : Nat) (hc : 0 < c) (hk : k < N) (G : List Nat → Nat → K) :
    ((allHistories c (min N nR)).map fun σ => G (known nR k σ) (realisation nR k σ)).sum / ((c ^ min N nR : Nat) : K) =
      1 / ((c ^ min (k + 1) nR : Nat) : K) *
        ((allHistories c (min k nR)).map fun h => ((occurring c nR k h).map (G h)).sum).sum := by
  have hcK : (c : K) ≠ 0 := by exact_mod_cast hc.ne'
  by_cases hkR : k < nR
  · obtain ⟨e, he⟩ : ∃ e, min N nR = (k + 1) + e := ⟨min N nR - (k + 1), by omega⟩
    have h1 : ((allHistories c (min N nR)).map fun σ => G (known nR k σ) (realisation nR k σ)).sum =
        ((allHistories c (k + 1 + e)).map fun σ => (fun τ : List Nat => G (τ.take k) (τ.getD k 0)) (σ.take (k + 1))).sum := by
      rw [he]
      apply sum_map_congr
      intro σ hσ
      rw [mem_allHistories] at hσ
      simp only [known, realisation, if_pos hkR, List.take_take]
      rw [show min k nR = k by omega, show min k (k + 1) = k by omega]
      congr 1
      simp [List.getD_eq_getElem?_getD]
    rw [h1, sum_allHistories_take c (k + 1) e (fun τ : List Nat => G (τ.take k) (τ.getD k 0))]
    have h2 : ((allHistories c (k + 1)).map fun τ : List Nat => G (τ.take k) (τ.getD k 0)).sum =
        ((allHistories c (min k nR)).map fun h => ((occurring c nR k h).map (G h)).sum).sum := by
      rw [show min k nR = k by omega]
      simp only [allHistories]
      rw [sum_flatMap]
      apply sum_map_congr
      intro h hh
      rw [mem_allHistories] at hh
      rw [List.map_map]
      unfold occurring
      rw [if_pos hkR]
      apply sum_map_congr
      intro b _
      simp only [Function.comp_apply]
      rw [List.take_append_of_le_length (by omega), List.take_of_length_le (by omega)]
      congr 1
      simp [List.getD_eq_getElem?_getD, hh.1]
    rw [h2, show min (k + 1) nR = k + 1 by omega, he]
    push_cast
    rw [pow_add]
    field_simp
  · rw [show min N nR = nR by omega, show min (k + 1) nR = nR by omega, show min k nR = nR by omega]
    rw [div_eq_mul_inv, mul_comm, one_div]
    congr 1
    apply sum_map_congr
    intro σ hσ
    rw [mem_allHistories] at hσ
    simp only [known, realisation, if_neg hkR, occurring]
    rw [List.take_of_length_le (by omega)]
    simp

/-- Economic cost accumulated branch by branch with weights `1/c^min(k+1,nR)` is the average over the scenarios. -/
theorem weighted_eq_average (c N nR : Nat) (hc : 0 < c) (hN : 0 < N) (L : Nat → List Nat → Nat → K) (Mf : List Nat → Nat → K) :
    ((List.range N).map fun k => 1 / ((c ^ min (k + 1) nR : Nat) : K) *
        ((allHistories c (min k nR)).map fun h => ((occurring c nR k h).map (L k h)).sum).sum).sum +
      1 / ((c ^ min N nR : Nat) : K) * ((allHistories c (min (N - 1) nR)).map fun h =>
        ((occurring c nR (N - 1) h).map fun r => Mf (extend nR (N - 1) h r) r).sum).sum =
    averageCost c N nR L Mf := by
  unfold averageCost
  rw [length_allHistories]
  have h1 : ((allHistories c (min N nR)).map (scenarioCost N nR L Mf)).sum =
      ((List.range N).map fun k => ((allHistories c (min N nR)).map fun σ => L k (known nR k σ) (realisation nR k σ)).sum).sum +
      ((allHistories c (min N nR)).map fun σ => Mf σ (realisation nR (N - 1) σ)).sum := by
    rw [← sum_map_swap, ← sum_map_add']
    rfl
  have h2 : ((allHistories c (min N nR)).map fun σ => Mf σ (realisation nR (N - 1) σ)).sum =
      ((allHistories c (min N nR)).map fun σ =>
        (fun h r => Mf (extend nR (N - 1) h r) r) (known nR (N - 1) σ) (realisation nR (N - 1) σ)).sum := by
    apply sum_map_congr
    intro σ hσ
    rw [mem_allHistories] at hσ
    simp only [known, extend, realisation]
    by_cases hk : N - 1 < nR
    · simp only [if_pos hk]
      congr 1
      have hl : σ.length = N - 1 + 1 := by omega
      rw [show min (N - 1) nR = N - 1 by omega]
      rcases List.eq_nil_or_concat σ with rfl | ⟨t, b, rfl⟩
      · simp at hl
      · simp only [List.concat_eq_append, List.length_append, List.length_singleton] at *
        rw [List.take_append_of_le_length (by omega), List.take_of_length_le (by omega)]
        congr 2
        simp [List.getD_eq_getElem?_getD, List.getElem?_append, show ¬ (N - 1 < t.length) by omega, show N - 1 - t.length = 0 by omega]
    · simp only [if_neg hk]
      rw [List.take_of_length_le (by omega)]
  rw [h1, h2, add_div]
  congr 1
  · rw [div_eq_mul_inv, mul_comm, ← sum_map_mul_left']
    apply sum_map_congr
    intro k hk
    rw [← stage_average c N nR k hc (List.mem_range.mp hk) (L k), div_eq_mul_inv, mul_comm]
  · rw [stage_average c N nR (N - 1) hc (by omega) (fun h r => Mf (extend nR (N - 1) h r) r)]
    rw [show N - 1 + 1 = N by omega]


/-- The loops of `_prepare_nlp` summed up. -/
theorem loop_sum (cfg : MpcCfg K d) (hc : 0 < cfg.c) (F : Nat → Nat → Nat → K) :
    (cfg.loop.map fun ksb => F ksb.1 ksb.2.1 (cfg.cur ksb.1 ksb.2.1 ksb.2.2)).sum =
      branchSum cfg.c cfg.N cfg.nRobust fun k h r => F k (number cfg.c h) r := by
  have h1 := loop_map cfg hc (fun k s _ cur => F k s cur)
  rw [h1]
  unfold branchSum
  have aux : ∀ {α : Type} (l : List α) (f : α → List K), (l.flatMap f).sum = (l.map fun a => (f a).sum).sum := by
    intro α l f
    have := sum_flatMap l f (id : K → K)
    simpa using this
  rw [aux]
  apply sum_map_congr
  intro k _
  rw [aux]

theorem branchSum_congr (c N nR : Nat) {f g : Nat → List Nat → Nat → K}
    (h : ∀ k < N, ∀ hist, IsHistory c nR k hist → ∀ r, MayOccur c nR k hist r → f k hist r = g k hist r) :
    branchSum c N nR f = branchSum c N nR g := by
  unfold branchSum
  apply sum_map_congr
  intro k hk
  apply sum_map_congr
  intro hist hh
  apply sum_map_congr
  intro r hr
  exact h k (List.mem_range.mp hk) hist ((mem_allHistories_iff ..).mp hh) r ((mem_occurring ..).mp hr)

theorem branchSum_add (c N nR : Nat) (f g : Nat → List Nat → Nat → K) :
    branchSum c N nR (fun k h r => f k h r + g k h r) = branchSum c N nR f + branchSum c N nR g := by
  unfold branchSum
  simp only [sum_map_add']

/-- A term that occurs only in the last stage. -/
theorem sum_last (N : Nat) (hN : 0 < N) (a : Nat → K) :
    ((List.range N).map fun k => if k = N - 1 then a k else 0).sum = a (N - 1) := by
  obtain ⟨n, rfl⟩ : ∃ n, N = n + 1 := ⟨N - 1, by omega⟩
  rw [List.range_succ, List.map_append, List.sum_append]
  have : ((List.range n).map fun k => if k = n + 1 - 1 then a k else 0).sum = ((List.range n).map fun _ => (0 : K)).sum := by
    apply sum_map_congr
    intro k hk
    have := List.mem_range.mp hk
    rw [if_neg (by omega)]
  rw [this, sum_map_const]
  simp

/-- parent table and histories -/
theorem par_history (cfg : MpcCfg K d) (hc : 0 < cfg.c) {k : Nat} (h0 : k ≠ 0) (hk : k < cfg.N) {h : List Nat}
    (hh : IsHistory cfg.c cfg.nRobust k h) :
    cfg.par k (number cfg.c h) = number cfg.c (previous cfg.nRobust k h) := by
  obtain ⟨j, rfl⟩ : ∃ j, k = j + 1 := ⟨k - 1, by omega⟩
  unfold MpcCfg.par MpcCfg.tree previous
  rw [treeTables_parent _ _ _ hc (by omega) (isHistory_number_lt hh), Int.toNat_natCast]
  unfold nBranches
  simp only [Nat.add_sub_cancel]
  split_ifs with hj
  · rcases List.eq_nil_or_concat h with rfl | ⟨t, b, rfl⟩
    · have := hh.1; simp at this; omega
    · have hl := hh.1
      have hb := hh.2
      simp only [List.concat_eq_append, List.length_append, List.length_singleton] at *
      rw [List.take_append_of_le_length (by omega), List.take_of_length_le (by omega), number_append,
        Nat.mul_comm, Nat.mul_add_div hc, Nat.div_eq_of_lt (hb b (by simp)), Nat.add_zero]
  · rw [List.take_of_length_le (by have := hh.1; omega), Nat.div_one]

end DoMpc
