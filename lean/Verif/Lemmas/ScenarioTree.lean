import Verif.Model.ScenarioTree
import Mathlib.Tactic.Ring
import Mathlib.Tactic.SplitIfs
import Mathlib.Tactic.Linarith

/-! Closed forms of the scenario tree tables. -/
namespace DoMpc

theorem branchLoop_eq (k s : Nat) (t : TreeTables) (m : Nat) :
    (List.range m).foldl (treeBranchBody k s) t =
      { child := fun k' s' b' => if k' = k ∧ s' = s ∧ b' < m then ((t.counter + b' : Nat) : Int) else t.child k' s' b'
        struct := fun k' j => if (k' = k ∨ k' = k + 1) ∧ t.counter ≤ j ∧ j < t.counter + m then (s : Int) else t.struct k' j
        parent := fun k' j => if k' = k + 1 ∧ t.counter ≤ j ∧ j < t.counter + m then (s : Int) else t.parent k' j
        offset := t.offset
        counter := t.counter + m } := by
  induction m with
  | zero =>
    simp only [List.range_zero, List.foldl_nil]
    cases t
    simp only [TreeTables.mk.injEq, Nat.not_lt_zero, and_false, if_false, true_and, Nat.add_zero, and_true]
    refine ⟨?_, ?_⟩ <;> funext a b <;> rw [if_neg] <;> omega
  | succ m ih =>
    rw [List.range_succ, List.foldl_append, ih]
    simp only [List.foldl_cons, List.foldl_nil, treeBranchBody, TreeTables.mk.injEq, true_and]
    refine ⟨?_, ?_, ?_, by omega⟩
    · funext a b c
      simp only [upd3]
      split_ifs <;> first | rfl | omega
    · funext a b
      simp only [upd2]
      split_ifs <;> first | rfl | omega
    · funext a b
      simp only [upd2]
      split_ifs <;> first | rfl | omega

theorem div_between {n B j : Nat} (h1 : n * B ≤ j) (h2 : j < n * B + B) : j / B = n := by
  have hB : 0 < B := by omega
  rw [Nat.div_eq_iff hB]
  constructor
  · exact h1
  · omega

theorem scenLoop_eq (c nR k : Nat) (t : TreeTables) (n : Nat) (h0 : t.counter = 0) :
    (List.range n).foldl (treeScenBody c nR k) t =
      { child := fun k' s' b' => if k' = k ∧ s' < n ∧ b' < nBranches c nR k then
            ((s' * nBranches c nR k + b' : Nat) : Int) else t.child k' s' b'
        struct := fun k' j => if (k' = k ∨ k' = k + 1) ∧ j < n * nBranches c nR k then
            ((j / nBranches c nR k : Nat) : Int) else t.struct k' j
        parent := fun k' j => if k' = k + 1 ∧ j < n * nBranches c nR k then
            ((j / nBranches c nR k : Nat) : Int) else t.parent k' j
        offset := fun k' s' => if k' = k ∧ s' < n then branchOffsetValue c nR k s' else t.offset k' s'
        counter := n * nBranches c nR k } := by
  induction n with
  | zero =>
    simp only [List.range_zero, List.foldl_nil]
    cases t
    simp at h0
    simp [h0]
  | succ n ih =>
    rw [List.range_succ, List.foldl_append, ih]
    simp only [List.foldl_cons, List.foldl_nil, treeScenBody, branchLoop_eq, TreeTables.mk.injEq]
    have hs : (n + 1) * nBranches c nR k = n * nBranches c nR k + nBranches c nR k := by ring
    rw [hs]
    refine ⟨?_, ?_, ?_, ?_, rfl⟩
    · funext a b d
      by_cases h1 : a = k ∧ b = n ∧ d < nBranches c nR k
      · obtain ⟨rfl, rfl, h3⟩ := h1
        simp [h3]
      · rw [if_neg h1]
        split_ifs <;> first | rfl | omega
    · funext a b
      by_cases h1 : (a = k + 1) ∧ n * nBranches c nR k ≤ b ∧ b < n * nBranches c nR k + nBranches c nR k
      · rw [if_pos h1, if_pos ⟨h1.1, h1.2.2⟩, div_between h1.2.1 h1.2.2]
      · rw [if_neg h1]
        generalize n * nBranches c nR k = q at *
        split_ifs <;> first | rfl | omega
    · funext a b
      simp only [upd2]
      by_cases h1 : a = k ∧ b = n
      · obtain ⟨rfl, rfl⟩ := h1
        simp
      · rw [if_neg h1]
        split_ifs <;> first | rfl | omega
    · funext a b
      by_cases h1 : (a = k ∨ a = k + 1) ∧ n * nBranches c nR k ≤ b ∧ b < n * nBranches c nR k + nBranches c nR k
      · rw [if_pos h1, if_pos ⟨h1.1, h1.2.2⟩, div_between h1.2.1 h1.2.2]
      · rw [if_neg h1]
        generalize n * nBranches c nR k = q at *
        split_ifs <;> first | rfl | omega

theorem nScenarios_succ (c nR k : Nat) :
    nScenarios c nR (k + 1) = nScenarios c nR k * nBranches c nR k := by
  unfold nScenarios nBranches
  split_ifs with h
  · rw [show min (k+1) nR = min k nR + 1 by omega, pow_succ]
  · rw [show min (k+1) nR = min k nR by omega, Nat.mul_one]

theorem nScenarios_pos (c nR k : Nat) (hc : 0 < c) : 0 < nScenarios c nR k := Nat.pow_pos hc

theorem nBranches_pos (c nR k : Nat) (hc : 0 < c) : 0 < nBranches c nR k := by
  unfold nBranches; split_ifs <;> omega

theorem nScenarios_mono (c nR : Nat) (hc : 0 < c) {k l : Nat} (h : k ≤ l) :
    nScenarios c nR k ≤ nScenarios c nR l := by
  unfold nScenarios
  exact Nat.pow_le_pow_right hc (by omega)

/-- Closed form of all tables after `nk` stages. -/
theorem treeTables_eq (nk nR c : Nat) (hc : 0 < c) :
    (∀ k s b, (treeTables nk nR c).child k s b =
        if k < nk ∧ s < nScenarios c nR k ∧ b < nBranches c nR k then ((s * nBranches c nR k + b : Nat) : Int) else -1) ∧
    (∀ k j, (treeTables nk nR c).parent k j =
        if 0 < k ∧ k ≤ nk ∧ j < nScenarios c nR k then ((j / nBranches c nR (k - 1) : Nat) : Int) else -1) ∧
    (∀ k s, (treeTables nk nR c).offset k s =
        if k < nk ∧ s < nScenarios c nR k then branchOffsetValue c nR k s else -1) ∧
    (∀ k j, (treeTables nk nR c).struct k j =
        if k < nk ∧ j < nScenarios c nR (k + 1) then ((j / nBranches c nR k : Nat) : Int)
        else if 0 < k ∧ k = nk ∧ j < nScenarios c nR k then ((j / nBranches c nR (k - 1) : Nat) : Int) else 0) := by
  induction nk with
  | zero =>
    simp only [treeTables, TreeTables.init, List.range_zero, List.foldl_nil]
    refine ⟨?_, ?_, ?_, ?_⟩
    · intros; rw [if_neg (by omega)]
    · intros; rw [if_neg (by omega)]
    · intros; rw [if_neg (by omega)]
    · intros; rw [if_neg (by omega), if_neg (by omega)]
  | succ nk ih =>
    obtain ⟨ih1, ih2, ih3, ih4⟩ := ih
    have key : treeTables (nk + 1) nR c = treeStageBody c nR (treeTables nk nR c) nk := by
      simp [treeTables, List.range_succ, List.foldl_append]
    rw [key]
    unfold treeStageBody
    rw [scenLoop_eq _ _ _ _ _ rfl]
    have hsucc := nScenarios_succ c nR nk
    refine ⟨?_, ?_, ?_, ?_⟩
    · intro k s b
      simp only [ih1]
      by_cases hk : k = nk
      · subst hk
        simp
      · simp only [hk, false_and, if_false]
        have : (k < nk) = (k < nk + 1) := by simp only [eq_iff_iff]; omega
        simp only [this]
    · intro k j
      simp only [ih2, ← hsucc]
      by_cases hk : k = nk + 1
      · subst hk
        simp
      · simp only [hk, false_and, if_false]
        have : (k ≤ nk) = (k ≤ nk + 1) := by simp only [eq_iff_iff]; omega
        simp only [this]
    · intro k s
      simp only [ih3]
      by_cases hk : k = nk
      · subst hk; simp
      · simp only [hk, false_and, if_false]
        have : (k < nk) = (k < nk + 1) := by simp only [eq_iff_iff]; omega
        simp only [this]
    · intro k j
      simp only [ih4, ← hsucc]
      by_cases hk : k = nk
      · subst hk
        have hmono := nScenarios_mono c nR hc (Nat.le_succ k)
        simp only [Nat.succ_eq_add_one] at hmono
        by_cases hj : j < nScenarios c nR (k + 1)
        · simp [hj]
        · have hj' : ¬ j < nScenarios c nR k := by omega
          simp [hj, hj']
      · by_cases hk2 : k = nk + 1
        · subst hk2
          simp
        · simp only [hk, hk2, false_or, false_and, and_false, if_false]
          have : (k < nk) = (k < nk + 1) := by simp only [eq_iff_iff]; omega
          simp only [this]

theorem treeTables_child (nk nR c : Nat) (hc : 0 < c) {k s b : Nat} (hk : k < nk)
    (hs : s < nScenarios c nR k) (hb : b < nBranches c nR k) :
    (treeTables nk nR c).child k s b = ((s * nBranches c nR k + b : Nat) : Int) := by
  rw [(treeTables_eq nk nR c hc).1, if_pos ⟨hk, hs, hb⟩]

theorem treeTables_parent (nk nR c : Nat) (hc : 0 < c) {k j : Nat} (hk : k < nk)
    (hj : j < nScenarios c nR (k + 1)) :
    (treeTables nk nR c).parent (k + 1) j = ((j / nBranches c nR k : Nat) : Int) := by
  rw [(treeTables_eq nk nR c hc).2.1, if_pos ⟨by omega, by omega, hj⟩]
  simp

theorem treeTables_offset (nk nR c : Nat) (hc : 0 < c) {k s : Nat} (hk : k < nk)
    (hs : s < nScenarios c nR k) :
    (treeTables nk nR c).offset k s = branchOffsetValue c nR k s := by
  rw [(treeTables_eq nk nR c hc).2.2.1, if_pos ⟨hk, hs⟩]

theorem treeTables_struct (nk nR c : Nat) (hc : 0 < c) {k j : Nat} (hk : k < nk) :
    (treeTables nk nR c).struct k j =
      if j < nScenarios c nR (k + 1) then ((j / nBranches c nR k : Nat) : Int) else 0 := by
  rw [(treeTables_eq nk nR c hc).2.2.2]
  have h1 : k ≠ nk := by omega
  simp [hk, h1]

theorem child_lt {c nR k s b : Nat} (hs : s < nScenarios c nR k) (hb : b < nBranches c nR k) :
    s * nBranches c nR k + b < nScenarios c nR (k + 1) := by
  rw [nScenarios_succ]
  calc s * nBranches c nR k + b < s * nBranches c nR k + nBranches c nR k := by omega
    _ = (s + 1) * nBranches c nR k := by ring
    _ ≤ nScenarios c nR k * nBranches c nR k := Nat.mul_le_mul_right _ hs

end DoMpc
