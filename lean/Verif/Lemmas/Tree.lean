import Verif.Spec.Tree
import Verif.Lemmas.ScenarioTree
import Mathlib.Data.List.Induction

/-! Histories and node numbers. -/
namespace DoMpc
open Spec

theorem number_append (c : Nat) (h : List Nat) (b : Nat) : number c (h ++ [b]) = number c h * c + b := by
  simp [number]

theorem number_lt (c : Nat) (h : List Nat) (hb : ∀ b ∈ h, b < c) : number c h < c ^ h.length := by
  induction h using List.reverseRecOn with
  | nil => simp [number]
  | append_singleton h b ih =>
    rw [number_append]
    have h1 : number c h < c ^ h.length := ih (fun x hx => hb x (by simp [hx]))
    have h2 : b < c := hb b (by simp)
    simp only [List.length_append, List.length_cons, List.length_nil, pow_succ]
    calc number c h * c + b < number c h * c + c := by omega
      _ = (number c h + 1) * c := by ring
      _ ≤ c ^ h.length * c := Nat.mul_le_mul_right _ h1

theorem number_inj (c : Nat) (h h' : List Nat) (hl : h.length = h'.length)
    (hb : ∀ b ∈ h, b < c) (hb' : ∀ b ∈ h', b < c) (he : number c h = number c h') : h = h' := by
  induction h using List.reverseRecOn generalizing h' with
  | nil =>
    cases h' with
    | nil => rfl
    | cons a t => simp at hl
  | append_singleton h b ih =>
    rcases List.eq_nil_or_concat h' with rfl | ⟨h2, b2, rfl⟩
    · simp at hl
    · simp only [List.concat_eq_append] at *
      rw [number_append, number_append] at he
      have hb1 : b < c := hb b (by simp)
      have hb2 : b2 < c := hb' b2 (by simp)
      have hc : 0 < c := by omega
      have e1 : number c h = number c h2 := by
        have := congrArg (· / c) he
        simp only [Nat.mul_comm _ c, Nat.mul_add_div hc, Nat.div_eq_of_lt hb1, Nat.div_eq_of_lt hb2] at this
        simpa using this
      have e2 : b = b2 := by rw [e1] at he; omega
      have := ih h2 (by simpa using hl) (fun x hx => hb x (by simp [hx])) (fun x hx => hb' x (by simp [hx])) e1
      rw [this, e2]

/-- Digits of `s` in base `c`, most significant first, `n` of them. -/
def digitsOf (c : Nat) : Nat → Nat → List Nat
  | 0, _ => []
  | n + 1, s => digitsOf c n (s / c) ++ [s % c]

theorem digitsOf_length (c n s : Nat) : (digitsOf c n s).length = n := by
  induction n generalizing s with
  | zero => rfl
  | succ n ih => simp [digitsOf, ih]

theorem digitsOf_lt (c n s : Nat) (hc : 0 < c) : ∀ b ∈ digitsOf c n s, b < c := by
  induction n generalizing s with
  | zero => simp [digitsOf]
  | succ n ih =>
    intro b hb
    simp only [digitsOf, List.mem_append, List.mem_singleton] at hb
    rcases hb with hb | rfl
    · exact ih _ b hb
    · exact Nat.mod_lt _ hc

theorem number_digitsOf (c n s : Nat) (hs : s < c ^ n) : number c (digitsOf c n s) = s := by
  induction n generalizing s with
  | zero => simp [digitsOf, number] at *; omega
  | succ n ih =>
    rw [digitsOf, number_append, ih]
    · rw [Nat.mul_comm]; exact Nat.div_add_mod s c
    · rw [pow_succ] at hs
      exact Nat.div_lt_of_lt_mul (by rwa [Nat.mul_comm])

theorem digitsOf_number (c : Nat) (h : List Nat) (hb : ∀ b ∈ h, b < c) :
    digitsOf c h.length (number c h) = h := by
  rcases Nat.eq_zero_or_pos c with rfl | hc
  · cases h with
    | nil => rfl
    | cons a t => exact absurd (hb a (by simp)) (by omega)
  · apply number_inj c
    · exact digitsOf_length _ _ _
    · exact digitsOf_lt c _ _ hc
    · exact hb
    · exact number_digitsOf c _ _ (number_lt c h hb)

theorem isHistory_number_lt {c nR k : Nat} {h : List Nat} (hh : IsHistory c nR k h) :
    number c h < nScenarios c nR k := by
  have := number_lt c h hh.2
  rw [hh.1] at this
  exact this

theorem isHistory_extend {c nR k : Nat} {h : List Nat} {b : Nat} (hh : IsHistory c nR k h)
    (hb : MayOccur c nR k h b) : IsHistory c nR (k + 1) (extend nR k h b) := by
  unfold extend MayOccur at *
  split_ifs with hk
  · rw [if_pos hk] at hb
    refine ⟨by simp [hh.1]; omega, ?_⟩
    intro x hx
    simp only [List.mem_append, List.mem_singleton] at hx
    rcases hx with hx | rfl
    · exact hh.2 x hx
    · exact hb
  · exact ⟨by rw [hh.1]; omega, hh.2⟩

theorem number_getLast_mod {c : Nat} {h : List Nat} (hne : h ≠ []) (hb : ∀ b ∈ h, b < c) :
    number c h % c = h.getLastD 0 := by
  rcases List.eq_nil_or_concat h with rfl | ⟨h2, b2, rfl⟩
  · exact absurd rfl hne
  · simp only [List.concat_eq_append] at *
    rw [number_append]
    have : b2 < c := hb b2 (by simp)
    simp [Nat.mod_eq_of_lt this]

/-- Parameter index used by the code on branch `b` of the node of history `h` (`b + branch_offset`). -/
theorem offset_history {c nR k : Nat} {h : List Nat} (hh : IsHistory c nR k h) :
    branchOffsetValue c nR k (number c h) = if k < nR then 0 else ((h.getLastD 0 : Nat) : Int) := by
  unfold branchOffsetValue
  by_cases h0 : nR = 0
  · subst h0
    have : h = [] := by
      have := hh.1; simp at this; exact this
    simp [this]
  · rw [if_neg h0]
    split_ifs with hk
    · rfl
    · have hne : h ≠ [] := by
        intro e; have := hh.1; rw [e] at this; simp at this; omega
      have hB : nBranches c nR 0 = c := by unfold nBranches; rw [if_pos (by omega)]
      rw [hB, number_getLast_mod hne hh.2]

/-- The set of parameter indices used at a node is the set of realisations that may occur. -/
theorem mayOccur_iff {c nR k : Nat} {h : List Nat} (hh : IsHistory c nR k h) (r : Nat) :
    MayOccur c nR k h r ↔
      ∃ b, b < nBranches c nR k ∧ (b : Int) + branchOffsetValue c nR k (number c h) = (r : Int) := by
  rw [offset_history hh]
  unfold MayOccur nBranches
  split_ifs with hk
  · constructor
    · intro hr; exact ⟨r, hr, by simp⟩
    · rintro ⟨b, hb, he⟩; have : b = r := by simpa using he
      omega
  · constructor
    · intro hr; exact ⟨0, by omega, by simp [hr]⟩
    · rintro ⟨b, hb, he⟩
      have : b = 0 := by omega
      subst this
      have : ((h.getLastD 0 : Nat) : Int) = r := by simpa using he
      exact (Int.ofNat.inj this).symm

/-- The child on branch `b` of the node of history `h` is the node of the extended history. -/
theorem child_history {c nR k : Nat} {h : List Nat} (hh : IsHistory c nR k h) {b r : Nat}
    (hb : b < nBranches c nR k) (hr : (b : Int) + branchOffsetValue c nR k (number c h) = (r : Int)) :
    number c h * nBranches c nR k + b = number c (extend nR k h r) := by
  rw [offset_history hh] at hr
  unfold nBranches extend at *
  split_ifs at * with hk
  · have : b = r := by simpa using hr
    rw [number_append, this]
  · have : b = 0 := by omega
    subst this
    simp

end DoMpc
