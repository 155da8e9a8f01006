import Verif.Model.Files

/-! Lemmas about files, names and dictionaries. -/
namespace DoMpc

theorem lookup_cons_ite {α β : Type} [DecidableEq α] (k a : α) (b : β) (l : List (α × β)) :
    ((a, b) :: l).lookup k = if k = a then some b else l.lookup k := by
  by_cases h : k = a
  · subst h; simp [List.lookup_cons]
  · rw [List.lookup_cons]; simp [h]
    have : (k == a) = false := by simp [h]
    rw [this]

private theorem lookup_map_ne {α β : Type} [DecidableEq α] (d : List (α × β)) (k k' : α) (v : β) (h : k' ≠ k) :
    (d.map fun e => if e.1 = k then (k, v) else e).lookup k' = d.lookup k' := by
  induction d with
  | nil => rfl
  | cons e es ih =>
    obtain ⟨a, b⟩ := e
    by_cases he : a = k
    · subst he
      simp only [List.map_cons, if_true, lookup_cons_ite, if_neg h, ih]
    · simp only [List.map_cons, if_neg he, lookup_cons_ite, ih]

private theorem lookup_map_eq {α β : Type} [DecidableEq α] (d : List (α × β)) (k : α) (v : β) (h : d.any (fun e => e.1 = k)) :
    (d.map fun e => if e.1 = k then (k, v) else e).lookup k = some v := by
  induction d with
  | nil => simp at h
  | cons e es ih =>
    obtain ⟨a, b⟩ := e
    by_cases he : a = k
    · subst he
      simp only [List.map_cons, if_true, lookup_cons_ite]
    · simp only [List.any_cons, he, decide_false, Bool.false_or] at h
      simp only [List.map_cons, if_neg he, lookup_cons_ite, ih h, if_neg (Ne.symm he)]

theorem lookup_dictSet {α β : Type} [DecidableEq α] (d : List (α × β)) (k k' : α) (v : β) :
    (dictSet d k v).lookup k' = if k' = k then some v else d.lookup k' := by
  unfold dictSet
  by_cases h : d.any (fun e => e.1 = k)
  · rw [if_pos h]
    by_cases hk : k' = k
    · subst hk; rw [lookup_map_eq _ _ _ h, if_pos rfl]
    · rw [lookup_map_ne _ _ _ _ hk, if_neg hk]
  · rw [if_neg h]
    induction d with
    | nil => simp [lookup_cons_ite]
    | cons e es ih =>
      obtain ⟨a, b⟩ := e
      simp only [List.any_cons, Bool.or_eq_true, decide_eq_true_eq, not_or] at h
      simp only [List.cons_append, lookup_cons_ite]
      rw [ih h.2]
      by_cases hk : k' = k
      · subst hk; simp [Ne.symm h.1]
      · simp [hk]

theorem keys_dictSet {α β : Type} [DecidableEq α] (d : List (α × β)) (k : α) (v : β) (k' : α) :
    k' ∈ (dictSet d k v).map (·.1) ↔ k' = k ∨ k' ∈ d.map (·.1) := by
  unfold dictSet
  by_cases h : d.any (fun e => e.1 = k)
  · rw [if_pos h]
    have hk : k ∈ d.map (·.1) := by
      simp only [List.any_eq_true, decide_eq_true_eq] at h
      obtain ⟨e, he, rfl⟩ := h
      exact List.mem_map_of_mem he
    have : (d.map fun e => if e.1 = k then (k, v) else e).map (·.1) = d.map (·.1) := by
      rw [List.map_map]
      apply List.map_congr_left
      intro e _
      by_cases he : e.1 = k <;> simp [he]
    rw [this]
    constructor
    · exact Or.inr
    · rintro (rfl | h)
      · exact hk
      · exact h
  · rw [if_neg h]; simp [or_comm]

section names

/-- numbers written with leading zeros, whatever the widths, are different for different numbers -/
theorem zfill_inj {p q a b : Nat} (h : zfill p a = zfill q b) : a = b := by
  have h' := congrArg (fun s : String => Nat.ofDigitChars 10 s.toList 0) h
  simpa [zfill, Nat.ofDigitChars_append] using h'

theorem dot_not_mem_zfill (p a : Nat) : '.' ∉ (zfill p a).toList := by
  simp only [zfill, String.toList_ofList, List.mem_append, List.mem_replicate, not_or, not_and]
  refine ⟨fun _ => by decide, fun h => ?_⟩
  simpa using Nat.isDigit_of_mem_toDigits (by decide) (by decide) h

/-- removing `.pkl` from a name that ends in `.pkl` and has no other occurrence -/
theorem removeAll_pkl (s : List Char) (hs : ¬ ".pkl".toList <:+: s) : removeAll ".pkl".toList (s ++ ".pkl".toList) = s := by
  induction s with
  | nil => simp [removeAll]
  | cons c cs ih =>
    rw [List.cons_append, removeAll, if_neg, ih]
    · intro h; exact hs (h.trans (List.suffix_cons c cs).isInfix)
    · rintro ⟨-, hp⟩
      rw [← List.cons_append] at hp
      by_cases hl : 4 ≤ (c :: cs).length
      · exact hs (List.prefix_of_prefix_length_le hp (List.prefix_append _ _) (by simpa using hl)).isInfix
      · match cs, hl with
        | [], _ => simp at hp
        | [a], _ => simp at hp
        | [a, b], _ => simp at hp
        | _ :: _ :: _ :: _, hl => simp at hl

theorem pickleName_of_clean (s : String) (hs : ¬ ".pkl".toList <:+: s.toList) : pickleName (s ++ ".pkl") = s ++ ".pkl" := by
  apply String.toList_inj.1
  have := removeAll_pkl s.toList hs
  simp only [pickleName, String.toList_append, String.toList_ofList]
  rw [this]

end names
end DoMpc
