import Verif.Model.Uncertainty
import Mathlib.Tactic.Ring
import Mathlib.Data.List.Nodup

/-! # Property C03: uncertainty values are combined exhaustively, nominal first -/
set_option linter.unusedSectionVars false
namespace DoMpc
variable {V : Type}

/-- `idx` picks one position out of every list in `pools`. -/
def Spec.IsChoice : List (List V) → List Nat → Prop
  | [], [] => True
  | p :: ps, i :: is => i < p.length ∧ IsChoice ps is
  | _, _ => False

/-- the values at the chosen positions -/
def Spec.chosen : List (List V) → List Nat → List V
  | p :: ps, i :: is => match p[i]? with
    | some v => v :: chosen ps is
    | none => []
  | _, _ => []

open Spec

/-- all choices, lexicographically -/
def allChoices : List (List V) → List (List Nat)
  | [] => [[]]
  | p :: ps => (List.range p.length).flatMap fun i => (allChoices ps).map fun is => i :: is

theorem mem_allChoices (pools : List (List V)) (idx : List Nat) : idx ∈ allChoices pools ↔ IsChoice pools idx := by
  induction pools generalizing idx with
  | nil => cases idx <;> simp [allChoices, IsChoice]
  | cons p ps ih =>
    cases idx with
    | nil => simp [allChoices, IsChoice]
    | cons i is => simp [allChoices, IsChoice, ih]

theorem nodup_allChoices (pools : List (List V)) : (allChoices pools).Nodup := by
  induction pools with
  | nil => simp [allChoices]
  | cons p ps ih =>
    simp only [allChoices]
    rw [List.nodup_flatMap]
    refine ⟨fun i _ => ih.map (fun a b h => (List.cons.inj h).2), ?_⟩
    refine List.Pairwise.imp ?_ (List.nodup_range (n := p.length))
    intro a b hab
    simp only [Function.onFun, List.disjoint_left, List.mem_map]
    rintro _ ⟨x, _, rfl⟩ ⟨y, _, h⟩
    exact hab (List.cons.inj h).1.symm

theorem length_allChoices (pools : List (List V)) : (allChoices pools).length = (pools.map List.length).prod := by
  induction pools with
  | nil => simp [allChoices]
  | cons p ps ih => simp [allChoices, List.length_flatMap, ih]

theorem pyProduct_aux (pools : List (List V)) (acc : List (List V)) :
    pools.foldl (fun result pool => result.flatMap fun x => pool.map fun y => x ++ [y]) acc =
      acc.flatMap fun x => (pools.foldr (fun pool r => pool.flatMap fun y => r.map fun l => y :: l) [[]]).map fun l => x ++ l := by
  induction pools generalizing acc with
  | nil => simp
  | cons p ps ih =>
    rw [List.foldl_cons, ih, List.flatMap_assoc]
    apply List.flatMap_congr
    intro x _
    simp [List.flatMap_map, List.map_flatMap, Function.comp_def]

theorem flatMap_range_getElem {α : Type} (p : List V) (f : V → List α) :
    p.flatMap f = (List.range p.length).flatMap fun i => match p[i]? with
      | some v => f v
      | none => [] := by
  induction p with
  | nil => simp
  | cons a t ih => rw [List.length_cons, List.range_succ_eq_map]; simp [List.flatMap_map, ih]

theorem pyProduct_eq (pools : List (List V)) : pyProduct pools = (allChoices pools).map (chosen pools) := by
  unfold pyProduct
  rw [pyProduct_aux]
  simp only [List.nil_append, List.map_id', List.flatMap_cons, List.flatMap_nil, List.append_nil]
  induction pools with
  | nil => simp [allChoices, chosen]
  | cons p ps ih =>
    rw [List.foldr_cons, ih, flatMap_range_getElem]
    simp only [allChoices, List.map_flatMap, List.map_map]
    apply List.flatMap_congr
    intro i hi
    have hi' : i < p.length := List.mem_range.mp hi
    simp only [List.getElem?_eq_getElem hi']
    apply List.map_congr_left
    intro is _
    simp [chosen, List.getElem?_eq_getElem hi']

theorem foldl_zip_lookup [DecidableEq V] (names : List String) (vals : List V) (hn : names.Nodup) (n : String) (v0 : V) :
    (names.zip vals).foldl (fun v (nv : String × V) => if nv.1 = n then nv.2 else v) v0 =
      if n ∈ names then (vals[names.idxOf n]?).getD v0 else v0 := by
  induction names generalizing vals v0 with
  | nil => simp
  | cons a t ih =>
    cases vals with
    | nil => simp
    | cons b bs =>
      rw [List.nodup_cons] at hn
      rw [List.zip_cons_cons, List.foldl_cons, ih _ hn.2]
      by_cases hab : a = n
      · subst hab; simp [hn.1]
      · have : n ≠ a := fun h => hab h.symm
        simp [hab, this, List.idxOf_cons_ne, beq_iff_eq]

theorem chosen_getElem (pools : List (List V)) (idx : List Nat) (h : IsChoice pools idx) (i : Nat) (hi : i < pools.length) :
    ∃ (h1 : i < idx.length) (h2 : idx[i] < (pools[i]).length), (chosen pools idx)[i]? = some ((pools[i])[idx[i]]) := by
  induction pools generalizing idx i with
  | nil => simp at hi
  | cons p ps ih =>
    cases idx with
    | nil => simp [IsChoice] at h
    | cons j js =>
      simp only [IsChoice] at h
      cases i with
      | zero => exact ⟨by simp, h.1, by simp [chosen, List.getElem?_eq_getElem h.1]⟩
      | succ i =>
        obtain ⟨h1, h2, h3⟩ := ih js h.2 i (by simpa using hi)
        refine ⟨by simpa using h1, by simpa using h2, ?_⟩
        simp only [chosen, List.getElem?_eq_getElem h.1, List.getElem?_cons_succ, List.getElem_cons_succ]
        exact h3

theorem allChoices_head (pools : List (List V)) (h : ∀ p ∈ pools, p ≠ []) :
    (allChoices pools)[0]? = some (List.replicate pools.length 0) := by
  induction pools with
  | nil => simp [allChoices]
  | cons p ps ih =>
    have hp : p ≠ [] := h p (by simp)
    have hl : p.length = (p.length - 1) + 1 := by have := List.length_pos_iff.mpr hp; omega
    have h1 := ih (fun q hq => h q (by simp [hq]))
    have hne : 0 < (allChoices ps).length := by
      rcases Nat.eq_zero_or_pos (allChoices ps).length with h0 | h0
      · rw [List.getElem?_eq_none (by omega)] at h1; exact absurd h1 (by simp)
      · exact h0
    simp only [allChoices]
    rw [hl, List.range_succ_eq_map, List.flatMap_cons, List.getElem?_append_left (by simpa using hne)]
    simp [h1, List.replicate_succ]

/-- **C03**.  A successful call with keyword arguments `kw` (distinct parameter names, as Python guarantees) makes
`n_combinations` the product of the numbers of values, and there is a one-to-one correspondence `pos` between scenario numbers
and choices of one position per named parameter such that scenario `s` gives parameter `i` its `pos s i`-th value; scenario 0
takes every first value; parameters that were not named are zero in every scenario. -/
theorem C03_uncertainty_values [DecidableEq V] (zero : V) (valid : List String) (st st' : UncState V) (kw : List (String × List V))
    (hne : kw ≠ []) (hnd : (kw.map (·.1)).Nodup) (hrun : setUncertaintyValues zero valid st kw = .ok st') :
    st'.nComb = (kw.map (·.2.length)).prod ∧ st'.flag = true ∧
    (∃ pos : Nat → List Nat,
      (∀ s < st'.nComb, IsChoice (kw.map (·.2)) (pos s)) ∧
      (∀ s < st'.nComb, ∀ s' < st'.nComb, pos s = pos s' → s = s') ∧
      (∀ idx, IsChoice (kw.map (·.2)) idx → ∃ s < st'.nComb, pos s = idx) ∧
      ((∀ nv ∈ kw, nv.2 ≠ []) → pos 0 = List.replicate kw.length 0) ∧
      (∀ s < st'.nComb, ∀ i (hi : i < kw.length), ∃ (h1 : i < (pos s).length) (h2 : (pos s)[i] < (kw[i]).2.length),
        st'.template s (kw[i]).1 = ((kw[i]).2)[(pos s)[i]])) ∧
    (∀ s n, n ∉ kw.map (·.1) → st'.template s n = zero) ∧
    (∀ n ∈ kw.map (·.1), n ∈ valid) := by
  unfold setUncertaintyValues at hrun
  rw [if_neg (by simpa using hne)] at hrun
  split_ifs at hrun with hv
  simp only [Except.ok.injEq, getPTemplate] at hrun
  subst hrun
  simp only
  have hlen : (pyProduct (kw.map (·.2))).length = (allChoices (kw.map (·.2))).length := by rw [pyProduct_eq]; simp
  refine ⟨?_, trivial, ⟨fun s => ((allChoices (kw.map (·.2)))[s]?).getD [], ?_, ?_, ?_, ?_, ?_⟩, ?_, hv⟩
  · rw [hlen, length_allChoices, List.map_map]; rfl
  · intro s hs
    rw [hlen] at hs
    beta_reduce
    rw [List.getElem?_eq_getElem hs, Option.getD_some, ← mem_allChoices]
    exact List.getElem_mem hs
  · intro s hs s' hs' he
    rw [hlen] at hs hs'
    beta_reduce at he
    rw [List.getElem?_eq_getElem hs, List.getElem?_eq_getElem hs', Option.getD_some, Option.getD_some] at he
    exact (List.Nodup.getElem_inj_iff (nodup_allChoices _)).mp he
  · intro idx hidx
    rw [← mem_allChoices] at hidx
    obtain ⟨s, hs, he⟩ := List.getElem_of_mem hidx
    exact ⟨s, by rw [hlen]; exact hs, by beta_reduce; rw [List.getElem?_eq_getElem hs, Option.getD_some]; exact he⟩
  · intro hall
    beta_reduce
    rw [allChoices_head, Option.getD_some, List.length_map]
    intro p hp
    obtain ⟨nv, hnv, rfl⟩ := List.mem_map.mp hp
    exact hall nv hnv
  · intro s hs i hi
    have hs' := hs
    rw [hlen] at hs'
    have hch : IsChoice (kw.map (·.2)) ((allChoices (kw.map (·.2)))[s]) := by
      rw [← mem_allChoices]; exact List.getElem_mem hs'
    obtain ⟨h1, h2, h3⟩ := chosen_getElem _ _ hch i (by simpa using hi)
    simp only [List.getElem?_eq_getElem hs', Option.getD_some]
    refine ⟨h1, by simpa using h2, ?_⟩
    unfold assignTemplate
    have hsc : (pyProduct (kw.map (·.2)))[s]? = some (chosen (kw.map (·.2)) ((allChoices (kw.map (·.2)))[s])) := by
      rw [pyProduct_eq, List.getElem?_map, List.getElem?_eq_getElem hs']; rfl
    rw [hsc]
    simp only
    rw [foldl_zip_lookup _ _ hnd]
    have hmem : (kw[i]).1 ∈ kw.map (·.1) := List.mem_map_of_mem (List.getElem_mem hi)
    rw [if_pos hmem]
    have hidx : (kw.map (·.1)).idxOf (kw[i]).1 = i := by
      have := List.Nodup.idxOf_getElem hnd i (by simpa using hi)
      simpa using this
    rw [hidx, h3]
    simp
  · intro s n hn
    unfold assignTemplate
    cases hsc : (pyProduct (kw.map (·.2)))[s]? with
    | none => rfl
    | some vals =>
      simp only
      rw [foldl_zip_lookup _ _ hnd, if_neg hn]

/-- **C03**: unknown names are refused (the exception leaves no new state); a call without arguments changes nothing. -/
theorem C03_unknown_refused (zero : V) (valid : List String) (st : UncState V) (kw : List (String × List V)) :
    ((∃ n ∈ kw.map (·.1), n ∉ valid) → ∃ e, setUncertaintyValues zero valid st kw = .error e) ∧
    setUncertaintyValues zero valid st [] = .ok st := by
  refine ⟨?_, rfl⟩
  rintro ⟨n, hn, hnv⟩
  unfold setUncertaintyValues
  rw [if_neg (by rintro h; rw [List.isEmpty_iff] at h; rw [h] at hn; simp at hn), if_neg (fun h => hnv (h n hn))]
  exact ⟨_, rfl⟩

/-- Non-vacuity: two parameters with 3 and 2 values of three known ones. -/
example : ∃ st', setUncertaintyValues (0 : Int) ["alpha", "beta", "gamma"] ⟨1, false, fun _ _ => 0⟩
      [("alpha", [10, 9, 11]), ("beta", [5, 6])] = .ok st' ∧ st'.nComb = 6 ∧
    st'.template 0 "alpha" = 10 ∧ st'.template 0 "beta" = 5 ∧ st'.template 5 "alpha" = 11 ∧ st'.template 5 "beta" = 6 ∧
    st'.template 3 "gamma" = 0 := by
  refine ⟨_, rfl, by decide, by decide, by decide, by decide, by decide, by decide⟩

end DoMpc
