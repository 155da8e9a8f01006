import Verif.Model.Mhe
import Mathlib.Data.List.Nodup
import Mathlib.Data.List.FinRange
import Mathlib.Tactic.Ring

/-! # Property C22: splitting and merging the parameters -/
set_option linter.unusedSectionVars false
namespace DoMpc
variable {α : Type}

theorem flat_cons (e : String × Nat) (L : Layout) (v : String → Nat → α) :
    Layout.flat (e :: L) v = (List.range e.2).map (v e.1) ++ Layout.flat L v := rfl

theorem flat_length (L : Layout) (v : String → Nat → α) : (L.flat v).length = L.size := by
  induction L with
  | nil => rfl
  | cons e L ih => rw [flat_cons, List.length_append, ih]; simp [Layout.size]

/-- reading an entry back -/
theorem entry_flat (L : Layout) (v : String → Nat → α) (hn : (L.map (·.1)).Nodup) (e : String × Nat) (he : e ∈ L) :
    L.entry (L.flat v) e.1 = (List.range e.2).map (v e.1) := by
  induction L with
  | nil => simp at he
  | cons x L ih =>
    obtain ⟨n, s⟩ := x
    simp only [List.map_cons, List.nodup_cons] at hn
    simp only [Layout.entry]
    rcases List.mem_cons.mp he with rfl | he
    · simp only [if_pos, flat_cons]
      rw [List.take_append_of_le_length (by simp)]
      exact List.take_of_length_le (by simp)
    · rw [if_neg (fun h => hn.1 (List.mem_map.mpr ⟨e, he, h.symm⟩)), flat_cons, List.drop_append_of_le_length (by simp)]
      rw [List.drop_of_length_le (by simp), List.nil_append]
      exact ih hn.2 he

/-- every vector of the right length is the flat vector of some values -/
theorem exists_flat (L : Layout) (hn : (L.map (·.1)).Nodup) (f : List α) (hf : f.length = L.size) [Inhabited α] :
    ∃ v : String → Nat → α, L.flat v = f := by
  induction L generalizing f with
  | nil => exact ⟨fun _ _ => default, by simp [Layout.size] at hf; simp [Layout.flat, hf]⟩
  | cons x L ih =>
    simp only [List.map_cons, List.nodup_cons] at hn
    have hs : f.length = x.2 + Layout.size L := by simpa [Layout.size] using hf
    obtain ⟨v, hv⟩ := ih hn.2 (f.drop x.2) (by rw [List.length_drop]; omega)
    refine ⟨fun n i => if n = x.1 then f.getD i default else v n i, ?_⟩
    rw [flat_cons]
    have h1 : (List.range x.2).map (fun i => if x.1 = x.1 then f.getD i default else v x.1 i) = f.take x.2 := by
      apply List.ext_getElem
      · simp; omega
      · intro i h1 h2
        simp only [List.length_map, List.length_range] at h1
        simp [List.getD_eq_getElem?_getD, List.getElem?_eq_getElem (show i < f.length by omega)]
    have h2 : Layout.flat L (fun n i => if n = x.1 then f.getD i default else v n i) = Layout.flat L v := by
      apply List.flatMap_congr
      intro e he
      apply List.map_congr_left
      intro i _
      refine if_neg ?_
      intro h
      exact hn.1 (List.mem_map.mpr ⟨e, he, h⟩)
    rw [h1, h2, hv, List.take_append_drop]

theorem nodup_filter_names (L : Layout) (hn : (L.map (·.1)).Nodup) (q : String × Nat → Bool) : ((L.filter q).map (·.1)).Nodup :=
  hn.sublist ((List.filter_sublist).map _)

/-- entries of `_p_est`, also for the empty entry `default` -/
theorem entry_pEst (p : Layout) (est : List String) (hn : (p.map (·.1)).Nodup) (hd : ∀ e ∈ p, e.1 = "default" → e.2 = 0)
    (v : String → Nat → α) (e : String × Nat) (he : e ∈ p) (hm : e.1 ∈ est ∨ e.1 = "default") :
    (pEstLayout p est).entry ((pEstLayout p est).flat v) e.1 = (List.range e.2).map (v e.1) := by
  unfold pEstLayout
  rw [flat_cons]
  simp only [Layout.entry, List.range_zero, List.map_nil, List.nil_append, List.drop_zero, List.take_zero]
  by_cases h : "default" = e.1
  · rw [if_pos h, hd e he h.symm]; rfl
  · rw [if_neg h]
    apply entry_flat
    · exact nodup_filter_names p hn _
    · rw [List.mem_filter]
      refine ⟨he, ?_⟩
      rcases hm with hm | hm
      · simpa using hm
      · exact absurd hm.symm h

/-- **C22** (splitting loses nothing): for every list of parameters of the model (with distinct names), every choice of names to be
estimated and all values, splitting the values into the estimated and the set part and merging the two parts gives the model's
parameter vector in the model's order.  (The name `default` is reserved by the model for its empty entry.) -/
theorem C22_split_merge (p : Layout) (est : List String) (hn : (p.map (·.1)).Nodup) (hd : ∀ e ∈ p, e.1 = "default" → e.2 = 0)
    (v : String → Nat → α) :
    pCatFun p est ((pEstLayout p est).flat v) ((pSetLayout p est).flat v) = p.flat v := by
  unfold pCatFun Layout.flat
  apply List.flatMap_congr
  intro e he
  have hmemE : e.1 ∈ (pEstLayout p est).map (·.1) ↔ e.1 ∈ est ∨ e.1 = "default" := by
    simp only [pEstLayout, List.map_cons, List.mem_cons, List.mem_map, List.mem_filter, decide_eq_true_eq]
    constructor
    · rintro (h | ⟨a, ⟨_, h2⟩, h3⟩)
      · exact Or.inr h
      · rw [h3] at h2; exact Or.inl h2
    · rintro (h | h)
      · exact Or.inr ⟨e, ⟨he, h⟩, rfl⟩
      · exact Or.inl h
  by_cases hE : e.1 ∈ est ∨ e.1 = "default"
  · rw [if_pos (hmemE.mpr hE)]
    exact entry_pEst p est hn hd v e he hE
  · rw [if_neg (fun h => hE (hmemE.mp h))]
    push Not at hE
    have hS : e ∈ pSetLayout p est := by
      simp only [pSetLayout, List.mem_filter, decide_eq_true_eq]
      exact ⟨he, hE.1⟩
    rw [if_pos (List.mem_map.mpr ⟨e, hS, rfl⟩)]
    exact entry_flat _ v (nodup_filter_names p hn _) e hS

/-- **C22** (exactly one part): every parameter of the model is an entry, with its size, of exactly one of the two parts, and both
parts contain nothing else. -/
theorem C22_exactly_one (p : Layout) (est : List String) (name : String) (s : Nat) (hname : name ≠ "default") :
    ((name, s) ∈ p ↔ ((name, s) ∈ pEstLayout p est ∨ (name, s) ∈ pSetLayout p est)) ∧
    ¬ ((name, s) ∈ pEstLayout p est ∧ (name, s) ∈ pSetLayout p est) ∧
    ((name, s) ∈ pEstLayout p est ↔ (name, s) ∈ p ∧ name ∈ est) := by
  simp only [pEstLayout, pSetLayout, List.mem_cons, Prod.mk.injEq, hname, false_and, false_or, List.mem_filter, decide_eq_true_eq]
  tauto

theorem size_split (p : Layout) (est : List String) : p.size = (pEstLayout p est).size + (pSetLayout p est).size := by
  unfold pEstLayout pSetLayout Layout.size
  simp only [List.map_cons, List.sum_cons, zero_add]
  induction p with
  | nil => rfl
  | cons e p ih =>
    simp only [List.map_cons, List.sum_cons, ih]
    by_cases h : e.1 ∈ est <;> simp [List.filter_cons, h] <;> omega

theorem flat_perm_split (p : Layout) (est : List String) (v : String → Nat → α) :
    (p.flat v).Perm ((pEstLayout p est).flat v ++ (pSetLayout p est).flat v) := by
  unfold pEstLayout pSetLayout
  rw [flat_cons]
  simp only [List.range_zero, List.map_nil, List.nil_append]
  unfold Layout.flat
  rw [← List.flatMap_append]
  apply List.Perm.flatMap_right
  have := List.filter_append_perm (fun e : String × Nat => decide (e.1 ∈ est)) p
  refine this.symm.trans ?_
  apply List.Perm.of_eq
  congr 1
  apply List.filter_congr
  intro e _
  by_cases h : e.1 ∈ est <;> simp [h]

theorem pSet_names_not_est (p : Layout) (est : List String) (e : String × Nat) (he : e ∈ pSetLayout p est) : e.1 ∉ est := by
  simp only [pSetLayout, List.mem_filter, decide_eq_true_eq] at he
  exact he.2

/-- two vectors of the right lengths are the flat vectors of common values -/
theorem exists_values (p : Layout) (est : List String) (hn : (p.map (·.1)).Nodup) [Inhabited α]
    (e s : List α) (he : e.length = (pEstLayout p est).size) (hs : s.length = (pSetLayout p est).size) :
    ∃ v : String → Nat → α, (pEstLayout p est).flat v = e ∧ (pSetLayout p est).flat v = s := by
  have h1 : (pEstLayout p est).size = Layout.size (p.filter fun e => e.1 ∈ est) := by simp [pEstLayout, Layout.size]
  obtain ⟨v, hv⟩ := exists_flat (p.filter fun e => e.1 ∈ est) (nodup_filter_names p hn _) e (he.trans h1)
  obtain ⟨v', hv'⟩ := exists_flat (pSetLayout p est) (nodup_filter_names p hn _) s hs
  refine ⟨fun n i => if n ∈ est then v n i else v' n i, ?_, ?_⟩
  · unfold pEstLayout
    rw [flat_cons, ← hv]
    simp only [List.range_zero, List.map_nil, List.nil_append]
    apply List.flatMap_congr
    intro x hx
    simp only [List.mem_filter, decide_eq_true_eq] at hx
    exact List.map_congr_left fun i _ => if_pos hx.2
  · rw [← hv']
    apply List.flatMap_congr
    intro x hx
    exact List.map_congr_left fun i _ => if_neg (pSet_names_not_est p est x hx)

theorem entry_map {β : Type} (L : Layout) (g : α → β) (f : List α) (name : String) :
    L.entry (f.map g) name = (L.entry f name).map g := by
  induction L generalizing f with
  | nil => rfl
  | cons x L ih =>
    obtain ⟨n, s⟩ := x
    simp only [Layout.entry]
    split
    · rw [List.map_take]
    · rw [← List.map_drop, ih]

theorem pCatFun_map {β : Type} (p : Layout) (est : List String) (g : α → β) (e s : List α) :
    pCatFun p est (e.map g) (s.map g) = (pCatFun p est e s).map g := by
  unfold pCatFun
  rw [List.map_flatMap]
  apply List.flatMap_congr
  intro x _
  split_ifs
  · exact entry_map _ g e _
  · exact entry_map _ g s _
  · rfl

/-- **C22** (what the merge does): there is one bijection between the entries of the parameter vector and the entries of the two
parts such that merging any two vectors selects accordingly.  This is the form in which the estimation problem uses the merge
(`MheCfg.sel`). -/
theorem C22_merge_selects (p : Layout) (est : List String) (hn : (p.map (·.1)).Nodup) (hd : ∀ e ∈ p, e.1 = "default" → e.2 = 0) :
    ∃ sel : Fin p.size → Fin (pEstLayout p est).size ⊕ Fin (pSetLayout p est).size, Function.Bijective sel ∧
      ∀ {β : Type} (e : Fin (pEstLayout p est).size → β) (s : Fin (pSetLayout p est).size → β),
        pCatFun p est (List.ofFn e) (List.ofFn s) = List.ofFn fun i => Sum.elim e s (sel i) := by
  set a := (pEstLayout p est).size with ha
  set b := (pSetLayout p est).size with hb
  by_cases hz : a = 0 ∧ b = 0
  · have hp : p.size = 0 := by rw [size_split p est]; omega
    have : IsEmpty (Fin p.size) := by rw [hp]; infer_instance
    have : IsEmpty (Fin a ⊕ Fin b) := by rw [hz.1, hz.2]; infer_instance
    refine ⟨fun i => (isEmptyElim i), ⟨fun i => isEmptyElim i, fun i => isEmptyElim i⟩, ?_⟩
    intro β e s
    have h1 : List.ofFn (fun i : Fin p.size => Sum.elim e s (isEmptyElim i : Fin a ⊕ Fin b)) = [] := by
      apply List.length_eq_zero_iff.mp; simp [hp]
    have h2 : List.ofFn e = [] := by apply List.length_eq_zero_iff.mp; simp [hz.1]
    have h3 : List.ofFn s = [] := by apply List.length_eq_zero_iff.mp; simp [hz.2]
    rw [h1, h2, h3]
    have hnil : ∀ (L : Layout) (n : String), L.entry ([] : List β) n = [] := by
      intro L n
      induction L with
      | nil => rfl
      | cons x L ih => obtain ⟨m, k⟩ := x; simp only [Layout.entry]; split <;> simp [ih]
    unfold pCatFun
    simp [hnil]
  · let lab : List (Fin a ⊕ Fin b) := pCatFun p est (List.ofFn Sum.inl) (List.ofFn Sum.inr)
    have : Inhabited (Fin a ⊕ Fin b) := by
      by_cases h : 0 < a
      · exact ⟨.inl ⟨0, h⟩⟩
      · exact ⟨.inr ⟨0, by omega⟩⟩
    obtain ⟨v, hv1, hv2⟩ := exists_values p est hn (List.ofFn (Sum.inl : Fin a → Fin a ⊕ Fin b)) (List.ofFn (Sum.inr : Fin b → Fin a ⊕ Fin b))
      (by simp [ha]) (by simp [hb])
    have hlab : lab = p.flat v := by
      show pCatFun p est _ _ = _
      rw [← hv1, ← hv2]
      exact C22_split_merge p est hn hd v
    have hlen : lab.length = p.size := by rw [hlab, flat_length]
    have hperm : lab.Perm (List.ofFn (Sum.inl : Fin a → Fin a ⊕ Fin b) ++ List.ofFn (Sum.inr : Fin b → Fin a ⊕ Fin b)) := by
      rw [hlab, ← hv1, ← hv2]; exact flat_perm_split p est v
    have hnd : lab.Nodup := by
      rw [hperm.nodup_iff, List.nodup_append]
      refine ⟨List.nodup_ofFn_ofInjective Sum.inl_injective, List.nodup_ofFn_ofInjective Sum.inr_injective, ?_⟩
      intro x hx y hy
      simp only [List.mem_ofFn] at hx hy
      obtain ⟨i, rfl⟩ := hx
      obtain ⟨j, rfl⟩ := hy
      exact Sum.inl_ne_inr
    refine ⟨fun i => lab.get (i.cast hlen.symm), ⟨?_, ?_⟩, ?_⟩
    · intro i j hij
      have := List.nodup_iff_injective_get.mp hnd hij
      exact Fin.cast_injective _ this
    · intro x
      have hx : x ∈ lab := by
        rw [hperm.mem_iff, List.mem_append, List.mem_ofFn, List.mem_ofFn]
        rcases x with i | j
        · exact Or.inl ⟨i, rfl⟩
        · exact Or.inr ⟨j, rfl⟩
      obtain ⟨i, hi⟩ := List.get_of_mem hx
      exact ⟨i.cast hlen, by simpa using hi⟩
    · intro β e s
      have h1 : (List.ofFn (Sum.inl : Fin a → Fin a ⊕ Fin b)).map (Sum.elim e s) = List.ofFn e := by
        rw [List.map_ofFn]; rfl
      have h2 : (List.ofFn (Sum.inr : Fin b → Fin a ⊕ Fin b)).map (Sum.elim e s) = List.ofFn s := by
        rw [List.map_ofFn]; rfl
      rw [← h1, ← h2, pCatFun_map]
      show lab.map _ = _
      apply List.ext_getElem
      · simp [hlen]
      · intro i h3 h4
        simp

/-- Names that are not parameters of the model have no effect: they are silently ignored, and the parameter meant stays fixed. -/
theorem C22_unknown_names_ignored (p : Layout) (est extra : List String) (h : ∀ n ∈ extra, n ∉ p.map (·.1)) :
    pEstLayout p (est ++ extra) = pEstLayout p est ∧ pSetLayout p (est ++ extra) = pSetLayout p est := by
  have : ∀ e ∈ p, (e.1 ∈ est ++ extra ↔ e.1 ∈ est) := by
    intro e he
    rw [List.mem_append]
    exact ⟨fun hh => hh.resolve_right fun hx => h _ hx (List.mem_map_of_mem he), Or.inl⟩
  constructor
  · unfold pEstLayout
    congr 1
    apply List.filter_congr
    intro e he
    simp [this e he]
  · unfold pSetLayout
    apply List.filter_congr
    intro e he
    simp [this e he]

/-- Non-vacuity: three parameters of sizes 2, 1, 3, the first and last estimated. -/
example :
    let p : Layout := [("default", 0), ("a", 2), ("b", 1), ("c", 3)]
    pCatFun p ["c", "a", "typo"] [1, 2, 4, 5, 6] [3] = [1, 2, 3, 4, 5, 6] ∧ (p.map (·.1)).Nodup ∧
    (∀ e ∈ p, e.1 = "default" → e.2 = 0) := by decide

end DoMpc
