import Verif.Lemmas.Structure
import Mathlib.Data.List.Nodup

/-! # C45: the container `Structure` -/
set_option linter.unusedSectionVars false
namespace DoMpc.Struct
variable {V : Type}

/-- a structure built by a sequence of assignments -/
def Reachable (s : St V) : Prop := ∃ ops, s = St.empty.run ops

theorem Reachable.inv {s : St V} (h : Reachable s) : StInv s := by
  obtain ⟨ops, rfl⟩ := h
  exact inv_run ops _ inv_empty

theorem Reachable.set {s : St V} (h : Reachable s) (v : Val V) (p : Path) : Reachable (St.setItem v p s) := by
  obtain ⟨ops, rfl⟩ := h
  exact ⟨ops ++ [(p, v)], by simp [St.run]⟩

theorem mem_entries_fst (s : St V) (h : StInv s) (p : Path) : p ∈ s.powerindex ↔ ∃ v, (p, v) ∈ s.entries := by
  have : s.entries.map Prod.fst = s.powerindex := List.map_fst_zip (by rw [h.len])
  rw [← this]
  simp

theorem entries_append (s : St V) (h : StInv s) (p : Path) (v : Val V) : (s.append p v).entries = s.entries ++ [(p, v)] := by
  simp only [St.entries, St.append]
  rw [List.zip_append h.len.symm]
  rfl

theorem zip_set (p : Path) (v : Val V) : ∀ (ps : List Path) (ms : List (Val V)), ps.Nodup → ps.length = ms.length →
    ps.zip (ms.set (ps.idxOf p) v) = (ps.zip ms).map fun e => if e.1 = p then (p, v) else e := by
  intro ps
  induction ps with
  | nil => intro ms _ _; simp
  | cons a ps ih =>
    intro ms hnd hl
    cases ms with
    | nil => simp at hl
    | cons m ms =>
      by_cases hap : a = p
      · subst hap
        have hnot : a ∉ ps := (List.nodup_cons.1 hnd).1
        simp only [List.idxOf_cons_self, List.set_cons_zero, List.zip_cons_cons, List.map_cons, if_true, List.cons.injEq, true_and]
        refine (List.map_id _).symm.trans (List.map_congr_left fun e he => ?_)
        rw [if_neg]
        · rfl
        · rintro rfl
          exact hnot (List.of_mem_zip he).1
      · rw [List.idxOf_cons_ne _ hap]
        simp only [List.set_cons_succ, List.zip_cons_cons, List.map_cons, if_neg hap, List.cons.injEq, true_and]
        exact ih ms (List.nodup_cons.1 hnd).2 (by simpa using hl)

theorem entries_reset (s : St V) (h : StInv s) (p : Path) (v : Val V) :
    (s.reset p v).entries = s.entries.map fun e => if e.1 = p then (p, v) else e :=
  zip_set p v s.powerindex s.master h.nodup h.len.symm

/-- the outcome of a query by keys -/
theorem getItem_keys (s : St V) (h : StInv s) (ks : List Key) :
    s.getItem (ks.map .key) =
      if ∃ p ∈ s.powerindex, p <+: ks ∧ p.length < ks.length then .error "IndexError"
      else .ok (.flat ((s.entries.filter fun e => ks.isPrefixOf e.1).map Prod.snd)) := by
  have := selectD_keys s.features ks [] s.entries (by simp)
  simp only [List.nil_append, List.length_nil] at this
  have e : (∃ x ∈ s.entries, x.1 <+: ks ∧ x.1.length < ks.length) ↔ ∃ p ∈ s.powerindex, p <+: ks ∧ p.length < ks.length := by
    constructor
    · rintro ⟨x, hx, hh⟩
      exact ⟨x.1, (mem_entries_fst s h _).2 ⟨x.2, hx⟩, hh⟩
    · rintro ⟨p, hp, hh⟩
      obtain ⟨v, hv⟩ := (mem_entries_fst s h _).1 hp
      exact ⟨_, hv, hh⟩
  rw [St.getItem, select_eq]
  show Except.map _ (selectD s.features 0 _ s.entries) = _
  rw [this]
  by_cases hE : ∃ p ∈ s.powerindex, p <+: ks ∧ p.length < ks.length
  · rw [if_pos hE, if_pos (e.2 hE)]; rfl
  · rw [if_neg hE, if_neg (fun h' => hE (e.1 h'))]
    simp [Except.map, Sel.map]

/-- **C45 (query).**  In every structure, `structure[k1, k2, …]` returns the values of exactly the stored paths that begin with the keys, in the order
in which these paths were stored first, unless some stored path is a proper prefix of the query: then it raises an `IndexError`. -/
theorem C45_query (s : St V) (h : Reachable s) (ks : List Key) :
    s.getItem (ks.map .key) =
      if ∃ p ∈ s.powerindex, p <+: ks ∧ p.length < ks.length then .error "IndexError"
      else .ok (.flat ((s.entries.filter fun e => ks.isPrefixOf e.1).map Prod.snd)) := getItem_keys s h.inv ks

mutual
theorem leaves_prefix : ∀ (v : Val V) (p : Path), ∀ e ∈ leaves v p, p <+: e.1
  | .leaf v, p, e, h => by
    rw [leaves, List.mem_singleton] at h
    subst h
    exact List.prefix_refl _
  | .list l, p, e, h => by
    rw [leaves] at h
    obtain ⟨j, _, hj⟩ := leavesList_prefix l 0 p e h
    exact (List.prefix_append _ _).trans hj
  | .dict l, p, e, h => by
    rw [leaves] at h
    obtain ⟨i, _, hj⟩ := leavesDict_prefix l p e h
    exact (List.prefix_append _ _).trans hj
theorem leavesList_prefix : ∀ (l : List (Val V)) (i : Nat) (p : Path), ∀ e ∈ leavesList l i p, ∃ j : Nat, i ≤ j ∧ p ++ [.int j] <+: e.1
  | [], _, _, _, h => by simp [leavesList] at h
  | v :: l, i, p, e, h => by
    rw [leavesList, List.mem_append] at h
    rcases h with h | h
    · exact ⟨i, Nat.le_refl _, leaves_prefix v _ e h⟩
    · obtain ⟨j, hj, hp⟩ := leavesList_prefix l (i + 1) p e h
      exact ⟨j, by omega, hp⟩
theorem leavesDict_prefix : ∀ (l : List (Key × Val V)) (p : Path), ∀ e ∈ leavesDict l p, ∃ i ∈ l, p ++ [i.1] <+: e.1
  | [], _, _, h => by simp [leavesDict] at h
  | (k, v) :: l, p, e, h => by
    rw [leavesDict, List.mem_append] at h
    rcases h with h | h
    · exact ⟨(k, v), by simp, leaves_prefix v _ e h⟩
    · obtain ⟨j, hj, hp⟩ := leavesDict_prefix l p e h
      exact ⟨j, List.mem_cons_of_mem _ hj, hp⟩
end

theorem two_prefixes (p : Path) (a b : Key) (q : Path) (h1 : p ++ [a] <+: q) (h2 : p ++ [b] <+: q) : a = b := by
  obtain ⟨r1, rfl⟩ := h1
  rw [List.append_assoc, List.prefix_append_right_inj] at h2
  simp only [List.cons_append, List.nil_append, List.cons_prefix_cons] at h2
  exact h2.1.symm

theorem int_inj {i j : Nat} (h : Key.int (i : Int) = Key.int (j : Int)) : i = j := by
  simp only [Key.int.injEq] at h
  omega

/-- stored scalars as entries -/
def asEntries (l : List (Path × V)) : List (Path × Val V) := l.map fun e => (e.1, .leaf e.2)

theorem mem_powerindex_of_entries {s s' : St V} (h : StInv s) (h' : StInv s') (l : List (Path × V)) (he : s'.entries = s.entries ++ asEntries l) (q : Path)
    (hq : q ∈ s'.powerindex) : q ∈ s.powerindex ∨ ∃ e ∈ l, e.1 = q := by
  obtain ⟨v, hv⟩ := (mem_entries_fst s' h' q).1 hq
  rw [he, List.mem_append] at hv
  rcases hv with hv | hv
  · exact .inl ((mem_entries_fst s h q).2 ⟨v, hv⟩)
  · obtain ⟨e, he, heq⟩ := List.mem_map.1 hv
    exact .inr ⟨e, he, (Prod.mk.inj heq).1⟩

mutual
theorem set_new : ∀ (v : Val V) (p : Path) (s : St V), StInv s → v.WF → (∀ q ∈ s.powerindex, ¬ p <+: q) →
    (St.setItem v p s).entries = s.entries ++ asEntries (leaves v p)
  | .leaf v, p, s, hi, _, hp => by
    rw [St.setItem, if_neg (fun hm => hp p hm (List.prefix_refl _)), entries_append s hi]
    rfl
  | .list l, p, s, hi, hw, hp => by
    rw [St.setItem, if_neg (fun hm => hp p hm (List.prefix_refl _))]
    rw [Val.WF] at hw
    rw [leaves]
    exact setList_new l 0 p s hi hw (fun q hq j _ hc => hp q hq ((List.prefix_append _ _).trans hc))
  | .dict l, p, s, hi, hw, hp => by
    rw [St.setItem, if_neg (fun hm => hp p hm (List.prefix_refl _))]
    rw [Val.WF] at hw
    rw [leaves]
    exact setDict_new l p s hi hw (fun q hq i _ hc => hp q hq ((List.prefix_append _ _).trans hc))
theorem setList_new : ∀ (l : List (Val V)) (i : Nat) (p : Path) (s : St V), StInv s → Val.WFList l →
    (∀ q ∈ s.powerindex, ∀ j : Nat, i ≤ j → ¬ p ++ [.int j] <+: q) → (St.setList l i p s).entries = s.entries ++ asEntries (leavesList l i p)
  | [], i, p, s, _, _, _ => by simp [St.setList, leavesList, asEntries]
  | v :: l, i, p, s, hi, hw, hp => by
    rw [Val.WFList] at hw
    rw [St.setList, leavesList]
    have hi' := inv_setItem v (p ++ [.int i]) s hi
    have e1 := set_new v (p ++ [.int i]) s hi hw.1 (fun q hq => hp q hq i (Nat.le_refl _))
    rw [setList_new l (i + 1) p _ hi' hw.2 ?_, e1]
    · simp [asEntries]
    · intro q hq j hj hc
      rcases mem_powerindex_of_entries hi hi' _ e1 q hq with h | ⟨e, he, rfl⟩
      · exact hp q h j (by omega) hc
      · have := int_inj (two_prefixes p _ _ e.1 hc (leaves_prefix v _ e he))
        omega
theorem setDict_new : ∀ (l : List (Key × Val V)) (p : Path) (s : St V), StInv s → Val.WFDict l →
    (∀ q ∈ s.powerindex, ∀ i ∈ l, ¬ p ++ [i.1] <+: q) → (St.setDict l p s).entries = s.entries ++ asEntries (leavesDict l p)
  | [], p, s, _, _, _ => by simp [St.setDict, leavesDict, asEntries]
  | (k, v) :: l, p, s, hi, hw, hp => by
    rw [Val.WFDict] at hw
    rw [St.setDict, leavesDict]
    have hi' := inv_setItem v (p ++ [k]) s hi
    have e1 := set_new v (p ++ [k]) s hi hw.1 (fun q hq => hp q hq (k, v) (by simp))
    rw [setDict_new l p _ hi' hw.2.2 ?_, e1]
    · simp [asEntries]
    · intro q hq i hil hc
      rcases mem_powerindex_of_entries hi hi' _ e1 q hq with h | ⟨e, he, rfl⟩
      · exact hp q h i (List.mem_cons_of_mem _ hil) hc
      · exact hw.2.1 i hil (two_prefixes p _ _ e.1 hc (leaves_prefix v _ e he))
end

/-- **C45 (round trip), partial.**  After `structure[path] = value` for a path under which nothing is stored yet (and of which no stored path is a
beginning), `structure[path]` returns the scalars of the value, flattened in order; all entries stored before are kept.  Missing: assignments to
paths already in use (`C45_overwrite_scalar` and the counterexamples). -/
theorem C45_round_trip_partial (s : St V) (h : Reachable s) (p : Path) (v : Val V) (hw : v.WF)
    (hnew : ∀ q ∈ s.powerindex, ¬ p <+: q) (hpre : ∀ q ∈ s.powerindex, ¬ q <+: p) :
    (St.setItem v p s).getItem (p.map .key) = .ok (.flat ((leaves v p).map fun e => .leaf e.2)) ∧
      (St.setItem v p s).entries = s.entries ++ asEntries (leaves v p) := by
  have he := set_new v p s h.inv hw hnew
  refine ⟨?_, he⟩
  have hi' := (h.set v p).inv
  rw [getItem_keys _ hi', if_neg, he]
  · rw [List.filter_append]
    have f1 : s.entries.filter (fun e => p.isPrefixOf e.1) = [] := by
      rw [List.filter_eq_nil_iff]
      intro e hm hc
      exact hnew e.1 ((mem_entries_fst s h.inv _).2 ⟨e.2, hm⟩) (List.isPrefixOf_iff_prefix.1 hc)
    have f2 : (asEntries (leaves v p)).filter (fun e => p.isPrefixOf e.1) = asEntries (leaves v p) := by
      rw [List.filter_eq_self]
      intro e hm
      obtain ⟨e', he', rfl⟩ := List.mem_map.1 hm
      exact List.isPrefixOf_iff_prefix.2 (leaves_prefix v p e' he')
    rw [f1, f2]
    simp [asEntries]
  · rintro ⟨q, hq, hqp, hlt⟩
    rcases mem_powerindex_of_entries h.inv hi' _ he q hq with hq | ⟨e, hm, rfl⟩
    · exact hpre q hq hqp
    · have := (leaves_prefix v p e hm).length_le
      omega

/-- **C45 (overwriting).**  Assigning to a stored path replaces its value: if no other stored path begins with it or is a beginning of it, the query
returns exactly the new value. -/
theorem C45_overwrite_scalar (s : St V) (h : Reachable s) (p : Path) (v : Val V) (hp : p ∈ s.powerindex)
    (hother : ∀ q ∈ s.powerindex, q ≠ p → ¬ p <+: q ∧ ¬ q <+: p) :
    (St.setItem v p s).getItem (p.map .key) = .ok (.flat [v]) := by
  have hset : St.setItem v p s = s.reset p v := by
    cases v <;> rw [St.setItem, if_pos hp]
  have hi' := inv_reset s h.inv p v
  rw [hset, getItem_keys _ hi', if_neg, entries_reset s h.inv]
  · congr 2
    obtain ⟨v0, hv0⟩ := (mem_entries_fst s h.inv p).1 hp
    have huniq : s.entries.filter (fun e => p.isPrefixOf e.1) = [(p, v0)] := by
      have hall : ∀ e ∈ s.entries, p.isPrefixOf e.1 = true ↔ e = (p, v0) := by
        intro e he
        constructor
        · intro hc
          have he1 : e.1 ∈ s.powerindex := (mem_entries_fst s h.inv _).2 ⟨e.2, he⟩
          have : e.1 = p := by
            by_contra hne
            exact (hother e.1 he1 hne).1 (List.isPrefixOf_iff_prefix.1 hc)
          have hmap : (s.entries.map Prod.fst).Nodup := by
            rw [show s.entries.map Prod.fst = s.powerindex from List.map_fst_zip (by rw [h.inv.len])]; exact h.inv.nodup
          exact List.inj_on_of_nodup_map hmap he hv0 this
        · rintro rfl
          exact List.isPrefixOf_iff_prefix.2 (List.prefix_refl _)
      have : s.entries.filter (fun e => p.isPrefixOf e.1) = s.entries.filter (fun e => decide (e.1 = p)) := by
        refine List.filter_congr fun e he => ?_
        rw [Bool.eq_iff_iff, hall e he, decide_eq_true_iff]
        constructor
        · rintro rfl; rfl
        · intro e1
          exact (hall e he).1 (List.isPrefixOf_iff_prefix.2 (by rw [e1]; exact List.prefix_refl _))
      rw [this]
      clear this hall
      have key : ∀ l : List (Path × Val V), (l.map Prod.fst).Nodup → (p, v0) ∈ l → l.filter (fun e => decide (e.1 = p)) = [(p, v0)] := by
        intro l
        induction l with
        | nil => intro _ hm; simp at hm
        | cons a l ih =>
          intro hn hm
          rw [List.map_cons, List.nodup_cons] at hn
          rcases List.mem_cons.1 hm with rfl | hm
          · rw [List.filter_cons_of_pos (by simp), List.filter_eq_nil_iff.2]
            intro e he hc
            simp only [decide_eq_true_eq] at hc
            exact hn.1 (by rw [← hc]; exact List.mem_map.2 ⟨e, he, rfl⟩)
          · rw [List.filter_cons_of_neg, ih hn.2 hm]
            simp only [decide_eq_true_eq]
            intro hc
            exact hn.1 (by rw [hc]; exact List.mem_map.2 ⟨_, hm, rfl⟩)
      refine key _ ?_ hv0
      rw [show s.entries.map Prod.fst = s.powerindex from List.map_fst_zip (by rw [h.inv.len])]; exact h.inv.nodup
    rw [List.filter_map]
    have e2 : (fun e : Path × Val V => p.isPrefixOf e.1) ∘ (fun e => if e.1 = p then (p, v) else e) = fun e => p.isPrefixOf e.1 := by
      funext e
      by_cases hc : e.1 = p <;> simp [hc]
    rw [e2, huniq]
    simp
  · rintro ⟨q, hq, hqp, hlt⟩
    have hne : q ≠ p := by rintro rfl; omega
    exact (hother q hq hne).2 hqp

/-- **C45 (other paths).**  An assignment to `path`, of any value, does not change the answer to a query that neither begins with `path` nor is a
beginning of it. -/
theorem C45_others_unaffected (s : St V) (h : Reachable s) (p : Path) (v : Val V) (ks : List Key) (h1 : ¬ p <+: ks) (h2 : ¬ ks <+: p) :
    (St.setItem v p s).getItem (ks.map .key) = s.getItem (ks.map .key) := by
  have hdisj : ∀ p', p <+: p' → ¬ ks <+: p' := by
    intro p' hp hk
    rcases List.prefix_or_prefix_of_prefix hp hk with e | e
    · exact h1 e
    · exact h2 e
  have key := setItem_ind (fun s' : St V => StInv s' ∧ s'.entries.filter (fun e => ks.isPrefixOf e.1) = s.entries.filter (fun e => ks.isPrefixOf e.1) ∧
      ((∃ q ∈ s'.powerindex, q <+: ks ∧ q.length < ks.length) ↔ ∃ q ∈ s.powerindex, q <+: ks ∧ q.length < ks.length)) p
    (by
      rintro s' p' v' hp hn ⟨hi, ha, hb⟩
      refine ⟨inv_append s' hi p' hn _, ?_, ?_⟩
      · rw [entries_append s' hi, List.filter_append, ha, List.filter_cons_of_neg]
        · simp
        · intro hc
          exact hdisj p' hp (List.isPrefixOf_iff_prefix.1 hc)
      · rw [← hb]
        simp only [St.append, List.mem_append, List.mem_singleton]
        constructor
        · rintro ⟨q, hq | rfl, hh⟩
          · exact ⟨q, hq, hh⟩
          · exact (h1 (hp.trans hh.1)).elim
        · rintro ⟨q, hq, hh⟩
          exact ⟨q, .inl hq, hh⟩)
    (by
      rintro s' p' v' hp _ ⟨hi, ha, hb⟩
      refine ⟨inv_reset s' hi p' v', ?_, hb⟩
      rw [entries_reset s' hi, List.filter_map, ← ha]
      have e2 : (fun e : Path × Val V => ks.isPrefixOf e.1) ∘ (fun e => if e.1 = p' then (p', v') else e) = fun e => ks.isPrefixOf e.1 := by
        funext e
        by_cases hc : e.1 = p' <;> simp [hc]
      rw [e2]
      refine (List.map_congr_left fun e he => ?_).trans (List.map_id _)
      rw [if_neg]
      · rfl
      · rintro rfl
        exact hdisj _ hp (List.isPrefixOf_iff_prefix.1 (List.mem_filter.1 he).2))
    v p s (List.prefix_refl _) ⟨h.inv, rfl, Iff.rfl⟩
  obtain ⟨hi, ha, hb⟩ := key
  rw [getItem_keys _ hi, getItem_keys _ h.inv, ha]
  by_cases hE : ∃ q ∈ s.powerindex, q <+: ks ∧ q.length < ks.length
  · rw [if_pos hE, if_pos (hb.2 hE)]
  · rw [if_neg hE, if_neg (fun h' => hE (hb.1 h'))]

/-! ## slices -/

theorem mapM_ok {β γ : Type} (f : β → Except String γ) : ∀ (l : List β) (r : List γ), l.mapM f = .ok r → List.Forall₂ (fun x y => f x = .ok y) l r
  | [], r, h => by
    simp only [List.mapM_nil, pure, Except.pure, Except.ok.injEq] at h
    subst h
    exact .nil
  | x :: l, r, h => by
    rw [List.mapM_cons] at h
    cases hx : f x with
    | error e => rw [hx] at h; simp [bind, Except.bind] at h
    | ok y =>
      rw [hx] at h
      cases hl : l.mapM f with
      | error e => rw [hl] at h; simp [bind, Except.bind] at h
      | ok ys =>
        rw [hl] at h
        simp only [bind, Except.bind, pure, Except.pure, Except.ok.injEq] at h
        subst h
        exact .cons hx (mapM_ok f l ys hl)

theorem mem_elemsList {α : Type} (a : α) : ∀ l : List (Sel α), a ∈ Sel.elemsList l ↔ ∃ s ∈ l, a ∈ s.elems
  | [] => by simp [Sel.elemsList]
  | s :: l => by simp [Sel.elemsList, mem_elemsList a l]

/-- the candidates a successful selection returns -/
theorem selectD_mem {α : Type} (feats : List (List Key)) : ∀ (q : List Q) (pre : Path) (c : List (Path × α)) (r : Sel (Path × α)),
    (∀ x ∈ c, pre <+: x.1) → selectD feats pre.length q c = .ok r →
    ∀ x, x ∈ r.elems ↔ x ∈ c ∧ Matches feats pre.length q (x.1.drop pre.length) := by
  intro q
  induction q with
  | nil =>
    intro pre c r hc h x
    simp only [selectD, Except.ok.injEq] at h
    subst h
    simp [Sel.elems, Matches]
  | cons a q ih =>
    intro pre c r hc h x
    have hkey : ∀ (k : Key) (c' : List (Path × α)) (r' : Sel (Path × α)), filterAt pre.length k c = .ok c' → selectD feats (pre.length + 1) q c' = .ok r' →
        ∀ x, x ∈ r'.elems ↔ x ∈ c ∧ ∃ t, x.1.drop pre.length = k :: t ∧ Matches feats (pre.length + 1) q t := by
      intro k c' r' hf hs x
      obtain ⟨hc', hp⟩ := filterAt_prefix pre k c c' hc hf
      have := ih (pre ++ [k]) c' r' hp (by simpa using hs) x
      rw [this, hc', List.mem_filter, List.isPrefixOf_iff_prefix]
      simp only [List.length_append, List.length_cons, List.length_nil, Nat.zero_add]
      constructor
      · rintro ⟨⟨hx, ⟨t, ht⟩⟩, hm⟩
        refine ⟨hx, t, ?_, ?_⟩
        · rw [← ht]; simp
        · rw [← ht, List.drop_append_of_le_length (by simp)] at hm
          simpa using hm
      · rintro ⟨hx, t, ht, hm⟩
        obtain ⟨u, hu⟩ := hc x hx
        have hut : u = k :: t := by rw [← hu] at ht; simpa using ht
        subst hut
        refine ⟨⟨hx, ⟨t, by rw [← hu]; simp⟩⟩, ?_⟩
        rw [← hu]
        have : (pre ++ k :: t).drop (pre.length + 1) = t := by
          rw [← List.drop_drop]; simp
        rw [this]
        exact hm
    cases a with
    | key k =>
      rw [selectD] at h
      cases hf : filterAt pre.length k c with
      | error e => rw [hf] at h; simp [bind, Except.bind] at h
      | ok c' =>
        rw [hf] at h
        rw [hkey k c' r hf h x]
        refine and_congr_right fun hx => ?_
        cases hd : x.1.drop pre.length with
        | nil => simp [Matches]
        | cons k' t => simp [Matches]
    | slice pos =>
      rw [selectD] at h
      cases hk : sliceKeys feats pre.length pos with
      | error e => rw [hk] at h; simp [bind, Except.bind] at h
      | ok ks =>
        rw [hk] at h
        simp only [bind, Except.bind] at h
        split at h
        · simp at h
        · rename_i rs hrs
          simp only [pure, Except.pure, Except.ok.injEq] at h
          subst h
          have hF := mapM_ok _ ks rs hrs
          have hsl : ∃ f, feats[pre.length]? = some f ∧ ks = (pos f.length).filterMap (f[·]?) := by
            unfold sliceKeys at hk
            split at hk
            · simp at hk
            · rename_i f hf
              simp only [Except.ok.injEq] at hk
              exact ⟨f, hf, hk.symm⟩
          obtain ⟨f, hf, hks⟩ := hsl
          have hone : ∀ (k : Key) (r' : Sel (Path × α)), (filterAt pre.length k c >>= fun v => selectD feats (pre.length + 1) q v) = Except.ok r' →
              ∀ x, x ∈ r'.elems ↔ x ∈ c ∧ ∃ t, x.1.drop pre.length = k :: t ∧ Matches feats (pre.length + 1) q t := by
            intro k r' hr
            cases hf : filterAt pre.length k c with
            | error e => rw [hf] at hr; simp [bind, Except.bind] at hr
            | ok c' => rw [hf] at hr; exact hkey k c' r' hf hr
          have step : x ∈ Sel.elemsList rs ↔ x ∈ c ∧ ∃ k ∈ ks, ∃ t, x.1.drop pre.length = k :: t ∧ Matches feats (pre.length + 1) q t := by
            clear hks hrs hk
            induction hF with
            | nil => simp [Sel.elemsList]
            | @cons k r' ks' rs' hxy _ ih' =>
              rw [Sel.elemsList, List.mem_append, ih', hone k r' (by exact hxy) x]
              simp only [List.mem_cons, exists_eq_or_imp]
              rw [and_or_left]
          show x ∈ Sel.elems (.nest rs) ↔ _
          rw [Sel.elems, step]
          refine and_congr_right fun hx => ?_
          cases hd : x.1.drop pre.length with
          | nil => simp [Matches]
          | cons k' t =>
            simp only [Matches, hf, Option.some.injEq, exists_eq_left']
            constructor
            · rintro ⟨k, hk, t', e, hm⟩
              obtain ⟨rfl, rfl⟩ := List.cons.inj e
              rw [hks] at hk
              obtain ⟨i, hi, he⟩ := List.mem_filterMap.1 hk
              exact ⟨⟨i, hi, he⟩, hm⟩
            · rintro ⟨⟨i, hi, he⟩, hm⟩
              exact ⟨k', by rw [hks]; exact List.mem_filterMap.2 ⟨i, hi, he⟩, t, rfl, hm⟩

/-- `select` and functions of the data -/
theorem filterAt_map {α β : Type} (f : α → β) (j : Nat) (k : Key) : ∀ c : List (Path × α),
    filterAt j k (c.map fun x => (x.1, f x.2)) = (filterAt j k c).map fun l => l.map fun x => (x.1, f x.2)
  | [] => rfl
  | x :: c => by
    rw [List.map_cons, filterAt, filterAt]
    dsimp only
    split
    · exact filterAt_map f j k c
    · split
      · rfl
      · rw [filterAt_map f j k c]
        cases filterAt j k c with
        | error e => rfl
        | ok r =>
          simp only [Except.map, bind, Except.bind, pure, Except.pure, Except.ok.injEq]
          split <;> rfl

theorem mapList_eq {α β : Type} (f : α → β) : ∀ l : List (Sel α), Sel.mapList f l = l.map (Sel.map f)
  | [] => rfl
  | s :: l => by rw [Sel.mapList, mapList_eq f l, List.map_cons]

theorem mapM_map_except {β γ δ : Type} (f : β → Except String γ) (g : γ → δ) : ∀ l : List β,
    l.mapM (fun x => (f x).map g) = (l.mapM f).map (List.map g)
  | [] => rfl
  | x :: l => by
    rw [List.mapM_cons, List.mapM_cons, mapM_map_except f g l]
    cases f x with
    | error e => rfl
    | ok y =>
      cases l.mapM f with
      | error e => rfl
      | ok ys => rfl

theorem selectD_map {α β : Type} (f : α → β) (feats : List (List Key)) : ∀ (q : List Q) (j : Nat) (c : List (Path × α)),
    selectD feats j q (c.map fun x => (x.1, f x.2)) = (selectD feats j q c).map (Sel.map fun x => (x.1, f x.2))
  | [], _, _ => by simp [selectD, Except.map, Sel.map]
  | .key k :: q, j, c => by
    rw [selectD, selectD, filterAt_map f]
    cases filterAt j k c with
    | error e => rfl
    | ok c' => exact selectD_map f feats q (j + 1) c'
  | .slice pos :: q, j, c => by
    rw [selectD, selectD]
    cases sliceKeys feats j pos with
    | error e => rfl
    | ok ks =>
      change (ks.mapM (fun k => filterAt j k (c.map fun x => (x.1, f x.2)) >>= fun c' => selectD feats (j + 1) q c') >>= fun r => pure (Sel.nest r)) =
        Except.map (Sel.map fun x => (x.1, f x.2)) (ks.mapM (fun k => filterAt j k c >>= fun c' => selectD feats (j + 1) q c') >>= fun r => pure (Sel.nest r))
      have e : ∀ k ∈ ks, (filterAt j k (c.map fun x => (x.1, f x.2)) >>= fun c' => selectD feats (j + 1) q c') =
          (filterAt j k c >>= fun c' => selectD feats (j + 1) q c').map (Sel.map fun x => (x.1, f x.2)) := by
        intro k _
        rw [filterAt_map f]
        cases filterAt j k c with
        | error e => rfl
        | ok c' => exact selectD_map f feats q (j + 1) c'
      rw [mapM_congr_mem _ _ ks e, mapM_map_except]
      cases ks.mapM (fun k => filterAt j k c >>= fun c' => selectD feats (j + 1) q c') with
      | error e => rfl
      | ok rs => simp [Except.map, bind, Except.bind, pure, Except.pure, Sel.map, mapList_eq]

mutual
theorem Sel.map_map {α β γ : Type} (f : α → β) (g : β → γ) : ∀ s : Sel α, (s.map f).map g = s.map (g ∘ f)
  | .flat l => by simp [Sel.map]
  | .nest l => by rw [Sel.map, Sel.map, Sel.map, Sel.mapList_map f g l]
theorem Sel.mapList_map {α β γ : Type} (f : α → β) (g : β → γ) : ∀ l : List (Sel α), Sel.mapList g (Sel.mapList f l) = Sel.mapList (g ∘ f) l
  | [] => rfl
  | s :: l => by rw [Sel.mapList, Sel.mapList, Sel.mapList, Sel.map_map f g s, Sel.mapList_map f g l]
end

mutual
theorem Sel.elems_map {α β : Type} (f : α → β) : ∀ s : Sel α, (s.map f).elems = s.elems.map f
  | .flat l => by simp [Sel.map, Sel.elems]
  | .nest l => by rw [Sel.map, Sel.elems, Sel.elems, Sel.elemsList_map f l]
theorem Sel.elemsList_map {α β : Type} (f : α → β) : ∀ l : List (Sel α), Sel.elemsList (Sel.mapList f l) = (Sel.elemsList l).map f
  | [] => rfl
  | s :: l => by rw [Sel.mapList, Sel.elemsList, Sel.elemsList, List.map_append, Sel.elems_map f s, Sel.elemsList_map f l]
end

/-- **C45 (positions).**  For every query, with or without slices, `get_index` fails exactly if the query of the values fails, and otherwise has the
same nesting, with the position of each value in `full`. -/
theorem C45_get_index (s : St V) (h : Reachable s) (q : List Q) :
    (s.getItem q).map (Sel.map some) = (s.getIndex q).map (Sel.map fun i => s.master[i]?) := by
  have hz : (s.powerindex.zip s.master).map (fun x => (x.1, some x.2)) = (s.powerindex.zip s.index).map (fun x => (x.1, s.master[x.2]?)) := by
    have hl := h.inv.len
    apply List.ext_getElem?
    intro i
    rw [h.inv.index, h.inv.count]
    simp only [List.getElem?_map, List.getElem?_zip_eq_some, List.zip, List.getElem?_zipWith]
    rcases Nat.lt_or_ge i s.powerindex.length with hi | hi
    · rw [List.getElem?_eq_getElem hi, List.getElem?_eq_getElem (by omega : i < s.master.length)]
      simp [hi]
    · rw [List.getElem?_eq_none hi]
      rfl
  rw [St.getItem, St.getIndex, select_eq, select_eq]
  have e1 := selectD_map (some : Val V → Option (Val V)) s.features q 0 (s.powerindex.zip s.master)
  have e2 := selectD_map (fun i : Nat => s.master[i]?) s.features q 0 (s.powerindex.zip s.index)
  rw [hz] at e1
  rw [e1] at e2
  cases ha : selectD s.features 0 q (s.powerindex.zip s.master) with
  | error e =>
    cases hb : selectD s.features 0 q (s.powerindex.zip s.index) with
    | error e' => rw [ha, hb] at e2; simpa [Except.map] using e2
    | ok r => rw [ha, hb] at e2; simp [Except.map] at e2
  | ok r =>
    cases hb : selectD s.features 0 q (s.powerindex.zip s.index) with
    | error e' => rw [ha, hb] at e2; simp [Except.map] at e2
    | ok r' =>
      rw [ha, hb] at e2
      simp only [Except.map, Except.ok.injEq, Sel.map_map] at e2 ⊢
      have := congrArg (Sel.map Prod.snd) e2
      simpa only [Sel.map_map, Function.comp_def] using this

/-- **C45 (slices).**  If a query with slices succeeds, the positions it returns are exactly those of the stored paths that match it. -/
theorem C45_slice (s : St V) (h : Reachable s) (q : List Q) (r : Sel Nat) (hr : s.getIndex q = .ok r) (i : Nat) :
    i ∈ r.elems ↔ ∃ p, s.powerindex[i]? = some p ∧ Matches s.features 0 q p := by
  rw [St.getIndex, select_eq] at hr
  cases hs : selectD s.features 0 q (s.powerindex.zip s.index) with
  | error e => rw [hs] at hr; simp [Except.map] at hr
  | ok r' =>
    rw [hs] at hr
    simp only [Except.map, Except.ok.injEq] at hr
    subst hr
    rw [Sel.elems_map, List.mem_map]
    have hm := selectD_mem s.features q [] (s.powerindex.zip s.index) r' (by simp) hs
    simp only [List.length_nil, List.drop_zero] at hm
    have hz : ∀ p j, (p, j) ∈ s.powerindex.zip s.index ↔ s.powerindex[j]? = some p := by
      intro p j
      rw [h.inv.index, h.inv.count, List.mem_iff_getElem?]
      constructor
      · rintro ⟨n, hn⟩
        rw [List.getElem?_zip_eq_some] at hn
        obtain ⟨h1, h2⟩ := hn
        rw [List.getElem?_range (by
          by_contra hc
          rw [List.getElem?_eq_none (by simpa using hc)] at h2
          simp at h2)] at h2
        simp only [Option.some.injEq] at h2
        subst h2
        exact h1
      · intro hp
        refine ⟨j, ?_⟩
        rw [List.getElem?_zip_eq_some]
        have hj : j < s.powerindex.length := by
          by_contra hc
          rw [List.getElem?_eq_none (by omega)] at hp
          simp at hp
        exact ⟨hp, by simp [hj]⟩
    constructor
    · rintro ⟨x, hx, rfl⟩
      obtain ⟨hx1, hx2⟩ := (hm x).1 hx
      exact ⟨x.1, (hz x.1 x.2).1 hx1, hx2⟩
    · rintro ⟨p, hp, hM⟩
      exact ⟨(p, i), (hm (p, i)).2 ⟨(hz p i).2 hp, hM⟩, rfl⟩

/-- **C45 (layout of slices).**  A slice behind keys (none of the stored paths being a proper prefix of them) gives the list of the answers to the
queries in which the slice is replaced by each of the keys it selects, in order. -/
theorem C45_slice_layout (s : St V) (h : Reachable s) (ks : List Key) (pos : Nat → List Nat) (rest : List Q)
    (hok : ¬ ∃ p ∈ s.powerindex, p <+: ks ∧ p.length < ks.length) :
    s.getItem (ks.map .key ++ .slice pos :: rest) =
      (sliceKeys s.features ks.length pos >>= fun sel => sel.mapM (fun k => s.getItem (ks.map .key ++ .key k :: rest)) >>= fun r => pure (Sel.nest r)) := by
  have key : ∀ q, s.getItem (ks.map .key ++ q) =
      (selectD s.features ks.length q (s.entries.filter fun x => ks.isPrefixOf x.1)).map (Sel.map Prod.snd) := by
    intro q
    rw [St.getItem, select_eq]
    have := selectD_keys_append s.features q ks [] s.entries (by simp)
    simp only [List.nil_append, List.length_nil] at this
    rw [if_neg] at this
    · rw [← this]; rfl
    · rintro ⟨x, hx, hh⟩
      exact hok ⟨x.1, (mem_entries_fst s h.inv _).2 ⟨x.2, hx⟩, hh⟩
  rw [key]
  simp only [key]
  rw [selectD]
  cases sliceKeys s.features ks.length pos with
  | error e => rfl
  | ok sel =>
    change Except.map _ (sel.mapM (fun k => filterAt ks.length k _ >>= fun c' => selectD s.features (ks.length + 1) rest c') >>= fun r => pure (Sel.nest r)) =
      (sel.mapM _ >>= fun r => pure (Sel.nest r))
    have e : ∀ k ∈ sel, (selectD s.features ks.length (.key k :: rest) (s.entries.filter fun x => ks.isPrefixOf x.1)).map (Sel.map Prod.snd) =
        (filterAt ks.length k (s.entries.filter fun x => ks.isPrefixOf x.1) >>= fun c' => selectD s.features (ks.length + 1) rest c').map (Sel.map Prod.snd) := by
      intro k _
      rw [selectD]
    rw [mapM_congr_mem _ _ sel e, mapM_map_except]
    cases sel.mapM (fun k => filterAt ks.length k (s.entries.filter fun x => ks.isPrefixOf x.1) >>= fun c' => selectD s.features (ks.length + 1) rest c') with
    | error e => rfl
    | ok rs => simp [Except.map, bind, Except.bind, pure, Except.pure, Sel.map, mapList_eq]

/-- `:` -/
def fullSlice : Q := .slice List.range

/-- a query made of keys and full slices -/
def starQuery (ks : List (Option Key)) : List Q := ks.map fun | some k => .key k | none => fullSlice

/-- **C45 (full slices).**  For a query of keys and `:`, a stored path matches iff it is long enough and has the given keys: the slice omits none. -/
theorem C45_full_slice (s : St V) (h : Reachable s) (ks : List (Option Key)) (r : Sel Nat) (hr : s.getIndex (starQuery ks) = .ok r) (i : Nat) :
    i ∈ r.elems ↔ ∃ p, s.powerindex[i]? = some p ∧ ks.length ≤ p.length ∧ ∀ (j : Nat) (k : Key), ks[j]? = some (some k) → p[j]? = some k := by
  rw [C45_slice s h _ r hr i]
  refine exists_congr fun p => and_congr_right fun hp => ?_
  have hmem : p ∈ s.powerindex := List.mem_of_getElem? hp
  have key : ∀ (ks : List (Option Key)) (n : Nat), Matches s.features n (starQuery ks) (p.drop n) ↔
      ks.length ≤ (p.drop n).length ∧ ∀ (j : Nat) (k : Key), ks[j]? = some (some k) → (p.drop n)[j]? = some k := by
    intro ks
    induction ks with
    | nil => intro n; simp [starQuery, Matches]
    | cons a ks ih =>
      intro n
      cases hd : p.drop n with
      | nil => cases a <;> simp [starQuery, Matches, fullSlice]
      | cons b t =>
        have hdrop : p.drop (n + 1) = t := by
          rw [← List.drop_drop, hd]; rfl
        have hb : p[n]? = some b := by
          have := List.getElem?_drop (xs := p) (i := n) (j := 0)
          rw [hd] at this
          simpa using this.symm
        have ih' := ih (n + 1)
        rw [hdrop] at ih'
        have hsplit : (∀ (j : Nat) (k : Key), (a :: ks)[j]? = some (some k) → (b :: t)[j]? = some k) ↔
            (∀ k, a = some k → b = k) ∧ ∀ (j : Nat) (k : Key), ks[j]? = some (some k) → t[j]? = some k := by
          constructor
          · intro hh
            refine ⟨fun k hk => ?_, fun j k hk => ?_⟩
            · have := hh 0 k (by simp [hk])
              simpa using this
            · have := hh (j + 1) k (by simpa using hk)
              simpa using this
          · rintro ⟨h0, h1⟩ j k hk
            cases j with
            | zero => simp only [List.getElem?_cons_zero, Option.some.injEq] at hk ⊢; exact h0 k hk
            | succ j => simp only [List.getElem?_cons_succ] at hk ⊢; exact h1 j k hk
        rw [hsplit]
        cases a with
        | some k =>
          show Matches s.features n (.key k :: starQuery ks) (b :: t) ↔ _
          simp only [Matches, ih', List.length_cons, Nat.add_le_add_iff_right, Option.some.injEq]
          constructor
          · rintro ⟨rfl, h1, h2⟩
            exact ⟨h1, fun _ e => e, h2⟩
          · rintro ⟨h1, h2, h3⟩
            exact ⟨h2 k rfl, h1, h3⟩
        | none =>
          show Matches s.features n (.slice List.range :: starQuery ks) (b :: t) ↔ _
          simp only [Matches, ih', List.length_cons, Nat.add_le_add_iff_right]
          have hfe : ∃ f, s.features[n]? = some f ∧ ∃ i ∈ List.range f.length, f[i]? = some b := by
            have := (h.inv.feat n b).2 ⟨p, hmem, hb⟩
            cases hf : s.features[n]? with
            | none => rw [hf] at this; simp at this
            | some f =>
              rw [hf] at this
              simp only [Option.getD_some] at this
              obtain ⟨i, hi⟩ := List.mem_iff_getElem?.1 this
              refine ⟨f, rfl, i, ?_, hi⟩
              rw [List.mem_range]
              by_contra hc
              rw [List.getElem?_eq_none (by omega)] at hi
              simp at hi
          constructor
          · rintro ⟨_, h1, h2⟩
            exact ⟨h1, fun _ e => by simp at e, h2⟩
          · rintro ⟨h1, _, h3⟩
            exact ⟨hfe, h1, h3⟩
  simpa using key ks 0

/-! ## counterexamples -/

/-- **C45 is false for assigning a shorter list**: `s[p] = [1,2,3]; s[p] = [4,5]` leaves the third element. -/
theorem C45_fails_shorter_list (k : Key) (a b c a' b' : V) :
    let s := (St.empty : St V).run [([k], .list [.leaf a, .leaf b, .leaf c]), ([k], .list [.leaf a', .leaf b'])]
    s.getItem [.key k] = .ok (.flat [.leaf a', .leaf b', .leaf c]) := by
  have h1 : ¬ Key.int 0 = Key.int 1 := by decide
  have h2 : ¬ Key.int 0 = Key.int 2 := by decide
  have h3 : ¬ Key.int 1 = Key.int 2 := by decide
  have h4 : ¬ Key.int 1 = Key.int 0 := by decide
  simp [St.run, St.setItem, St.setList, St.empty, St.append, St.reset, St.getItem, select, selectN, selectLoop, filterAt, List.countP_cons, Q.isSlice, Sel.map,
    Except.map, bind, Except.bind, pure, Except.pure, List.idxOf_cons, h1, h2, h3, h4]

/-- **C45 is false for assigning a scalar to a path with elements**: the elements stay, `s[p]` returns them before the scalar, and reading one of them
now raises. -/
theorem C45_fails_scalar_over_list (k : Key) (a b v : V) :
    let s := (St.empty : St V).run [([k], .list [.leaf a, .leaf b]), ([k], .leaf v)]
    s.getItem [.key k] = .ok (.flat [.leaf a, .leaf b, .leaf v]) ∧ s.getItem [.key k, .key (.int 0)] = .error "IndexError" := by
  have h1 : ¬ Key.int 0 = Key.int 1 := by decide
  have h4 : ¬ Key.int 1 = Key.int 0 := by decide
  constructor <;>
  simp [St.run, St.setItem, St.setList, St.empty, St.append, St.reset, St.getItem, select, selectN, selectLoop, filterAt, List.countP_cons, Q.isSlice, Sel.map,
    Except.map, bind, Except.bind, pure, Except.pure, List.idxOf_cons, h1, h4]

/-- **C45 is false for assigning a list to a scalar's path**: the list is stored as one value, not element by element. -/
theorem C45_fails_list_over_scalar (k : Key) (v a b : V) :
    let s := (St.empty : St V).run [([k], .leaf v), ([k], .list [.leaf a, .leaf b])]
    s.getItem [.key k] = .ok (.flat [.list [.leaf a, .leaf b]]) ∧ s.getItem [.key k, .key (.int 0)] = .error "IndexError" := by
  constructor <;>
  simp [St.run, St.setItem, St.empty, St.append, St.reset, St.getItem, select, selectN, selectLoop, filterAt, List.countP_cons, Q.isSlice, Sel.map,
    Except.map, bind, Except.bind, pure, Except.pure, List.idxOf_cons]

/-! ## the example of the class documentation -/
namespace Example
/-- `s['_x','C_a'] = {'C_a_0':[1,2,3], 'C_a_1':[2,3,4]}; s['_x','C_b'] = 5; s['_u','C_a'] = 6` -/
def s : St Nat := St.empty.run
  [([.str "_x", .str "C_a"], .dict [(.str "C_a_0", .list [.leaf 1, .leaf 2, .leaf 3]), (.str "C_a_1", .list [.leaf 2, .leaf 3, .leaf 4])]),
   ([.str "_x", .str "C_b"], .leaf 5), ([.str "_u", .str "C_a"], .leaf 6)]
/-- numbers in a result -/
def nums : Sel Nat → List (List (List Nat))
  | .flat l => [[l]]
  | .nest l => l.map fun | .flat l => [l] | .nest l' => l'.map Sel.elems
-- `s.get_index['_x', 'C_a', :, 1:]`
example : (s.getIndex [.key (.str "_x"), .key (.str "C_a"), fullSlice, .slice (fun n => (List.range n).drop 1)]).toOption.map nums
    = some [[[1], [2]], [[4], [5]]] := by decide +kernel
example : s.powerindex.length = 8 ∧ s.powerindex[7]? = some [.str "_u", .str "C_a"] := by decide +kernel
-- hypotheses of C45_round_trip_partial for a new branch, of C45_overwrite_scalar and C45_others_unaffected
example : Reachable s ∧ (∀ q ∈ s.powerindex, ¬ [Key.str "_z"] <+: q) ∧ (∀ q ∈ s.powerindex, ¬ q <+: [Key.str "_z"]) ∧
    [Key.str "_x", Key.str "C_b"] ∈ s.powerindex ∧
    ∀ q ∈ s.powerindex, q ≠ [Key.str "_x", Key.str "C_b"] → ¬ [Key.str "_x", Key.str "C_b"] <+: q ∧ ¬ q <+: [Key.str "_x", Key.str "C_b"] := by
  refine ⟨⟨_, rfl⟩, ?_⟩
  decide +kernel
end Example
end DoMpc.Struct
