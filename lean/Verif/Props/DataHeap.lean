import Verif.Spec.DataHeap
import Mathlib.Tactic.Use
import Mathlib.Tactic.Push
import Mathlib.Algebra.Order.Ring.Nat

/-!
# C115: arrays handed out by a data container
-/
set_option linter.unusedSectionVars false
namespace DoMpc
open Spec
variable {K : Type}

/-- The fields have arrays of their own. -/
structure HData.Own (h : HData K) : Prop where
  used : ∀ k ∈ h.fields.map (·.1), h.attr k < h.next
  inj : ∀ k ∈ h.fields.map (·.1), ∀ k' ∈ h.fields.map (·.1), h.attr k = h.attr k' → k = k'

theorem mem_export (h : HData K) (k : String) (r : Nat) : (k, r) ∈ h.export ↔ k ∈ h.fields.map (·.1) ∧ h.attr k = r := by
  unfold HData.export
  simp only [List.mem_map, Prod.mk.injEq]
  constructor
  · rintro ⟨f, hf, rfl, rfl⟩; exact ⟨⟨f, hf, rfl⟩, rfl⟩
  · rintro ⟨⟨f, hf, rfl⟩, rfl⟩; exact ⟨f, hf, rfl, rfl⟩

theorem lookup_some_iff (l : List (String × Nat)) (k : String) : (l.lookup k).isSome = true ↔ k ∈ l.map (·.1) := by
  induction l with
  | nil => simp
  | cons a l ih =>
    rw [List.lookup_cons]
    by_cases h : k = a.1
    · simp [h]
    · rw [beq_false_of_ne h]
      simp only [ih, List.map_cons, List.mem_cons]
      constructor
      · exact Or.inr
      · rintro (h' | h')
        · exact absurd h' h
        · exact h'

/-- What every call of the library leaves alone, and what it does to the attributes. -/
structure Later (h h' : HData K) : Prop where
  fields : h'.fields = h.fields
  next : h.next ≤ h'.next
  heap : ∀ r < h.next, h'.heap r = h.heap r
  attr : ∀ k, h'.attr k = h.attr k ∨ (h.next ≤ h'.attr k ∧ h'.attr k < h'.next)

theorem Later.refl (h : HData K) : Later h h := ⟨rfl, le_refl _, fun _ _ => rfl, fun _ => .inl rfl⟩

theorem Later.trans {h h' h'' : HData K} (a : Later h h') (b : Later h' h'') : Later h h'' where
  fields := b.fields.trans a.fields
  next := a.next.trans b.next
  heap := fun r hr => (b.heap r (lt_of_lt_of_le hr a.next)).trans (a.heap r hr)
  attr := fun k => by
    rcases b.attr k with e | ⟨e1, e2⟩
    · rcases a.attr k with e' | ⟨e1', e2'⟩
      · exact .inl (e.trans e')
      · exact .inr ⟨by omega, by have := b.next; omega⟩
    · exact .inr ⟨a.next.trans e1, e2⟩

/-! ## `init_storage` -/

theorem clear_fold (L : List (String × Nat)) : ∀ h : HData K, let h' := L.foldl HData.clear1 h
    Later h h' ∧ h'.queries = h.queries ∧ (∀ k ∈ L.map (·.1), h.next ≤ h'.attr k ∧ h'.attr k < h'.next ∧ h'.heap (h'.attr k) = []) ∧
    (∀ k, k ∉ L.map (·.1) → h'.attr k = h.attr k) ∧ (∀ k ∈ L.map (·.1), ∀ k' ∈ L.map (·.1), h'.attr k = h'.attr k' → k = k') := by
  induction L with
  | nil => intro h; exact ⟨Later.refl h, rfl, by simp, fun _ _ => rfl, by simp⟩
  | cons f L ih =>
    intro h h'
    obtain ⟨a1, a2, a3, a4, a5⟩ := ih (h.clear1 f)
    have b : Later h (h.clear1 f) := by
      refine ⟨rfl, Nat.le_succ _, fun r hr => if_neg (Nat.ne_of_lt hr), fun k => ?_⟩
      by_cases hk : k = f.1
      · exact .inr ⟨le_of_eq (if_pos hk).symm, by show (if k = f.1 then h.next else _) < h.next + 1; rw [if_pos hk]; omega⟩
      · exact .inl (if_neg hk)
    have bn : (h.clear1 f).next = h.next + 1 := rfl
    have bf : (h.clear1 f).attr f.1 = h.next := if_pos rfl
    have be : (h.clear1 f).heap h.next = [] := if_pos rfl
    have hd : h' = L.foldl HData.clear1 (h.clear1 f) := rfl
    have key : ∀ k ∈ (f :: L).map (·.1), k ∈ L.map (·.1) ∨ (k = f.1 ∧ k ∉ L.map (·.1)) := by
      intro k hk
      rw [List.map_cons, List.mem_cons] at hk
      by_cases hm : k ∈ L.map (·.1)
      · exact .inl hm
      · exact .inr ⟨hk.resolve_right hm, hm⟩
    refine ⟨b.trans a1, a2, ?_, ?_, ?_⟩
    · intro k hk
      rcases key k hk with hm | ⟨rfl, hm⟩
      · obtain ⟨c1, c2, c3⟩ := a3 k hm
        refine ⟨?_, c2, c3⟩
        show h.next ≤ (L.foldl HData.clear1 (h.clear1 f)).attr k
        omega
      · have e : (L.foldl HData.clear1 (h.clear1 f)).attr f.1 = h.next := (a4 _ hm).trans bf
        rw [hd, e]
        refine ⟨le_refl _, by have := a1.next; omega, ?_⟩
        rw [a1.heap _ (by omega), be]
    · intro k hk
      rw [List.map_cons, List.mem_cons, not_or] at hk
      rw [hd, a4 k hk.2]
      exact if_neg hk.1
    · intro k hk k' hk' he
      rcases key k hk with hm | ⟨rfl, hm⟩ <;> rcases key k' hk' with hm' | ⟨rfl, hm'⟩
      · exact a5 k hm k' hm' he
      · have e : (L.foldl HData.clear1 (h.clear1 f)).attr f.1 = h.next := (a4 _ hm').trans bf
        rw [hd, e] at he
        have := (a3 k hm).1
        omega
      · have e : (L.foldl HData.clear1 (h.clear1 f)).attr f.1 = h.next := (a4 _ hm).trans bf
        rw [hd, e] at he
        have := (a3 k' hm').1
        omega
      · rfl

theorem initStorage_own (h : HData K) : h.initStorage.Own := by
  obtain ⟨a1, -, a3, -, a5⟩ := clear_fold h.fields h
  have hf : h.initStorage.fields = h.fields := a1.fields
  refine ⟨?_, ?_⟩
  · rw [hf]; exact fun k hk => (a3 k hk).2.1
  · rw [hf]; exact a5

theorem initStorage_contents (h : HData K) : contents h.initStorage = (contents h).initStorage := by
  obtain ⟨a1, a2, a3, -, -⟩ := clear_fold h.fields h
  have hf : h.initStorage.fields = h.fields := a1.fields
  have hq : h.initStorage.queries = h.queries := a2
  unfold contents Data.initStorage Data.width
  simp only [hf, hq, Data.mk.injEq, true_and, and_true]
  funext k
  by_cases hk : (h.fields.lookup k).isSome = true
  · rw [if_pos hk, if_pos hk]
    exact (a3 k ((lookup_some_iff _ _).1 hk)).2.2
  · rw [if_neg hk, if_neg hk, if_neg hk]

theorem data_ext {a b : Data K} (h1 : a.fields = b.fields) (h2 : ∀ k, a.rows k = b.rows k) (h3 : a.queries = b.queries) : a = b := by
  cases a; cases b
  cases h1; cases h3
  exact congrArg (Data.mk _ · _) (funext h2)

theorem rows_pos (h : HData K) (k : String) (hs : (h.fields.lookup k).isSome = true) : (contents h).rows k = h.heap (h.attr k) := if_pos hs
theorem rows_neg (h : HData K) (k : String) (hs : ¬ (h.fields.lookup k).isSome = true) : (contents h).rows k = [] := if_neg hs

/-! ## `update` -/

theorem update1_later (h : HData K) (k : String) (v : HVal K) : Later h (h.update1 k v).1 ∧ (h.update1 k v).1.queries = h.queries ∧
    (∀ k', k' ≠ k → (h.update1 k v).1.attr k' = h.attr k') ∧
    ((h.update1 k v).2 = none → (h.update1 k v).1.attr k = h.next) ∧ ((h.update1 k v).2 ≠ none → (h.update1 k v).1 = h) := by
  unfold HData.update1
  cases h.fields.lookup k with
  | none => exact ⟨Later.refl h, rfl, fun _ _ => rfl, (fun e => by cases e), fun _ => rfl⟩
  | some n =>
    simp only
    cases h.valOf v with
    | other => exact ⟨Later.refl h, rfl, fun _ _ => rfl, (fun e => by cases e), fun _ => rfl⟩
    | arr row =>
      simp only
      by_cases hl : row.length = n
      · rw [if_pos hl]
        refine ⟨⟨rfl, Nat.le_succ _, fun r hr => if_neg (Nat.ne_of_lt hr), fun k' => ?_⟩, rfl, fun k' hk' => if_neg hk', fun _ => if_pos rfl, fun e => absurd rfl e⟩
        by_cases hk : k' = k
        · exact .inr ⟨le_of_eq (if_pos hk).symm, by show (if k' = k then h.next else _) < h.next + 1; rw [if_pos hk]; omega⟩
        · exact .inl (if_neg hk)
      · rw [if_neg hl]
        exact ⟨Later.refl h, rfl, fun _ _ => rfl, (fun e => by cases e), fun _ => rfl⟩

theorem Own.later {h h' : HData K} (ho : h.Own) (hl : Later h h') (h1 : ∀ k ∈ h.fields.map (·.1), ∀ k' ∈ h.fields.map (·.1), h'.attr k ≠ h.attr k → h'.attr k' ≠ h.attr k' →
    h'.attr k = h'.attr k' → k = k') : h'.Own := by
  constructor
  · intro k hk
    rw [hl.fields] at hk
    rcases hl.attr k with e | e
    · rw [e]; exact lt_of_lt_of_le (ho.used k hk) hl.next
    · exact e.2
  · intro k hk k' hk' he
    rw [hl.fields] at hk hk'
    have u := ho.used k hk
    have u' := ho.used k' hk'
    rcases hl.attr k with e | e <;> rcases hl.attr k' with e' | e'
    · exact ho.inj k hk k' hk' (by rw [← e, ← e', he])
    · omega
    · omega
    · exact h1 k hk k' hk' (by omega) (by omega) he

theorem update1_own (h : HData K) (ho : h.Own) (k : String) (v : HVal K) : (h.update1 k v).1.Own := by
  obtain ⟨a1, -, a3, -, -⟩ := update1_later h k v
  refine Own.later ho a1 fun k1 _ k2 _ e1 e2 _ => ?_
  have : k1 = k := by by_contra hc; exact e1 (a3 k1 hc)
  have : k2 = k := by by_contra hc; exact e2 (a3 k2 hc)
  subst k1; subst k2; rfl

theorem update1_contents (h : HData K) (ho : h.Own) (k : String) (v : HVal K) :
    contents (h.update1 k v).1 = ((contents h).update1 k (h.valOf v)).1 ∧ (h.update1 k v).2 = ((contents h).update1 k (h.valOf v)).2 := by
  unfold HData.update1 Data.update1
  have hw : (contents h).width k = h.fields.lookup k := rfl
  rw [hw]
  cases hlk : h.fields.lookup k with
  | none => exact ⟨rfl, rfl⟩
  | some n =>
    simp only
    cases h.valOf v with
    | other => exact ⟨rfl, rfl⟩
    | arr row =>
      simp only
      by_cases hl : row.length = n
      · rw [if_pos hl, if_pos hl]
        refine ⟨data_ext rfl (fun k' => ?_) rfl, rfl⟩
        by_cases hs : (h.fields.lookup k').isSome = true
        · refine (if_pos hs).trans ?_
          by_cases hk : k' = k
          · subst hk
            refine Eq.trans ?_ (if_pos rfl).symm
            rw [rows_pos h k' hs]
            have : ((h.alloc (h.heap (h.attr k') ++ [row])).1.bind k' h.next).attr k' = h.next := if_pos rfl
            show ((h.alloc (h.heap (h.attr k') ++ [row])).1.bind k' h.next).heap (((h.alloc (h.heap (h.attr k') ++ [row])).1.bind k' h.next).attr k') = _
            rw [this]
            exact if_pos rfl
          · refine Eq.trans ?_ (if_neg hk).symm
            rw [rows_pos h k' hs]
            have : ((h.alloc (h.heap (h.attr k) ++ [row])).1.bind k h.next).attr k' = h.attr k' := if_neg hk
            show ((h.alloc (h.heap (h.attr k) ++ [row])).1.bind k h.next).heap (((h.alloc (h.heap (h.attr k) ++ [row])).1.bind k h.next).attr k') = _
            rw [this]
            exact if_neg (Nat.ne_of_lt (ho.used k' ((lookup_some_iff _ _).1 hs)))
        · refine (if_neg hs).trans ?_
          have hk : k' ≠ k := by
            rintro rfl
            exact hs (by rw [hlk]; rfl)
          refine Eq.trans ?_ (if_neg hk).symm
          exact (rows_neg h k' hs).symm
      · rw [if_neg hl, if_neg hl]; exact ⟨rfl, rfl⟩

theorem valOf_later {h h' : HData K} (hl : Later h h') (v : HVal K) (hv : ∀ r, v = .ref r → r < h.next) : h'.valOf v = h.valOf v := by
  cases v with
  | ref r => show PyVal.arr _ = PyVal.arr _; rw [hl.heap r (hv r rfl)]
  | num => rfl
  | other => rfl

theorem update_later (kw : List (String × HVal K)) : ∀ h : HData K, Later h (h.update kw).1 ∧ (h.update kw).1.queries = h.queries ∧ (h.Own → (h.update kw).1.Own) ∧
    ∀ k, ((h.update kw).1.attr k = h.attr k ∧ ¬ Replaces h k (.update kw)) ∨ (h.next ≤ (h.update kw).1.attr k ∧ Replaces h k (.update kw)) := by
  induction kw with
  | nil =>
    intro h
    refine ⟨Later.refl h, rfl, id, fun k => .inl ⟨rfl, ?_⟩⟩
    rintro ⟨pre, v, post, he, -⟩
    simp at he
  | cons a kw ih =>
    intro h
    obtain ⟨k1, v1⟩ := a
    obtain ⟨a1, a2, a3, a4, a5⟩ := update1_later h k1 v1
    cases hr : (h.update1 k1 v1).2 with
    | some e =>
      have hu : h.update ((k1, v1) :: kw) = (h, some e) := by
        rw [HData.update]
        have : h.update1 k1 v1 = (h, some e) := Prod.ext (a5 (by rw [hr]; simp)) hr
        rw [this]
      rw [hu]
      refine ⟨Later.refl h, rfl, id, fun k => .inl ⟨rfl, ?_⟩⟩
      rintro ⟨pre, v, post, he, hn⟩
      have hbad : ∀ l, (h.update ((k1, v1) :: l)).2 = some e := by
        intro l
        rw [HData.update]
        have : h.update1 k1 v1 = (h, some e) := Prod.ext (a5 (by rw [hr]; simp)) hr
        rw [this]
      cases pre with
      | nil =>
        rw [List.nil_append, List.cons.injEq] at he
        rw [List.nil_append, ← he.1, hbad] at hn
        cases hn
      | cons b pre =>
        rw [List.cons_append, List.cons.injEq] at he
        rw [List.cons_append, ← he.1, hbad] at hn
        cases hn
    | none =>
      have hu : ∀ l, h.update ((k1, v1) :: l) = (h.update1 k1 v1).1.update l := by
        intro l
        rw [HData.update]
        have : h.update1 k1 v1 = ((h.update1 k1 v1).1, none) := Prod.ext rfl hr
        rw [this]
      obtain ⟨b1, b2, b3, b4⟩ := ih (h.update1 k1 v1).1
      rw [hu]
      refine ⟨a1.trans b1, b2.trans a2, fun ho => b3 (update1_own h ho k1 v1), fun k => ?_⟩
      have hrep : Replaces h k (.update ((k1, v1) :: kw)) ↔ k = k1 ∨ Replaces (h.update1 k1 v1).1 k (.update kw) := by
        constructor
        · rintro ⟨pre, v, post, he, hn⟩
          cases pre with
          | nil =>
            rw [List.nil_append, List.cons.injEq] at he
            exact .inl (congrArg Prod.fst he.1).symm
          | cons b pre =>
            rw [List.cons_append, List.cons.injEq] at he
            rw [List.cons_append, ← he.1, hu] at hn
            exact .inr ⟨pre, v, post, he.2, hn⟩
        · rintro (rfl | ⟨pre, v, post, he, hn⟩)
          · exact ⟨[], v1, kw, rfl, by rw [List.nil_append, hu]; rfl⟩
          · exact ⟨(k1, v1) :: pre, v, post, by rw [he]; rfl, by rw [List.cons_append, hu]; exact hn⟩
      have hn1 := a4 hr
      rcases b4 k with ⟨c1, c2⟩ | ⟨c1, c2⟩
      · by_cases hk : k = k1
        · subst hk
          exact .inr ⟨by rw [c1, hn1], hrep.2 (.inl rfl)⟩
        · exact .inl ⟨c1.trans (a3 k hk), fun h' => (hrep.1 h').elim hk c2⟩
      · exact .inr ⟨a1.next.trans c1, hrep.2 (.inr c2)⟩

theorem update_contents (kw : List (String × HVal K)) : ∀ h : HData K, h.Own → (∀ k r, (k, HVal.ref r) ∈ kw → r < h.next) →
    contents (h.update kw).1 = ((contents h).update (kw.map fun kv => (kv.1, h.valOf kv.2))).1 ∧
    (h.update kw).2 = ((contents h).update (kw.map fun kv => (kv.1, h.valOf kv.2))).2 := by
  induction kw with
  | nil => intro h _ _; exact ⟨rfl, rfl⟩
  | cons a kw ih =>
    intro h ho hv
    obtain ⟨k1, v1⟩ := a
    obtain ⟨c1, c2⟩ := update1_contents h ho k1 v1
    obtain ⟨a1, -⟩ := update1_later h k1 v1
    rw [List.map_cons, HData.update, Data.update]
    have e1 : h.update1 k1 v1 = ((h.update1 k1 v1).1, (h.update1 k1 v1).2) := rfl
    have e2 : (contents h).update1 k1 (h.valOf v1) = (contents (h.update1 k1 v1).1, (h.update1 k1 v1).2) := Prod.ext c1.symm c2.symm
    have hmap : (kw.map fun kv => (kv.1, h.valOf kv.2)) = kw.map fun kv => (kv.1, (h.update1 k1 v1).1.valOf kv.2) := by
      refine List.map_congr_left fun kv hkv => ?_
      rw [valOf_later a1 kv.2 fun r hr => hv kv.1 r (List.mem_cons_of_mem _ (by rw [← hr]; exact hkv))]
    simp only
    rw [e1, e2]
    cases hr : (h.update1 k1 v1).2 with
    | some e => exact ⟨rfl, rfl⟩
    | none =>
      simp only
      rw [hmap]
      exact ih _ (update1_own h ho k1 v1) fun k r hkr => lt_of_lt_of_le (hv k r (List.mem_cons_of_mem _ hkr)) a1.next

/-! ## All events -/
variable [Inhabited K] (pw : String → List String → Except String (List Nat))

theorem alloc_later (h : HData K) (rows : List (List K)) : Later h (h.alloc rows).1 :=
  ⟨rfl, Nat.le_succ _, fun _ hr => if_neg (Nat.ne_of_lt hr), fun _ => .inl rfl⟩

theorem alloc_contents (h : HData K) (ho : h.Own) (rows : List (List K)) : contents (h.alloc rows).1 = contents h := by
  refine data_ext rfl (fun k => ?_) rfl
  by_cases hk : (h.fields.lookup k).isSome = true
  · refine (if_pos hk).trans (Eq.trans ?_ (rows_pos h k hk).symm)
    exact if_neg (Nat.ne_of_lt (ho.used k ((lookup_some_iff _ _).1 hk)))
  · exact (if_neg hk).trans (rows_neg h k hk).symm

theorem get_later (h : HData K) (f : String) (ind : List String) : Later h (h.get pw f ind).1 ∧ ∀ k, (h.get pw f ind).1.attr k = h.attr k := by
  unfold HData.get
  by_cases hf : (h.fields.lookup f).isNone = true
  · rw [if_pos hf]; exact ⟨Later.refl h, fun _ => rfl⟩
  · rw [if_neg hf]
    cases ind with
    | nil => exact ⟨Later.refl h, fun _ => rfl⟩
    | cons i ind =>
      simp only
      cases h.queries.lookup (f, i :: ind) with
      | some fi => exact ⟨alloc_later h _, fun _ => rfl⟩
      | none =>
        simp only
        cases pw f (i :: ind) with
        | error e => exact ⟨Later.refl h, fun _ => rfl⟩
        | ok fi =>
          have := alloc_later h ((h.heap (h.attr f)).map fun r => fi.map fun j => r.getD j default)
          exact ⟨⟨this.fields, this.next, this.heap, this.attr⟩, fun _ => rfl⟩

/-- what a query reads -/
theorem get_contents (h : HData K) (ho : h.Own) (f : String) (ind : List String) : contents (h.get pw f ind).1 = ((contents h).get pw f ind).1 ∧
    (match (h.get pw f ind).2 with | .ok r => .ok ((h.get pw f ind).1.heap r) | .error e => .error e) = ((contents h).get pw f ind).2 := by
  unfold HData.get Data.get
  have hw : (contents h).width f = h.fields.lookup f := rfl
  have hq : (contents h).queries = h.queries := rfl
  rw [hw, hq]
  by_cases hf : (h.fields.lookup f).isNone = true
  · rw [if_pos hf, if_pos hf]; exact ⟨rfl, rfl⟩
  · rw [if_neg hf, if_neg hf]
    have hs : (h.fields.lookup f).isSome = true := by cases hh : h.fields.lookup f <;> simp_all
    have hrows : (contents h).rows f = h.heap (h.attr f) := if_pos hs
    rw [hrows]
    cases ind with
    | nil => exact ⟨rfl, rfl⟩
    | cons i ind =>
      simp only
      cases h.queries.lookup (f, i :: ind) with
      | some fi => exact ⟨alloc_contents h ho _, congrArg Except.ok (if_pos rfl)⟩
      | none =>
        simp only
        cases pw f (i :: ind) with
        | error e => exact ⟨rfl, rfl⟩
        | ok fi =>
          have := alloc_contents h ho ((h.heap (h.attr f)).map fun r => fi.map fun j => r.getD j default)
          refine ⟨?_, congrArg Except.ok (if_pos rfl)⟩
          have e : (contents (h.alloc ((h.heap (h.attr f)).map fun r => fi.map fun j => r.getD j default)).1).rows = (contents h).rows := congrArg Data.rows this
          exact congrArg (fun rr => (⟨h.fields, rr, h.queries ++ [((f, i :: ind), fi)]⟩ : Data K)) e

theorem exec_later (h : HData K) (op : HOp K) : (match op with | .write _ _ _ _ => True | _ => Later h (h.exec pw op)) ∧ (h.exec pw op).fields = h.fields ∧ h.next ≤ (h.exec pw op).next := by
  cases op with
  | update kw => have := (update_later kw h).1; exact ⟨this, this.fields, this.next⟩
  | reset => have := (clear_fold h.fields h).1; exact ⟨this, this.fields, this.next⟩
  | exported => exact ⟨Later.refl h, rfl, le_refl _⟩
  | get f ind => have := (get_later pw h f ind).1; exact ⟨this, this.fields, this.next⟩
  | make rows => have := alloc_later h rows; exact ⟨this, this.fields, this.next⟩
  | write r i j v => exact ⟨trivial, rfl, le_refl _⟩

theorem exec_attr (h : HData K) (op : HOp K) (k : String) (hk : k ∈ h.fields.map (·.1)) :
    ((h.exec pw op).attr k = h.attr k ∧ ¬ Replaces h k op) ∨ (h.next ≤ (h.exec pw op).attr k ∧ Replaces h k op) := by
  cases op with
  | update kw => exact (update_later kw h).2.2.2 k
  | reset => exact .inr ⟨((clear_fold h.fields h).2.2.1 k hk).1, trivial⟩
  | exported => exact .inl ⟨rfl, id⟩
  | get f ind => exact .inl ⟨(get_later pw h f ind).2 k, id⟩
  | make rows => exact .inl ⟨rfl, id⟩
  | write r i j v => exact .inl ⟨rfl, id⟩

theorem exec_own (h : HData K) (ho : h.Own) (op : HOp K) : (h.exec pw op).Own := by
  cases op with
  | update kw => exact (update_later kw h).2.2.1 ho
  | reset => exact initStorage_own h
  | exported => exact ho
  | get f ind =>
    obtain ⟨a, b⟩ := get_later pw h f ind
    exact Own.later ho a fun k _ _ _ e => absurd (b k) e
  | make rows => exact Own.later ho (alloc_later h rows) fun k _ _ _ e => absurd rfl e
  | write r i j v => exact ⟨ho.used, ho.inj⟩

theorem run_own (ops : List (HOp K)) : ∀ h : HData K, h.Own → (h.run pw ops).Own ∧ (h.run pw ops).fields = h.fields := by
  induction ops with
  | nil => intro h ho; exact ⟨ho, rfl⟩
  | cons op ops ih =>
    intro h ho
    obtain ⟨a, b⟩ := ih _ (exec_own pw h ho op)
    exact ⟨a, b.trans (exec_later pw h op).2.1⟩

/-- writing into an array that no field has -/
theorem write_contents (h : HData K) (r i j : Nat) (v : K) (hr : ¬ Exported h r) : contents (h.write r i j v) = contents h := by
  refine data_ext rfl (fun k => ?_) rfl
  by_cases hk : (h.fields.lookup k).isSome = true
  · refine (if_pos hk).trans (Eq.trans ?_ (rows_pos h k hk).symm)
    refine if_neg fun he => ?_
    exact hr ⟨k, (mem_export h k r).2 ⟨(lookup_some_iff _ _).1 hk, he⟩⟩
  · exact (if_neg hk).trans (rows_neg h k hk).symm

/-! ## The theorems -/

/-- **C115: the log.**  A new container in a memory with arbitrary other arrays, any history of updates (with numbers or with arrays of the user, which may change later), resets,
exports, queries and writes into any arrays except those which are fields at that time: its contents are those of a container of values to which the same was done with the values
at the time of each call. -/
theorem C115_log (fields : List (String × Nat)) (heap : Nat → List (List K)) (n : Nat) (ops : List (HOp K)) :
    let h := HData.new fields heap n
    ArraysExist pw h ops → HandsOff pw h ops → contents (h.run pw ops) = valuesAfter pw h (Data.new fields) ops := by
  intro h hv hh
  have key : ∀ (ops : List (HOp K)) (h : HData K), h.Own → ArraysExist pw h ops → HandsOff pw h ops → contents (h.run pw ops) = valuesAfter pw h (contents h) ops := by
    intro ops
    induction ops with
    | nil => intro h _ _ _; rfl
    | cons op ops ih =>
      intro h ho hv hh
      have : contents (h.exec pw op) = onValues pw h (contents h) op := by
        cases op with
        | update kw => exact (update_contents kw h ho hv.1).1
        | reset => exact initStorage_contents h
        | exported => rfl
        | get f ind => exact (get_contents pw h ho f ind).1
        | make rows => exact alloc_contents h ho rows
        | write r i j v => exact write_contents h r i j v hh.1
      show contents ((h.exec pw op).run pw ops) = valuesAfter pw (h.exec pw op) (onValues pw h (contents h) op) ops
      rw [ih _ (exec_own pw h ho op) hv.2 hh.2, this]
  have h0 : contents h = Data.new fields := by
    have := initStorage_contents ({ fields := fields, attr := fun _ => 0, heap := heap, next := n, queries := [] } : HData K)
    refine this.trans ?_
    unfold contents Data.initStorage Data.new Data.width
    simp only [Data.mk.injEq, true_and, and_true]
    funext k
    by_cases hk : (fields.lookup k).isSome = true
    · rw [if_pos hk]
    · rw [if_neg hk, if_neg hk]
  rw [← h0]
  exact key ops h (initStorage_own _) hv hh

/-- **C115: results.**  In any state of such a container: `update` raises what a container of values raises; a query returns an array that reads what a container of values
returns; `export` has one array per field, which reads the contents. -/
theorem C115_results (fields : List (String × Nat)) (heap : Nat → List (List K)) (n : Nat) (ops : List (HOp K)) :
    let h := (HData.new fields heap n).run pw ops
    (∀ kw, (∀ k r, (k, HVal.ref r) ∈ kw → r < h.next) → (h.update kw).2 = ((contents h).update (kw.map fun kv => (kv.1, readNow h kv.2))).2) ∧
    (∀ f ind, (match (h.get pw f ind).2 with | .ok r => .ok ((h.get pw f ind).1.heap r) | .error e => .error e) = ((contents h).get pw f ind).2) ∧
    h.export.map (·.1) = fields.map (·.1) ∧ ∀ k r, (k, r) ∈ h.export → h.heap r = (contents h).rows k := by
  intro h
  obtain ⟨ho, hf⟩ := run_own pw ops _ (initStorage_own ({ fields := fields, attr := fun _ => 0, heap := heap, next := n, queries := [] } : HData K))
  have hf' : h.fields = fields := hf.trans (clear_fold fields _).1.fields
  refine ⟨fun kw hv => (update_contents kw h ho hv).2, fun f ind => (get_contents pw h ho f ind).2, ?_, ?_⟩
  · rw [← hf', HData.export, List.map_map]; rfl
  · intro k r hkr
    obtain ⟨h1, h2⟩ := (mem_export h k r).1 hkr
    rw [← h2]
    exact (if_pos ((lookup_some_iff _ _).2 h1)).symm

/-- **C115: snapshots.**  An array that exists – exported, returned by a query, or made by the user – reads the same after any history in which the user does not write into it. -/
theorem C115_snapshot (h : HData K) (r : Nat) (hr : r < h.next) (ops : List (HOp K)) (hw : NeverWrites r ops) : (h.run pw ops).heap r = h.heap r := by
  induction ops generalizing h with
  | nil => rfl
  | cons op ops ih =>
    have hn := (exec_later pw h op).2.2
    show ((h.exec pw op).run pw ops).heap r = _
    rw [ih (h.exec pw op) (lt_of_lt_of_le hr hn) fun i j v hm => hw i j v (List.mem_cons_of_mem _ hm)]
    have hl := (exec_later pw h op).1
    cases op with
    | write r' i j v =>
      refine if_neg ?_
      rintro rfl
      exact hw i j v List.mem_cons_self
    | update kw => exact hl.heap r hr
    | reset => exact hl.heap r hr
    | exported => rfl
    | get f ind => exact hl.heap r hr
    | make rows => exact hl.heap r hr

/-- **C115: how long an exported array is the field.**  The array exported for the field `k` is a field of the container after any later history exactly if no event has replaced
the array of `k` (a reset, an update that got as far as `k`), and then it is that of `k`. -/
theorem C115_attached (fields : List (String × Nat)) (heap : Nat → List (List K)) (n : Nat) (ops1 ops2 : List (HOp K)) (k : String) (r : Nat) :
    let h := (HData.new fields heap n).run pw ops1
    (k, r) ∈ h.export →
      (Exported (h.run pw ops2) r ↔ NeverReplaced pw h k ops2) ∧ (NeverReplaced pw h k ops2 → (k, r) ∈ (h.run pw ops2).export) := by
  intro h hkr
  have ho : h.Own := (run_own pw ops1 _ (initStorage_own _)).1
  -- once it is not a field, it stays so
  have gone : ∀ (ops : List (HOp K)) (h : HData K), h.Own → r < h.next → ¬ Exported h r → ¬ Exported (h.run pw ops) r := by
    intro ops
    induction ops with
    | nil => intro h _ _ hn; exact hn
    | cons op ops ih =>
      intro h ho hr hn
      have hl := exec_later pw h op
      refine ih (h.exec pw op) (exec_own pw h ho op) (lt_of_lt_of_le hr hl.2.2) ?_
      rintro ⟨k', hk'⟩
      obtain ⟨m1, m2⟩ := (mem_export _ _ _).1 hk'
      rw [hl.2.1] at m1
      rcases exec_attr pw h op k' m1 with ⟨e, -⟩ | ⟨e, -⟩
      · exact hn ⟨k', (mem_export _ _ _).2 ⟨m1, by rw [← e, m2]⟩⟩
      · omega
  have main : ∀ (ops : List (HOp K)) (h : HData K), h.Own → (k, r) ∈ h.export →
      (Exported (h.run pw ops) r ↔ NeverReplaced pw h k ops) ∧ (NeverReplaced pw h k ops → (k, r) ∈ (h.run pw ops).export) := by
    intro ops
    induction ops with
    | nil => intro h _ hkr; exact ⟨⟨fun _ => trivial, fun _ => ⟨k, hkr⟩⟩, fun _ => hkr⟩
    | cons op ops ih =>
      intro h ho hkr
      obtain ⟨m1, m2⟩ := (mem_export _ _ _).1 hkr
      have hl := exec_later pw h op
      have hr : r < h.next := m2 ▸ ho.used k m1
      rcases exec_attr pw h op k m1 with ⟨e, hnr⟩ | ⟨e, hrep⟩
      · have hkr' : (k, r) ∈ (h.exec pw op).export := (mem_export _ _ _).2 ⟨by rw [hl.2.1]; exact m1, e.trans m2⟩
        obtain ⟨i1, i2⟩ := ih _ (exec_own pw h ho op) hkr'
        exact ⟨i1.trans ⟨fun x => ⟨hnr, x⟩, fun x => x.2⟩, fun x => i2 x.2⟩
      · have hne : ¬ Exported (h.exec pw op) r := by
          rintro ⟨k', hk'⟩
          obtain ⟨p1, p2⟩ := (mem_export _ _ _).1 hk'
          rw [hl.2.1] at p1
          rcases exec_attr pw h op k' p1 with ⟨e', hn'⟩ | ⟨e', -⟩
          · have : k' = k := ho.inj k' p1 k m1 (by rw [← e', p2, m2])
            subst this
            exact hn' hrep
          · omega
        have hg := gone ops _ (exec_own pw h ho op) (lt_of_lt_of_le hr hl.2.2) hne
        exact ⟨⟨fun x => absurd x hg, fun x => absurd hrep x.1⟩, fun x => absurd hrep x.1⟩
  exact main ops2 h ho hkr

/-- **C115: what a write does.**  Writing into an array changes the contents of the container only if the array is one of its fields; then it changes this entry of this field, and
no other field. -/
theorem C115_write (fields : List (String × Nat)) (heap : Nat → List (List K)) (n : Nat) (ops : List (HOp K)) (r i j : Nat) (v : K) :
    let h := (HData.new fields heap n).run pw ops
    (¬ Exported h r → contents (h.write r i j v) = contents h) ∧
    ∀ k, (k, r) ∈ h.export → (contents (h.write r i j v)).rows k = ((contents h).rows k).modify i (·.set j v) ∧
      ∀ k', k' ≠ k → (contents (h.write r i j v)).rows k' = (contents h).rows k' := by
  intro h
  have ho : h.Own := (run_own pw ops _ (initStorage_own _)).1
  refine ⟨write_contents h r i j v, fun k hkr => ?_⟩
  obtain ⟨m1, m2⟩ := (mem_export _ _ _).1 hkr
  have hs := (lookup_some_iff h.fields k).2 m1
  constructor
  · have e1 : (contents (h.write r i j v)).rows k = (h.write r i j v).heap (h.attr k) := if_pos hs
    have e2 : (contents h).rows k = h.heap (h.attr k) := if_pos hs
    rw [e1, e2, m2]
    exact if_pos rfl
  · intro k' hk'
    by_cases hs' : (h.fields.lookup k').isSome = true
    · have e1 : (contents (h.write r i j v)).rows k' = (h.write r i j v).heap (h.attr k') := if_pos hs'
      have e2 : (contents h).rows k' = h.heap (h.attr k') := if_pos hs'
      rw [e1, e2]
      refine if_neg fun he => hk' ?_
      exact ho.inj k' ((lookup_some_iff _ _).1 hs') k m1 (he.trans m2.symm)
    · have e1 : (contents (h.write r i j v)).rows k' = [] := if_neg hs'
      have e2 : (contents h).rows k' = [] := if_neg hs'
      rw [e1, e2]

/-! ## Non-vacuity -/
namespace DataHeapEx

def fields : List (String × Nat) := [("_time", 1), ("_x", 2)]
/-- one array of the user is there already -/
def h0 : HData Int := HData.new fields (fun _ => [[7, 8]]) 1
/-- a row from the user's array, which is changed afterwards; a refused update; an export, whose array for `_time` is written into after the next update of `_time` -/
def ops : List (HOp Int) :=
  [.update [("_x", .ref 0), ("_time", .num [0])], .write 0 0 1 9, .update [("_x", .num [1])], .exported, .update [("_time", .num [1])], .write 4 0 0 5, .get "_x" []]
def pw0 : String → List String → Except String (List Nat) := fun _ _ => .error "KeyError"

-- C115_log: the hypotheses hold, and the log has the values at the time of the calls
example : ArraysExist pw0 h0 ops ∧ HandsOff pw0 h0 ops := by
  refine ⟨⟨?_, ?_, ?_, ?_, ?_, ?_, ?_, trivial⟩, ⟨trivial, ?_, trivial, trivial, trivial, ?_, trivial, trivial⟩⟩
  · intro k r hm
    simp only [List.mem_cons, Prod.mk.injEq, HVal.ref.injEq, reduceCtorEq, and_false, List.not_mem_nil, or_false] at hm
    rw [hm.2]; decide
  · show (0 : Nat) < _; decide
  · intro k r hm; simp at hm
  · trivial
  · intro k r hm; simp at hm
  · show (4 : Nat) < _; decide
  · trivial
  · rintro ⟨k, hk⟩
    have : (k, 0) ∈ [("_time", 4), ("_x", 3)] := hk
    simp at this
  · rintro ⟨k, hk⟩
    have : (k, 4) ∈ [("_time", 5), ("_x", 3)] := hk
    simp at this
example : (contents (h0.run pw0 ops)).rows "_x" = [[7, 8]] ∧ (contents (h0.run pw0 ops)).rows "_time" = [[0], [1]] ∧ (h0.run pw0 ops).heap 0 = [[7, 9]] := by decide +kernel
-- C115_attached, C115_write: an array that was just exported is the field; writing into it changes the log
example : ("_x", 3) ∈ (h0.run pw0 ops).export ∧ (contents ((h0.run pw0 ops).write 3 0 1 5)).rows "_x" = [[7, 5]] := by decide +kernel
-- C115_snapshot: the array exported before the second update of `_time` still has one row
example : (h0.run pw0 (ops.take 5)).heap 4 = [[0]] ∧ NeverWrites 4 (ops.take 5) := ⟨by decide +kernel, by intro i j v; simp [ops]⟩

end DataHeapEx
end DoMpc
