import Verif.Spec.Flat
import Mathlib.Data.List.Nodup
import Mathlib.Data.List.Forall2
import Mathlib.Algebra.BigOperators.Group.List.Basic
import Mathlib.Tactic.Ring

set_option linter.unusedSectionVars false

/-!
# Power indices of the vectors handed to the solver
-/
namespace DoMpc
open FlatSpec

section Generic
variable {α β : Type}

theorem flatMap_getElem? (l : List α) (g : α → List β) (m : Nat) (hl : ∀ a ∈ l, (g a).length = m) (r j : Nat) (hj : j < m) :
    (l.flatMap g)[r * m + j]? = (l[r]?).bind fun a => (g a)[j]? := by
  induction l generalizing r with
  | nil => simp
  | cons a l ih =>
    have ha := hl a (by simp)
    rw [List.flatMap_cons]
    cases r with
    | zero =>
      rw [Nat.zero_mul, Nat.zero_add, List.getElem?_append_left (by omega)]
      rfl
    | succ r =>
      rw [List.getElem?_append_right (by rw [ha, Nat.add_mul]; omega)]
      rw [show (r + 1) * m + j - (g a).length = r * m + j by rw [ha, Nat.add_mul]; omega]
      rw [ih fun b hb => hl b (by simp [hb])]
      rfl

theorem flatMap_length (l : List α) (g : α → List β) (m : Nat) (hl : ∀ a ∈ l, (g a).length = m) : (l.flatMap g).length = l.length * m := by
  induction l with
  | nil => simp
  | cons a l ih =>
    rw [List.flatMap_cons, List.length_append, ih fun b hb => hl b (by simp [hb]), hl a (by simp), List.length_cons]
    ring

theorem multi_length (ns : List Nat) : (multi ns).length = ns.prod := by
  induction ns with
  | nil => rfl
  | cons n ns ih =>
    rw [multi, flatMap_length _ _ ns.prod (by intro a _; rw [List.length_map, ih]), List.length_range, List.prod_cons]

theorem mem_multi (ns i : List Nat) : i ∈ multi ns ↔ List.Forall₂ (fun a n => a < n) i ns := by
  induction ns generalizing i with
  | nil => simp [multi]
  | cons n ns ih =>
    simp only [multi, List.mem_flatMap, List.mem_range, List.mem_map]
    constructor
    · rintro ⟨a, ha, t, ht, rfl⟩
      exact .cons ha ((ih t).1 ht)
    · intro h
      cases h with
      | cons ha ht => exact ⟨_, ha, _, (ih _).2 ht, rfl⟩

theorem pyPos_spec (n : Nat) (i : Int) : (InRange n i ↔ (pyPos n i).isSome) ∧ ∀ a, pyPos n i = some a → a = counted n i ∧ a < n := by
  unfold pyPos InRange counted
  by_cases h0 : 0 ≤ i
  · rw [if_pos h0]
    by_cases h1 : i < n
    · rw [if_pos h1, if_neg (by omega)]
      refine ⟨⟨fun _ => rfl, fun _ => ⟨by omega, h1⟩⟩, fun a ha => ?_⟩
      obtain rfl := Option.some.inj ha
      exact ⟨rfl, by omega⟩
    · rw [if_neg h1]
      exact ⟨⟨fun h => absurd h.2 h1, fun h => by cases h⟩, fun a ha => by cases ha⟩
  · rw [if_neg h0]
    by_cases h1 : -(n : Int) ≤ i
    · rw [if_pos h1, if_pos (by omega)]
      refine ⟨⟨fun _ => rfl, fun _ => ⟨h1, by omega⟩⟩, fun a ha => ?_⟩
      obtain rfl := Option.some.inj ha
      exact ⟨rfl, by omega⟩
    · rw [if_neg h1]
      exact ⟨⟨fun h => absurd h.1 h1, fun h => by cases h⟩, fun a ha => by cases ha⟩

theorem ravel_isSome (ns : List Nat) (is : List Int) : (ravel ns is).isSome ↔ List.Forall₂ InRange ns is := by
  induction ns generalizing is with
  | nil => cases is <;> simp [ravel]
  | cons n ns ih =>
    cases is with
    | nil => simp [ravel]
    | cons i is =>
      rw [List.forall₂_cons, ← ih, (pyPos_spec n i).1, ravel]
      cases pyPos n i <;> cases ravel ns is <;> simp

theorem ravel_spec (ns : List Nat) (is : List Int) (r : Nat) (h : ravel ns is = some r) :
    r < ns.prod ∧ (multi ns)[r]? = some (List.zipWith counted ns is) := by
  induction ns generalizing is r with
  | nil =>
    cases is with
    | nil =>
      obtain rfl := Option.some.inj h
      exact ⟨by simp, rfl⟩
    | cons i is => cases h
  | cons n ns ih =>
    cases is with
    | nil => cases h
    | cons i is =>
      rw [ravel] at h
      rcases ha : pyPos n i with _ | a
      · rw [ha] at h; cases h
      · rcases hr : ravel ns is with _ | r'
        · rw [ha, hr] at h; cases h
        · rw [ha, hr] at h
          obtain rfl := Option.some.inj h
          obtain ⟨h1, h2⟩ := ih is r' hr
          obtain ⟨e1, e2⟩ := (pyPos_spec n i).2 a ha
          refine ⟨?_, ?_⟩
          · rw [List.prod_cons]
            calc a * ns.prod + r' < a * ns.prod + ns.prod := by omega
              _ = (a + 1) * ns.prod := by ring
              _ ≤ n * ns.prod := Nat.mul_le_mul_right _ e2
          · rw [multi, flatMap_getElem? _ _ ns.prod (by intro b _; rw [List.length_map, multi_length]) _ _ h1, List.getElem?_range e2]
            show ((multi ns).map (a :: ·))[r']? = _
            rw [List.getElem?_map, h2, e1]
            rfl

theorem find_spec (S : SStruct) (nm : String) : (∀ q, S.find nm = some q → S.find? (·.name = nm) = some q.2) ∧
    (S.find nm = none → S.find? (·.name = nm) = none) := by
  induction S with
  | nil => exact ⟨fun q h => (by cases h), fun _ => rfl⟩
  | cons e S ih =>
    rw [SStruct.find]
    by_cases h : e.name = nm
    · rw [if_pos h]
      refine ⟨fun q hq => ?_, fun hq => by cases hq⟩
      obtain rfl := Option.some.inj hq
      simp [h]
    · rw [if_neg h]
      rw [List.find?_cons_of_neg (by simpa using h)]
      refine ⟨fun q hq => ?_, fun hq => ih.2 (by simpa using hq)⟩
      rcases hf : SStruct.find S nm with _ | t
      · rw [hf] at hq; cases hq
      · rw [hf] at hq
        obtain rfl := Option.some.inj hq
        exact ih.1 t hf

theorem find_mem (S : SStruct) (nm : String) (q) (h : S.find nm = some q) : q.2 ∈ S ∧ q.2.name = nm := by
  have := (find_spec S nm).1 q h
  exact ⟨List.mem_of_find?_eq_some this, by simpa using List.find?_some this⟩

theorem find_isSome (S : SStruct) (nm : String) : (S.find nm).isSome ↔ ∃ e ∈ S, e.name = nm := by
  constructor
  · intro h
    obtain ⟨q, hq⟩ := Option.isSome_iff_exists.1 h
    exact ⟨q.2, find_mem S nm q hq⟩
  · rintro ⟨e, he, hn⟩
    rcases hf : S.find nm with _ | q
    · have := (find_spec S nm).2 hf
      rw [List.find?_eq_none] at this
      exact absurd hn (by simpa using this e he)
    · rfl

theorem entry_length (v : String → List Nat → List α) (e : SEntry) (hv : ∀ i, List.Forall₂ (fun a n => a < n) i e.rep → (v e.name i).length = e.sub.size) :
    ((multi e.rep).flatMap fun i => v e.name i).length = e.size := by
  rw [flatMap_length _ _ e.sub.size (fun i hi => hv i ((mem_multi _ _).1 hi)), multi_length]
  rfl

theorem cat_length (S : SStruct) (v : String → List Nat → List α) (hv : Fits S v) : (S.cat v).length = S.size := by
  induction S with
  | nil => rfl
  | cons e S ih =>
    have h1 := entry_length v e (hv e (by simp))
    have h2 := ih fun e he => hv e (by simp [he])
    rw [SStruct.cat] at h2 ⊢
    rw [List.flatMap_cons, List.length_append, h1, h2]
    simp [SStruct.size]

/-- reading at a position of a block -/
theorem cat_block (S : SStruct) (v : String → List Nat → List α) (hv : Fits S v) (nm : String) (o : Nat) (e : SEntry) (hf : S.find nm = some (o, e))
    (r : Nat) (i : List Nat) (hi : (multi e.rep)[r]? = some i) (j : Nat) (hj : j < e.sub.size) :
    (S.cat v)[o + r * e.sub.size + j]? = (v nm i)[j]? := by
  induction S generalizing o with
  | nil => cases hf
  | cons a S ih =>
    have h1 := entry_length v a (hv a (by simp))
    rw [SStruct.cat, List.flatMap_cons]
    rw [SStruct.find] at hf
    by_cases hn : a.name = nm
    · rw [if_pos hn] at hf
      obtain ⟨rfl, rfl⟩ := Prod.mk.inj (Option.some.inj hf)
      have hr : r < a.rep.prod := by
        rw [← multi_length]
        exact (List.getElem?_eq_some_iff.1 hi).1
      have hlt : r * a.sub.size + j < a.size := by
        show _ < a.rep.prod * a.sub.size
        calc r * a.sub.size + j < r * a.sub.size + a.sub.size := by omega
          _ = (r + 1) * a.sub.size := by ring
          _ ≤ a.rep.prod * a.sub.size := Nat.mul_le_mul_right _ hr
      rw [List.getElem?_append_left (by rw [h1]; omega), Nat.zero_add,
        flatMap_getElem? _ _ a.sub.size (fun i hi => hv a (by simp) i ((mem_multi _ _).1 hi)) _ _ hj, hi, ← hn]
      rfl
    · rw [if_neg hn] at hf
      rcases hf' : SStruct.find S nm with _ | t
      · rw [hf'] at hf; cases hf
      · rw [hf'] at hf
        obtain ⟨rfl, rfl⟩ := Prod.mk.inj (Option.some.inj hf)
        rw [List.getElem?_append_right (by rw [h1]; omega), h1]
        rw [show a.size + t.1 + r * t.2.sub.size + j - a.size = t.1 + r * t.2.sub.size + j by omega]
        exact ih (fun e he => hv e (by simp [he])) t.1 hf'

/-- **C98**: a power index is accepted exactly if the structure has the entry and all indices are in range (counting from the end if negative). -/
theorem C98_accepted (S : SStruct) (hd : Distinct S) (nm : String) (idx : List Int) : (S.f nm idx).isSome ↔ Exists S nm idx := by
  unfold SStruct.f
  rcases hf : S.find nm with _ | q
  · have hn : ¬ ∃ e ∈ S, e.name = nm := by
      intro h
      have := (find_isSome S nm).2 h
      rw [hf] at this
      cases this
    exact ⟨fun h => (by cases h), fun ⟨e, he, hne, _⟩ => absurd ⟨e, he, hne⟩ hn⟩
  · obtain ⟨hm, hnm⟩ := find_mem S nm q hf
    show ((ravel q.2.rep idx).map _).isSome ↔ _
    rw [Option.isSome_map, ravel_isSome]
    refine ⟨fun h => ⟨q.2, hm, hnm, h⟩, fun ⟨e, he, hne, h⟩ => ?_⟩
    have : e = q.2 := List.inj_on_of_nodup_map hd he hm (hne.trans hnm.symm)
    rwa [← this]

/-- **C98**: what is read at the positions of a power index of the flat vector is the block that was stored under it. -/
theorem C98_read (S : SStruct) (v : String → List Nat → List α) (hv : Fits S v) (nm : String) (idx : List Int) (ps : List Nat)
    (h : S.f nm idx = some ps) : ps.map (fun p => (S.cat v)[p]?) = (v nm (selected S nm idx)).map some := by
  unfold SStruct.f at h
  rcases hf : S.find nm with _ | q
  · rw [hf] at h; cases h
  · rw [hf] at h
    rcases hr : ravel q.2.rep idx with _ | r
    · simp only [Option.bind_some, hr] at h; cases h
    · simp only [Option.bind_some, hr, Option.map_some] at h
      obtain rfl := Option.some.inj h
      obtain ⟨hlt, hm⟩ := ravel_spec _ _ _ hr
      obtain ⟨hmem, hnm⟩ := find_mem S nm q hf
      have hsel : selected S nm idx = List.zipWith counted q.2.rep idx := by
        unfold selected
        rw [(find_spec S nm).1 q hf]
      have hlen : (v nm (selected S nm idx)).length = q.2.sub.size := by
        rw [hsel, ← hnm]
        exact hv q.2 hmem _ ((mem_multi _ _).1 (List.mem_of_getElem? hm))
      rw [List.map_map]
      refine List.ext_getElem? fun j => ?_
      rw [List.getElem?_map, List.getElem?_map]
      by_cases hj : j < q.2.sub.size
      · rw [List.getElem?_range hj]
        show some ((S.cat v)[q.1 + r * q.2.sub.size + j]?) = _
        rw [cat_block S v hv nm q.1 q.2 hf r _ hm j hj, hsel, List.getElem?_eq_getElem (by rw [← hsel, hlen]; exact hj)]
        rfl
      · rw [List.getElem?_eq_none (by simpa using hj), List.getElem?_eq_none (by rw [hlen]; omega)]
        rfl

/-- labels of the flat vector -/
def label (S : SStruct) (nm : String) (i : List Nat) : List (String × List Nat × Nat) :=
  match S.find? (·.name = nm) with
  | some e => (List.range e.sub.size).map fun j => (nm, i, j)
  | none => []

theorem label_mem (S : SStruct) (hd : Distinct S) (e : SEntry) (he : e ∈ S) (i : List Nat) :
    label S e.name i = (List.range e.sub.size).map fun j => (e.name, i, j) := by
  rcases hf : S.find? (·.name = e.name) with _ | a
  · rw [List.find?_eq_none] at hf
    exact absurd (rfl : e.name = e.name) (by simpa using hf e he)
  · have : a = e := List.inj_on_of_nodup_map hd (List.mem_of_find?_eq_some hf) he (by simpa using List.find?_some hf)
    unfold label
    rw [hf, this]

theorem label_fits (S : SStruct) (hd : Distinct S) : Fits S (label S) := by
  intro e he i _
  rw [label_mem S hd e he, List.length_map, List.length_range]

theorem multi_nodup (ns : List Nat) : (multi ns).Nodup := by
  induction ns with
  | nil => simp [multi]
  | cons n ns ih =>
    rw [multi, List.nodup_flatMap]
    refine ⟨fun a _ => ih.map (fun x y h => (List.cons.inj h).2), ?_⟩
    refine (List.nodup_range (n := n)).imp fun hab => ?_
    intro x hx hy
    simp only [List.mem_map] at hx hy
    obtain ⟨_, _, rfl⟩ := hx
    obtain ⟨_, _, h⟩ := hy
    exact hab (List.cons.inj h).1.symm

theorem label_nodup (S : SStruct) (hd : Distinct S) : (S.cat (label S)).Nodup := by
  have key : ∀ T : SStruct, (∀ e ∈ T, e ∈ S) → Distinct T → (T.flatMap fun e => (multi e.rep).flatMap fun i => label S e.name i).Nodup := by
    intro T hT hdT
    rw [List.nodup_flatMap]
    refine ⟨fun e he => ?_, ?_⟩
    · rw [List.nodup_flatMap]
      refine ⟨fun i _ => ?_, ?_⟩
      · rw [label_mem S hd e (hT e he)]
        exact (List.nodup_range).map fun a b h => (Prod.mk.inj (Prod.mk.inj h).2).2
      · refine (multi_nodup e.rep).imp fun hab => ?_
        intro x hx hy
        replace hx : x ∈ label S e.name _ := hx
        replace hy : x ∈ label S e.name _ := hy
        rw [label_mem S hd e (hT e he)] at hx hy
        simp only [List.mem_map] at hx hy
        obtain ⟨_, _, rfl⟩ := hx
        obtain ⟨_, _, h⟩ := hy
        exact hab (Prod.mk.inj (Prod.mk.inj h).2).1.symm
    · have hp : List.Pairwise (fun a b : SEntry => a.name ≠ b.name) T := by
        have := hdT
        unfold Distinct List.Nodup at this
        rwa [List.pairwise_map] at this
      refine (List.Pairwise.and_mem.1 hp).imp fun hab => ?_
      obtain ⟨ha, hb, hne⟩ := hab
      intro x hx hy
      simp only [List.mem_flatMap] at hx hy
      obtain ⟨i, _, hx⟩ := hx
      obtain ⟨i', _, hy⟩ := hy
      rw [label_mem S hd _ (hT _ ha)] at hx
      rw [label_mem S hd _ (hT _ hb)] at hy
      simp only [List.mem_map] at hx hy
      obtain ⟨_, _, rfl⟩ := hx
      obtain ⟨_, _, h⟩ := hy
      exact hne (Prod.mk.inj h).1.symm
  exact key S (fun e he => he) hd

theorem label_at (S : SStruct) (hd : Distinct S) (nm : String) (idx : List Int) (ps : List Nat) (h : S.f nm idx = some ps) (j : Nat) (p : Nat)
    (hp : ps[j]? = some p) : (S.cat (label S))[p]? = some (nm, selected S nm idx, j) := by
  have hr := C98_read S (label S) (label_fits S hd) nm idx ps h
  have hj := congrArg (fun l => l[j]?) hr
  simp only [List.getElem?_map, hp, Option.map_some] at hj
  unfold label at hj
  rcases hf : S.find? (·.name = nm) with _ | e
  · rw [hf] at hj
    simp at hj
  · rw [hf] at hj
    simp only [List.getElem?_map] at hj
    by_cases hlt : j < e.sub.size
    · rw [List.getElem?_range hlt] at hj
      exact Option.some.inj hj
    · rw [List.getElem?_eq_none (l := List.range e.sub.size) (by simpa using hlt)] at hj
      cases hj

/-- **C98**: two power indices share a position only if they select the same block, and then the same component of it. -/
theorem C98_no_alias (S : SStruct) (hd : Distinct S) (nm nm' : String) (idx idx' : List Int) (ps ps' : List Nat) (h : S.f nm idx = some ps)
    (h' : S.f nm' idx' = some ps') (j j' p : Nat) (hj : ps[j]? = some p) (hj' : ps'[j']? = some p) :
    nm = nm' ∧ selected S nm idx = selected S nm' idx' ∧ j = j' := by
  have e := (label_at S hd nm idx ps h j p hj).symm.trans (label_at S hd nm' idx' ps' h' j' p hj')
  obtain ⟨h1, h2⟩ := Prod.mk.inj (Option.some.inj e)
  exact ⟨h1, (Prod.mk.inj h2).1, (Prod.mk.inj h2).2⟩

/-- **C98**: every position of the flat vector is read by some power index; positions of power indices exist. -/
theorem C98_cover (S : SStruct) (hd : Distinct S) (p : Nat) : p < S.size ↔ ∃ nm idx ps, S.f nm idx = some ps ∧ p ∈ ps := by
  have hlen := cat_length S (label S) (label_fits S hd)
  constructor
  · intro hp
    have hmem := List.getElem_mem (l := S.cat (label S)) (n := p) (by omega)
    have hmem' := hmem
    unfold SStruct.cat at hmem'
    simp only [List.mem_flatMap] at hmem'
    obtain ⟨e, he, i, hi, hx⟩ := hmem'
    rw [label_mem S hd e he] at hx
    simp only [List.mem_map, List.mem_range] at hx
    obtain ⟨j, hj, hx⟩ := hx
    have hi' := (mem_multi _ _).1 hi
    have hin : List.Forall₂ InRange e.rep (i.map Int.ofNat) := by
      refine List.forall₂_map_right_iff.2 (List.Forall₂.imp ?_ hi'.flip)
      intro a b hab
      show -(a : Int) ≤ (b : Int) ∧ (b : Int) < a
      exact ⟨by omega, by omega⟩
    obtain ⟨ps, hps⟩ := Option.isSome_iff_exists.1 ((C98_accepted S hd e.name (i.map Int.ofNat)).2 ⟨e, he, rfl, hin⟩)
    refine ⟨e.name, _, ps, hps, ?_⟩
    have hfind : S.find? (·.name = e.name) = some e := by
      rcases hf : S.find? (·.name = e.name) with _ | a
      · rw [List.find?_eq_none] at hf
        exact absurd (rfl : e.name = e.name) (by simpa using hf e he)
      · rw [hf, List.inj_on_of_nodup_map hd (List.mem_of_find?_eq_some hf) he (by simpa using List.find?_some hf)]
    have hsel : selected S e.name (i.map Int.ofNat) = i := by
      unfold selected
      rw [hfind]
      have : ∀ (i ns : List Nat), List.Forall₂ (fun a n => a < n) i ns → List.zipWith counted ns (i.map Int.ofNat) = i := by
        intro i ns h
        induction h with
        | nil => rfl
        | cons hab _ ih =>
          rw [List.map_cons, List.zipWith_cons_cons, ih]
          congr 1
      exact this i e.rep hi'
    have hread := C98_read S (label S) (label_fits S hd) e.name _ ps hps
    have hl : ps.length = e.sub.size := by
      have := congrArg List.length hread
      rw [List.length_map, List.length_map, label_mem S hd e he, List.length_map, List.length_range] at this
      exact this
    have hpj : ps[j]? = some ps[j] := List.getElem?_eq_getElem (by omega)
    have hlab := label_at S hd e.name _ ps hps j _ hpj
    rw [hsel] at hlab
    obtain ⟨hb, hq⟩ := List.getElem?_eq_some_iff.1 hlab
    have hidx : ps[j] = p := (List.Nodup.getElem_inj_iff (label_nodup S hd)).1 (hq.trans hx)
    rw [← hidx]
    exact List.getElem_mem _
  · rintro ⟨nm, idx, ps, hps, hp⟩
    obtain ⟨j, hj⟩ := List.mem_iff_getElem?.1 hp
    have := label_at S hd nm idx ps hps j p hj
    have := (List.getElem?_eq_some_iff.1 this).1
    omega

theorem start_spec (L : Layout) (nm : String) (o n : Nat) (h : L.start nm = some (o, n)) (f : List α) :
    L.entry f nm = (f.drop o).take n ∧ o + n ≤ L.size := by
  induction L generalizing o f with
  | nil => cases h
  | cons e L ih =>
    rw [Layout.start] at h
    by_cases hn : e.1 = nm
    · rw [if_pos hn] at h
      obtain ⟨rfl, rfl⟩ := Prod.mk.inj (Option.some.inj h)
      rw [Layout.entry, if_pos hn]
      exact ⟨rfl, by simp [Layout.size]⟩
    · rw [if_neg hn] at h
      rcases hf : Layout.start L nm with _ | t
      · rw [hf] at h; cases h
      · rw [hf] at h
        obtain ⟨rfl, rfl⟩ := Prod.mk.inj (Option.some.inj h)
        obtain ⟨h1, h2⟩ := ih t.1 hf (f.drop e.2)
        rw [Layout.entry, if_neg hn, h1, List.drop_drop]
        refine ⟨rfl, ?_⟩
        simp only [Layout.size, List.map_cons, List.sum_cons] at h2 ⊢
        omega

theorem start_isSome (L : Layout) (nm : String) : (L.start nm).isSome ↔ nm ∈ L.map (·.1) := by
  induction L with
  | nil => simp [Layout.start]
  | cons e L ih =>
    rw [Layout.start]
    by_cases hn : e.1 = nm
    · simp [hn]
    · rw [if_neg hn, Option.isSome_map, ih, List.map_cons, List.mem_cons]
      exact ⟨Or.inr, fun h => h.resolve_left fun e => hn e.symm⟩

/-- **C98**: a power index with the name of a variable reads this variable of the block; it is accepted exactly if the block exists and has it. -/
theorem C98_variable (S : SStruct) (hd : Distinct S) (v : String → List Nat → List α) (hv : Fits S v) (nm : String) (idx : List Int) (var : String) :
    ((S.fSub nm idx var).isSome ↔ Exists S nm idx ∧ ∃ e ∈ S, e.name = nm ∧ var ∈ e.sub.map (·.1)) ∧
    ∀ ps, S.fSub nm idx var = some ps → ∃ e ∈ S, e.name = nm ∧ ps.map (fun p => (S.cat v)[p]?) = (e.sub.entry (v nm (selected S nm idx)) var).map some := by
  have hacc := C98_accepted S hd nm idx
  unfold SStruct.f at hacc
  unfold SStruct.fSub
  rcases hf : S.find nm with _ | q
  · rw [hf] at hacc
    refine ⟨⟨fun h => (by cases h), fun h => absurd (hacc.2 h.1) (by simp)⟩, fun ps h => (by cases h)⟩
  · rw [hf] at hacc
    obtain ⟨hm, hnm⟩ := find_mem S nm q hf
    simp only [Option.bind_some, Option.isSome_map] at hacc ⊢
    rcases hr : ravel q.2.rep idx with _ | r
    · rw [hr] at hacc
      refine ⟨⟨fun h => (by cases h), fun h => absurd (hacc.2 h.1) (by simp)⟩, fun ps h => (by cases h)⟩
    · rw [hr] at hacc
      simp only [Option.bind_some, Option.isSome_map]
      refine ⟨?_, fun ps h => ?_⟩
      · rw [start_isSome]
        refine ⟨fun h => ⟨hacc.1 rfl, q.2, hm, hnm, h⟩, fun ⟨_, e, he, hne, h⟩ => ?_⟩
        have : e = q.2 := List.inj_on_of_nodup_map hd he hm (hne.trans hnm.symm)
        rwa [← this]
      · rcases ht : q.2.sub.start var with _ | t
        · rw [ht] at h; cases h
        · rw [ht] at h
          obtain rfl := Option.some.inj h
          refine ⟨q.2, hm, hnm, ?_⟩
          obtain ⟨hlt, hmu⟩ := ravel_spec _ _ _ hr
          have hsel : selected S nm idx = List.zipWith counted q.2.rep idx := by
            unfold selected
            rw [(find_spec S nm).1 q hf]
          have hlen : (v nm (selected S nm idx)).length = q.2.sub.size := by
            rw [hsel, ← hnm]
            exact hv q.2 hm _ ((mem_multi _ _).1 (List.mem_of_getElem? hmu))
          obtain ⟨h1, h2⟩ := start_spec q.2.sub var t.1 t.2 ht (v nm (selected S nm idx))
          rw [h1, List.map_map]
          refine List.ext_getElem? fun j => ?_
          rw [List.getElem?_map, List.getElem?_map, List.getElem?_take, List.getElem?_drop]
          by_cases hj : j < t.2
          · rw [List.getElem?_range hj, if_pos hj]
            show some ((S.cat v)[q.1 + r * q.2.sub.size + t.1 + j]?) = _
            rw [Nat.add_assoc, cat_block S v hv nm q.1 q.2 hf r _ hmu (t.1 + j) (by omega), ← hsel, List.getElem?_eq_getElem (by rw [hlen]; omega)]
            rfl
          · rw [List.getElem?_eq_none (by simpa using hj), if_neg hj]
            rfl

theorem read_cat [Zero α] (S : SStruct) (v : String → List Nat → List α) (hv : Fits S v) (hd : Distinct S) (nm : String) (idx : List Int)
    (he : Exists S nm idx) : S.read (fun p => (S.cat v).getD p 0) nm idx = v nm (selected S nm idx) := by
  obtain ⟨ps, hps⟩ := Option.isSome_iff_exists.1 ((C98_accepted S hd nm idx).2 he)
  have h := C98_read S v hv nm idx ps hps
  unfold SStruct.read
  rw [hps, Option.getD_some]
  have h' := congrArg (List.map fun o : Option α => o.getD 0) h
  rw [List.map_map, List.map_map] at h'
  rw [show (fun p => (S.cat v).getD p 0) = (fun o : Option α => o.getD 0) ∘ fun p => (S.cat v)[p]? from by
    funext p; rw [List.getD_eq_getElem?_getD]; rfl, h']
  exact (List.map_congr_left fun a _ => rfl).trans (List.map_id _)

end Generic

section Mpc
variable {K : Type} [Field K] [LinearOrder K] {d : Dims}

theorem optX_distinct (cfg : MpcCfg K d) (V : VarNames) : Distinct (cfg.optX V) := by
  show (["_x", "_z", "_u", "_eps"] : List String).Nodup
  decide

theorem optP_distinct (cfg : MpcCfg K d) (V : VarNames) : Distinct (cfg.optP V) := by
  show (["_x0", "_tvp", "_p", "_u_prev"] : List String).Nodup
  decide

theorem layout_flat_length {α : Type} (L : Layout) (v : String → Nat → α) : (Layout.flat L v).length = L.size := by
  unfold Layout.flat Layout.size
  simp [List.length_flatMap]

theorem optX_fits (cfg : MpcCfg K d) (V : VarNames) (hV : Ok V d) (w : OptX K d) : Fits (cfg.optX V) (w.block cfg.nl) := by
  intro e he i hi
  simp only [MpcCfg.optX, List.mem_cons, List.not_mem_nil, or_false] at he
  rcases he with rfl | rfl | rfl | rfl
  · obtain ⟨a, _, -, h1, rfl⟩ := List.forall₂_cons_right_iff.1 hi
    obtain ⟨b, _, -, h2, rfl⟩ := List.forall₂_cons_right_iff.1 h1
    obtain ⟨c, _, -, h3, rfl⟩ := List.forall₂_cons_right_iff.1 h2
    rw [List.forall₂_nil_right_iff] at h3
    subst h3
    show (List.ofFn (w.x a b c)).length = _
    rw [List.length_ofFn, hV.x]
  · obtain ⟨a, _, -, h1, rfl⟩ := List.forall₂_cons_right_iff.1 hi
    obtain ⟨b, _, -, h2, rfl⟩ := List.forall₂_cons_right_iff.1 h1
    obtain ⟨c, _, -, h3, rfl⟩ := List.forall₂_cons_right_iff.1 h2
    rw [List.forall₂_nil_right_iff] at h3
    subst h3
    show (List.ofFn (w.z a b c)).length = _
    rw [List.length_ofFn, hV.z]
  · obtain ⟨a, _, -, h1, rfl⟩ := List.forall₂_cons_right_iff.1 hi
    obtain ⟨b, _, -, h2, rfl⟩ := List.forall₂_cons_right_iff.1 h1
    rw [List.forall₂_nil_right_iff] at h2
    subst h2
    show (List.ofFn (w.u a b)).length = _
    rw [List.length_ofFn, hV.u]
  · obtain ⟨a, _, -, h1, rfl⟩ := List.forall₂_cons_right_iff.1 hi
    obtain ⟨b, _, -, h2, rfl⟩ := List.forall₂_cons_right_iff.1 h1
    rw [List.forall₂_nil_right_iff] at h2
    subst h2
    exact layout_flat_length _ _

theorem optP_fits (cfg : MpcCfg K d) (V : VarNames) (hV : Ok V d) (q : OptP K d) : Fits (cfg.optP V) q.block := by
  intro e he i hi
  simp only [MpcCfg.optP, List.mem_cons, List.not_mem_nil, or_false] at he
  rcases he with rfl | rfl | rfl | rfl
  · rw [List.forall₂_nil_right_iff] at hi
    subst hi
    exact (List.length_ofFn).trans hV.x.symm
  · obtain ⟨a, _, -, h1, rfl⟩ := List.forall₂_cons_right_iff.1 hi
    rw [List.forall₂_nil_right_iff] at h1
    subst h1
    exact (List.length_ofFn).trans hV.tvp.symm
  · obtain ⟨a, _, -, h1, rfl⟩ := List.forall₂_cons_right_iff.1 hi
    rw [List.forall₂_nil_right_iff] at h1
    subst h1
    exact (List.length_ofFn).trans hV.p.symm
  · rw [List.forall₂_nil_right_iff] at hi
    subst hi
    exact (List.length_ofFn).trans hV.u.symm

theorem vecOf_ofFn {n : Nat} (v : Vec K n) : vecOf (List.ofFn v) = v := by
  funext j
  simp [vecOf, List.getD_eq_getElem?_getD]

theorem inRange_nat {n a : Nat} (h : a < n) : InRange n (a : Int) := ⟨by omega, by omega⟩

theorem counted_nat (n a : Nat) : counted n (a : Int) = a := by
  unfold counted
  rw [if_neg (by omega)]
  rfl

end Mpc
end DoMpc
