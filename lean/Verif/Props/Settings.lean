import Verif.Spec.Settings
import Verif.Lemmas.Files

/-!
# C90: settings
-/
set_option linter.unusedSectionVars false
namespace DoMpc.Settings

theorem lookup_map' {α β : Type} (g : α → β) (d : List (String × α)) (n : String) : (d.map fun e => (e.1, g e.2)).lookup n = (d.lookup n).map g := by
  induction d with
  | nil => rfl
  | cons e d ih =>
    rw [List.map_cons, lookup_cons_ite, lookup_cons_ite, ih]
    split_ifs <;> rfl

/-- The Python objects and the independent records agree. -/
structure Rel (W : World) (S : List Rec) : Prop where
  len : W.objs.length = S.length
  leni : W.insts.length = S.length
  obj : ∀ (i : Nat) (o : Obj) (I : Inst) (s : Rec), W.objs[i]? = some o → W.insts[i]? = some I → S[i]? = some s →
    o.inst = i ∧ I.cls = o.cls ∧ s.cls = o.cls ∧ s.isSetup = o.isSetup
  val : ∀ (i : Nat) (I : Inst) (s : Rec) (key : String), W.insts[i]? = some I → S[i]? = some s →
    (I.attrs.lookup key).map W.deref = s.vals.lookup key
  cls0 : W.conts[0]? = some (.dict [])
  refs : ∀ (i : Nat) (I : Inst) (key : String) (r : Nat), W.insts[i]? = some I → I.attrs.lookup key = some (.ref r) → 0 < r ∧ r < W.conts.length
  own : ∀ (i i' : Nat) (I I' : Inst) (key key' : String) (r : Nat), W.insts[i]? = some I → W.insts[i']? = some I' →
    I.attrs.lookup key = some (.ref r) → I'.attrs.lookup key' = some (.ref r) → i = i' ∧ key = key'

theorem rel_init : Rel World.init [] := by
  refine ⟨rfl, rfl, ?_, ?_, rfl, ?_, ?_⟩ <;> intros <;> simp_all [World.init]

theorem deref_append (W : World) (cs : List Cont) (v : HVal) (h : ∀ r, v = .ref r → r < W.conts.length) :
    World.deref { W with conts := W.conts ++ cs } v = W.deref v := by
  cases v with
  | val v => rfl
  | ref r =>
    have := h r rfl
    simp [World.deref, List.getD_eq_getElem?_getD, List.getElem?_append_left this]

/-- more containers -/
theorem Rel.grow {W : World} {S : List Rec} (h : Rel W S) (cs : List Cont) : Rel { W with conts := W.conts ++ cs } S := by
  refine ⟨h.len, h.leni, h.obj, ?_, ?_, ?_, h.own⟩
  · intro i I s key hI hs
    rw [← h.val i I s key hI hs]
    rcases hl : I.attrs.lookup key with _ | v
    · rfl
    · simp only [Option.map_some]
      rw [deref_append]
      intro r hr
      subst hr
      exact (h.refs i I key r hI hl).2
  · have := h.cls0
    simp only
    rw [List.getElem?_append_left (by
      rcases hc : W.conts with _ | ⟨c, cs⟩
      · rw [hc] at this; simp at this
      · simp)]
    exact this
  · intro i I key r hI hl
    obtain ⟨h1, h2⟩ := h.refs i I key r hI hl
    exact ⟨h1, by simp only [List.length_append]; omega⟩

theorem Rel.alloc {W : World} {S : List Rec} (h : Rel W S) (l : Lit) : Rel (W.alloc l).1 S := by
  cases l with
  | val v => exact h
  | new c => exact h.grow [c]

theorem getElem?_modify' {α : Type} (l : List α) (i j : Nat) (f : α → α) (a : α) (h : (l.modify i f)[j]? = some a) :
    ∃ b, l[j]? = some b ∧ a = if i = j then f b else b := by
  rw [List.getElem?_modify] at h
  rcases hl : l[j]? with _ | b
  · rw [hl] at h; simp at h
  · rw [hl] at h
    refine ⟨b, rfl, ?_⟩
    simp only [Option.map_eq_map, Option.map_some, Option.some.injEq] at h
    rw [← h]

/-- an attribute gets a value or a new container -/
theorem Rel.write {W : World} {S : List Rec} (h : Rel W S) (k : Nat) (key : String) (l : Lit) :
    Rel ((W.alloc l).1.setAttr k key (W.alloc l).2) (S.modify k fun s => s.set key l.deep) := by
  have hg := h.alloc l
  have hins : (W.alloc l).1.insts = W.insts := by cases l <;> rfl
  have hobj : (W.alloc l).1.objs = W.objs := by cases l <;> rfl
  have h0 : 0 < W.conts.length := by
    have := h.cls0
    rcases hc : W.conts with _ | ⟨c, cs⟩
    · rw [hc] at this; simp at this
    · simp
  have hv : ∀ r, (W.alloc l).2 = .ref r → r = W.conts.length ∧ r < (W.alloc l).1.conts.length := by
    intro r hr
    cases l with
    | val v => simp [World.alloc] at hr
    | new c =>
      simp only [World.alloc, HVal.ref.injEq] at hr
      subst hr
      exact ⟨rfl, by simp [World.alloc]⟩
  have hd : (W.alloc l).1.deref (W.alloc l).2 = l.deep := by
    cases l with
    | val v => rfl
    | new c => simp [World.alloc, World.deref, Lit.deep, List.getD_eq_getElem?_getD]
  refine ⟨?_, ?_, ?_, ?_, hg.cls0, ?_, ?_⟩
  · simp only [World.setAttr, List.length_modify]; exact hg.len
  · simp only [World.setAttr, List.length_modify]; exact hg.leni
  · intro i o I s ho hI hs
    obtain ⟨I0, hI0, rfl⟩ := getElem?_modify' _ _ _ _ _ hI
    obtain ⟨s0, hs0, rfl⟩ := getElem?_modify' _ _ _ _ _ hs
    obtain ⟨a, b, c, d⟩ := hg.obj i o I0 s0 ho hI0 hs0
    refine ⟨a, ?_, ?_, ?_⟩
    · split_ifs <;> exact b
    · split_ifs <;> exact c
    · split_ifs <;> exact d
  · intro i I s key' hI hs
    obtain ⟨I0, hI0, rfl⟩ := getElem?_modify' _ _ _ _ _ hI
    obtain ⟨s0, hs0, rfl⟩ := getElem?_modify' _ _ _ _ _ hs
    have hval := hg.val i I0 s0 key' hI0 hs0
    by_cases hk : k = i
    · simp only [if_pos hk, Rec.set, lookup_dictSet]
      split_ifs
      · simp only [Option.map_some]
        congr 1
      · exact hval
    · simp only [if_neg hk]
      exact hval
  · intro i I key' r hI hl
    obtain ⟨I0, hI0, rfl⟩ := getElem?_modify' _ _ _ _ _ hI
    by_cases hk : k = i
    · simp only [if_pos hk, lookup_dictSet] at hl
      split_ifs at hl with hkey
      · simp only [Option.some.injEq] at hl
        obtain ⟨h1, h2⟩ := hv r hl
        exact ⟨by omega, h2⟩
      · exact hg.refs i I0 key' r hI0 hl
    · rw [if_neg hk] at hl
      exact hg.refs i I0 key' r hI0 hl
  · -- a reference is old or the new one
    have hcase : ∀ (i : Nat) (I : Inst) (key' : String) (r : Nat),
        ((W.alloc l).1.setAttr k key (W.alloc l).2).insts[i]? = some I → I.attrs.lookup key' = some (.ref r) →
        (i = k ∧ key' = key ∧ r = W.conts.length) ∨
          (¬ (i = k ∧ key' = key) ∧ ∃ I0, W.insts[i]? = some I0 ∧ I0.attrs.lookup key' = some (.ref r)) := by
      intro i I key' r hI hl
      obtain ⟨I0, hI0, rfl⟩ := getElem?_modify' _ _ _ _ _ hI
      rw [hins] at hI0
      by_cases hk : k = i
      · simp only [if_pos hk, lookup_dictSet] at hl
        split_ifs at hl with hkey
        · simp only [Option.some.injEq] at hl
          exact .inl ⟨hk.symm, hkey, (hv r hl).1⟩
        · exact .inr ⟨fun hh => hkey hh.2, I0, hI0, hl⟩
      · rw [if_neg hk] at hl
        exact .inr ⟨fun hh => hk hh.1.symm, I0, hI0, hl⟩
    intro i i' I I' key1 key2 r hI hI' hl hl'
    rcases hcase i I key1 r hI hl with ⟨a1, a2, a3⟩ | ⟨a0, I0, a1, a2⟩ <;> rcases hcase i' I' key2 r hI' hl' with ⟨b1, b2, b3⟩ | ⟨b0, I0', b1, b2⟩
    · exact ⟨a1.trans b1.symm, a2.trans b2.symm⟩
    · have := (h.refs _ _ _ _ b1 b2).2
      omega
    · have := (h.refs _ _ _ _ a1 a2).2
      omega
    · exact h.own _ _ _ _ _ _ _ a1 b1 a2 b2

/-! ### Reading -/

theorem Rel.get {W : World} {S : List Rec} (h : Rel W S) {i : Nat} {I : Inst} {s : Rec} (hI : W.insts[i]? = some I) (hs : S[i]? = some s)
    (hc : I.cls = s.cls) (key : String) : (I.get key).map W.deref = s.get key := by
  have hv := h.val i I s key hI hs
  unfold Inst.get Rec.get
  rcases hl : I.attrs.lookup key with _ | v
  · rw [hl] at hv
    rw [← hv]
    simp only [Option.map_none]
    rw [hc]
    cases s.cls <;> simp only [Cls.classAttrs, Cls.otherDefaults, List.lookup_nil, Option.map_none]
    simp only [lookup_cons_ite, List.lookup_nil]
    split_ifs <;> simp only [Option.map_some, Option.map_none, World.deref, optsRef, List.getD_eq_getElem?_getD, h.cls0, Option.getD_some]
  · rw [hl] at hv
    rw [← hv]
    rfl

theorem Rel.has {W : World} {S : List Rec} (h : Rel W S) {i : Nat} {I : Inst} {s : Rec} (hI : W.insts[i]? = some I) (hs : S[i]? = some s)
    (hc : I.cls = s.cls) (key : String) : I.has key = s.has key := by
  unfold Inst.has Rec.has
  rw [← h.get hI hs hc key, Option.isSome_map, hc]

theorem Rel.param {W : World} {S : List Rec} (h : Rel W S) (k : Nat) (e : String × Lit) : Rel (W.param k e) (S.modify k fun s => s.param e) := by
  unfold World.param
  rcases hI : W.insts[k]? with _ | I
  · have : S.length ≤ k := by
      rw [List.getElem?_eq_none_iff] at hI
      rw [← h.leni]; exact hI
    rw [List.modify_eq_self this]
    exact h
  · have hk : k < S.length := by
      rw [← h.leni]
      exact (List.getElem?_eq_some_iff.1 hI).1
    have hs : S[k]? = some S[k] := List.getElem?_eq_getElem hk
    have ho : W.objs[k]? = some (W.objs[k]'(by rw [h.len]; exact hk)) := List.getElem?_eq_getElem _
    obtain ⟨-, c1, c2, -⟩ := h.obj k _ I _ ho hI hs
    have hhas := h.has hI hs (c1.trans c2.symm) e.1
    have hmod : ∀ b : Bool, S[k].has e.1 = b → (S.modify k fun s => s.param e) = if b then S.modify k fun s => s.set e.1 e.2.deep else S := by
      intro b hb
      apply List.ext_getElem?
      intro j
      rw [List.getElem?_modify]
      by_cases hj : k = j
      · subst hj
        rw [hs]
        cases b
        · simp [Rec.param, hb, hs]
        · simp [Rec.param, hb, List.getElem?_modify, hs]
      · cases b
        · simp [hj]
        · simp [hj, List.getElem?_modify]
    dsimp only
    rw [hhas]
    cases hb : S[k].has e.1
    · rw [hmod false hb]
      exact h.alloc e.2
    · rw [hmod true hb]
      exact h.write k e.1 e.2

theorem Rel.params {W : World} {S : List Rec} (h : Rel W S) (k : Nat) (kw : List (String × Lit)) :
    Rel (kw.foldl (fun W e => W.param k e) W) (S.modify k fun s => kw.foldl Rec.param s) := by
  induction kw generalizing W S with
  | nil =>
    have : (S.modify k fun s => s) = S := by
      apply List.ext_getElem?
      intro j
      rw [List.getElem?_modify]
      simp
    simp only [List.foldl_nil]
    rw [this]; exact h
  | cons e kw ih =>
    have := ih (h.param k e)
    rw [List.modify_modify_eq] at this
    exact this

/-! ### New objects -/

/-- The defaults, one after the other. -/
theorem fields_fold (l : List (String × Lit)) (W : World) (acc : List (String × HVal)) :
    let r := l.foldl (fun (r : World × List (String × HVal)) e => ((r.1.alloc e.2).1, r.2 ++ [(e.1, (r.1.alloc e.2).2)])) (W, acc)
    ∃ cs new, r.1 = { W with conts := W.conts ++ cs } ∧ r.2 = acc ++ new ∧
      (∀ e ∈ new, ∀ q, e.2 = .ref q → W.conts.length ≤ q ∧ q < W.conts.length + cs.length) ∧
      (new.map fun e => (e.1, r.1.deref e.2)) = (l.map fun e => (e.1, e.2.deep)) ∧
      new.Pairwise (fun a b => ∀ q, a.2 = .ref q → b.2 ≠ .ref q) := by
  induction l generalizing W acc with
  | nil => exact ⟨[], [], by simp, by simp, by simp, rfl, .nil⟩
  | cons e l ih =>
    obtain ⟨n, v⟩ := e
    cases v with
    | val v =>
      obtain ⟨cs, new, h1, h2, h3, h4, h5⟩ := ih W (acc ++ [(n, .val v)])
      refine ⟨cs, (n, .val v) :: new, h1, by simpa [World.alloc] using h2, ?_, ?_, ?_⟩
      · intro e he q hq
        rcases List.mem_cons.1 he with rfl | he
        · simp at hq
        · exact h3 e he q hq
      · simp only [List.map_cons]
        rw [show Lit.deep (.val v) = .val v from rfl]
        exact congrArg _ h4
      · exact List.pairwise_cons.2 ⟨fun b _ q hq => by simp at hq, h5⟩
    | new c =>
      obtain ⟨cs, new, h1, h2, h3, h4, h5⟩ := ih { W with conts := W.conts ++ [c] } (acc ++ [(n, .ref W.conts.length)])
      refine ⟨c :: cs, (n, .ref W.conts.length) :: new, ?_, by simpa [World.alloc] using h2, ?_, ?_, ?_⟩
      · refine h1.trans ?_
        simp
      · intro e he q hq
        rcases List.mem_cons.1 he with rfl | he
        · simp only [HVal.ref.injEq] at hq
          subst hq
          simp
        · have := h3 e he q hq
          simp only [List.length_append, List.length_cons, List.length_nil] at this
          simp only [List.length_cons]
          omega
      · simp only [List.map_cons]
        refine congrArg₂ List.cons ?_ h4
        refine congrArg (Prod.mk n) ?_
        refine (congrArg (fun w => World.deref w (.ref W.conts.length)) h1).trans ?_
        simp [World.deref, Lit.deep, List.getD_eq_getElem?_getD]
      · refine List.pairwise_cons.2 ⟨?_, h5⟩
        intro b hb q hq hbq
        simp only [HVal.ref.injEq] at hq
        subst hq
        have := (h3 b hb _ hbq).1
        simp only [List.length_append, List.length_cons, List.length_nil] at this
        omega

theorem lookup_mem' {β : Type} (l : List (String × β)) (a : String) (b : β) (h : l.lookup a = some b) : (a, b) ∈ l := by
  induction l with
  | nil => simp at h
  | cons p l ih =>
    obtain ⟨c, d⟩ := p
    rw [lookup_cons_ite] at h
    split_ifs at h with hc
    · simp only [Option.some.injEq] at h
      subst h; subst hc
      exact List.mem_cons_self
    · exact List.mem_cons_of_mem _ (ih h)

theorem pairwise_refs (l : List (String × HVal)) (h : l.Pairwise (fun a b => ∀ q, a.2 = .ref q → b.2 ≠ .ref q)) (a b : String) (q : Nat)
    (ha : (a, HVal.ref q) ∈ l) (hb : (b, HVal.ref q) ∈ l) : a = b := by
  induction l with
  | nil => simp at ha
  | cons e l ih =>
    rw [List.pairwise_cons] at h
    rcases List.mem_cons.1 ha with rfl | ha' <;> rcases List.mem_cons.1 hb with hb' | hb'
    · exact (congrArg Prod.fst hb').symm
    · exact absurd (rfl : HVal.ref q = HVal.ref q) (h.1 (b, HVal.ref q) hb' q rfl)
    · subst hb'; exact absurd (rfl : HVal.ref q = HVal.ref q) (h.1 (a, HVal.ref q) ha' q rfl)
    · exact ih h.2 ha' hb'

theorem Rel.create {W : World} {S : List Rec} (h : Rel W S) (c : Cls) (arg : Option Nat) : Rel (W.exec (.create c arg)).1 (S ++ [Rec.new c]) := by
  obtain ⟨cs, new, h1, h2, h3, h4, h5⟩ := fields_fold c.fields W []
  have hg := h.grow cs
  simp only [List.nil_append] at h2
  have hW : (W.exec (.create c arg)).1 =
      ⟨W.objs ++ [⟨c, W.insts.length, false⟩], W.insts ++ [⟨c, new⟩], W.conts ++ cs⟩ := by
    simp only [World.exec, World.newInst]
    rw [h2, h1]
  have h4' : (new.map fun e => (e.1, World.deref { W with conts := W.conts ++ cs } e.2)) = c.fields.map fun e => (e.1, e.2.deep) := by
    rw [← h4, h1]
  rw [hW]
  have hlast : ∀ {α : Type} (l : List α) (a b : α) (i : Nat), (l ++ [a])[i]? = some b → l[i]? = some b ∨ (i = l.length ∧ b = a) := by
    intro α l a b i hb
    rcases Nat.lt_trichotomy i l.length with hi | hi | hi
    · rw [List.getElem?_append_left hi] at hb; exact .inl hb
    · subst hi; simp at hb; exact .inr ⟨rfl, hb.symm⟩
    · rw [List.getElem?_eq_none (by simp; omega)] at hb; simp at hb
  have hlt : ∀ {α : Type} (l : List α) (b : α) (i : Nat), l[i]? = some b → i < l.length := fun l b i hb => (List.getElem?_eq_some_iff.1 hb).1
  have hL := h.len
  have hLi := h.leni
  refine ⟨by simp [hL], by simp [hLi], ?_, ?_, hg.cls0, ?_, ?_⟩
  · intro i o I s ho hI hs
    rcases hlast _ _ _ _ ho with ho | ⟨io, rfl⟩ <;> rcases hlast _ _ _ _ hI with hI | ⟨ii, rfl⟩ <;> rcases hlast _ _ _ _ hs with hs | ⟨is, rfl⟩
    · exact h.obj i o I s ho hI hs
    · have := hlt _ _ _ ho; omega
    · have := hlt _ _ _ ho; omega
    · have := hlt _ _ _ ho; omega
    · have := hlt _ _ _ hI; omega
    · have := hlt _ _ _ hI; omega
    · have := hlt _ _ _ hs; omega
    · exact ⟨ii.symm, rfl, rfl, rfl⟩
  · intro i I s key hI hs
    rcases hlast _ _ _ _ hI with hI | ⟨ii, rfl⟩ <;> rcases hlast _ _ _ _ hs with hs | ⟨is, rfl⟩
    · exact hg.val i I s key hI hs
    · have := hlt _ _ _ hI; omega
    · have := hlt _ _ _ hs; omega
    · simp only [Rec.new]
      rw [← h4', lookup_map' (World.deref { W with conts := W.conts ++ cs })]
      congr 1
  · intro i I key r hI hl
    rcases hlast _ _ _ _ hI with hI | ⟨ii, rfl⟩
    · exact hg.refs i I key r hI hl
    · have h6 := h3 _ (lookup_mem' _ _ _ hl) r rfl
      have h0 : 0 < W.conts.length := by
        have := h.cls0
        rcases hc : W.conts with _ | ⟨c, cs⟩
        · rw [hc] at this; simp at this
        · simp
      simp only [List.length_append]
      omega
  · intro i i' I I' key key' r hI hI' hl hl'
    rcases hlast _ _ _ _ hI with hI | ⟨ii, rfl⟩ <;> rcases hlast _ _ _ _ hI' with hI' | ⟨ii', rfl⟩
    · exact h.own _ _ _ _ _ _ _ hI hI' hl hl'
    · have h6 := h3 _ (lookup_mem' _ _ _ hl') r rfl
      have := (h.refs _ _ _ _ hI hl).2
      omega
    · have h6 := h3 _ (lookup_mem' _ _ _ hl) r rfl
      have := (h.refs _ _ _ _ hI' hl').2
      omega
    · exact ⟨ii.trans ii'.symm, pairwise_refs new h5 _ _ r (lookup_mem' _ _ _ hl) (lookup_mem' _ _ _ hl')⟩

/-! ### Calls -/

/-- the settings object of an object -/
theorem Rel.at {W : World} {S : List Rec} (h : Rel W S) {i : Nat} {o : Obj} (ho : W.objs[i]? = some o) :
    ∃ I s, W.insts[i]? = some I ∧ S[i]? = some s ∧ o.inst = i ∧ I.cls = s.cls ∧ s.cls = o.cls ∧ s.isSetup = o.isSetup := by
  have hi : i < W.objs.length := (List.getElem?_eq_some_iff.1 ho).1
  have hI : W.insts[i]? = some (W.insts[i]'(by rw [h.leni, ← h.len]; exact hi)) := List.getElem?_eq_getElem _
  have hs : S[i]? = some (S[i]'(by rw [← h.len]; exact hi)) := List.getElem?_eq_getElem _
  obtain ⟨a, b, c, d⟩ := h.obj i o _ _ ho hI hs
  exact ⟨_, _, hI, hs, a, b.trans c.symm, c, d⟩

theorem modify_none {W : World} {S : List Rec} (h : Rel W S) {i : Nat} (ho : W.objs[i]? = none) (f : Rec → Rec) : S.modify i f = S := by
  apply List.modify_eq_self
  rw [List.getElem?_eq_none_iff] at ho
  rw [← h.len]; exact ho

theorem modify_eq {S : List Rec} {i : Nat} {s : Rec} (hs : S[i]? = some s) (f g : Rec → Rec) (h : f s = g s) : S.modify i f = S.modify i g := by
  apply List.ext_getElem?
  intro j
  rw [List.getElem?_modify, List.getElem?_modify]
  by_cases hj : i = j
  · subst hj; rw [hs]; simp [h]
  · simp [hj]

theorem modify_same {S : List Rec} {i : Nat} {s : Rec} (hs : S[i]? = some s) (f : Rec → Rec) (h : f s = s) : S.modify i f = S := by
  apply List.ext_getElem?
  intro j
  rw [List.getElem?_modify]
  by_cases hj : i = j
  · subst hj; rw [hs]; simp [h]
  · simp [hj]

/-- an operation in place on a container that the settings object owns -/
theorem Rel.mutate {W : World} {S : List Rec} (h : Rel W S) {i : Nat} {I : Inst} {s : Rec} {key : String} {r : Nat} (hI : W.insts[i]? = some I)
    (hs : S[i]? = some s) (hl : I.attrs.lookup key = some (.ref r)) (f : Cont → Cont) :
    Rel { W with conts := W.conts.modify r f } (S.modify i fun s => s.set key (.cont (f (W.conts.getD r (.dict []))))) := by
  obtain ⟨hr0, hr⟩ := h.refs i I key r hI hl
  have hder : ∀ v, v ≠ .ref r → World.deref { W with conts := W.conts.modify r f } v = W.deref v := by
    intro v hv
    cases v with
    | val v => rfl
    | ref q =>
      have hq : r ≠ q := fun e => hv (e ▸ rfl)
      simp [World.deref, List.getD_eq_getElem?_getD, List.getElem?_modify, hq]
  refine ⟨by simp [h.len], by simp [h.leni], ?_, ?_, ?_, ?_, h.own⟩
  · intro j o I' s' ho hI' hs'
    obtain ⟨s0, hs0, rfl⟩ := getElem?_modify' _ _ _ _ _ hs'
    obtain ⟨a, b, c, d⟩ := h.obj j o I' s0 ho hI' hs0
    refine ⟨a, b, ?_, ?_⟩
    · split_ifs <;> exact c
    · split_ifs <;> exact d
  · intro j I' s' key' hI' hs'
    obtain ⟨s0, hs0, rfl⟩ := getElem?_modify' _ _ _ _ _ hs'
    have hv := h.val j I' s0 key' hI' hs0
    by_cases hown : I'.attrs.lookup key' = some (.ref r)
    · obtain ⟨rfl, rfl⟩ := h.own _ _ _ _ _ _ _ hI hI' hl hown
      rw [if_pos rfl, hown]
      simp only [Rec.set, lookup_dictSet, if_true, Option.map_some, World.deref]
      simp [List.getD_eq_getElem?_getD, List.getElem?_modify, List.getElem?_eq_getElem hr]
    · have hd : (I'.attrs.lookup key').map (World.deref { W with conts := W.conts.modify r f }) = s0.vals.lookup key' := by
        rw [← hv]
        rcases hq : I'.attrs.lookup key' with _ | v
        · rfl
        · simp only [Option.map_some]
          rw [hder v (fun e => hown (by rw [hq, e]))]
      rw [hd]
      by_cases hij : i = j
      · subst hij
        rw [hI] at hI'
        cases hI'
        rw [if_pos rfl]
        simp only [Rec.set, lookup_dictSet]
        rw [if_neg]
        rintro rfl
        exact hown hl
      · rw [if_neg hij]
  · have := h.cls0
    rw [List.getElem?_modify]
    have hne : r ≠ 0 := by omega
    simp [hne, this]
  · intro j I' key' q hI' hl'
    obtain ⟨a, b⟩ := h.refs j I' key' q hI' hl'
    exact ⟨a, by simpa using b⟩

theorem Rel.missing {W : World} {S : List Rec} (h : Rel W S) {i : Nat} {I : Inst} {s : Rec} (hI : W.insts[i]? = some I) (hs : S[i]? = some s)
    (hc : I.cls = s.cls) : I.missing.isSome = s.missing := by
  unfold Inst.missing Rec.missing
  rw [Bool.eq_iff_iff, List.find?_isSome, hc]
  simp only [List.any_eq_true, decide_eq_true_eq]
  have hk : ∀ key, (match I.get key with | some (.val .none) => true | none => true | _ => false) = true ↔
      (s.get key = none ∨ s.get key = some (.val .none)) := by
    intro key
    have hg := h.get hI hs hc key
    rw [← hg]
    rcases I.get key with _ | v
    · simp
    · rcases v with v | r
      · cases v <;> simp [World.deref]
      · simp [World.deref]
  constructor
  · rintro ⟨key, hm, hkey⟩; exact ⟨key, hm, (hk key).1 hkey⟩
  · rintro ⟨key, hm, hkey⟩; exact ⟨key, hm, (hk key).2 hkey⟩

/-- The calls considered: no sharing of containers or settings objects between objects, and `integration_opts` is not changed in place. -/
def Op.Plain : Op → Prop
  | .share _ _ _ _ => False
  | .replace _ _ => False
  | .mutate _ key _ => key ≠ "integration_opts"
  | _ => True

theorem Rel.exec {W : World} {S : List Rec} (h : Rel W S) (op : Op) (hp : op.Plain) : Rel (W.exec op).1 (specStep S op) := by
  cases op with
  | create c arg => exact h.create c arg
  | setParam i kw =>
    simp only [World.exec, specStep, Op.target]
    rcases ho : W.objs[i]? with _ | o
    · rw [modify_none h ho]; exact h
    · obtain ⟨I, s, hI, hs, h1, h2, h3, h4⟩ := h.at ho
      dsimp only
      rw [h1]
      by_cases hg : (o.cls.guarded && o.isSetup) = true
      · rw [if_pos hg, modify_same hs _ (by simp only [Rec.step, h3, h4]; rw [if_pos hg])]
        exact h
      · rw [if_neg hg, modify_eq hs _ (fun s => kw.foldl Rec.param s) (by simp only [Rec.step, h3, h4]; rw [if_neg hg])]
        exact h.params i kw
  | assign i key v =>
    simp only [World.exec, specStep, Op.target]
    rcases ho : W.objs[i]? with _ | o
    · rw [modify_none h ho]; exact h
    · obtain ⟨I, s, hI, hs, h1, h2, h3, h4⟩ := h.at ho
      dsimp only
      rw [h1]
      exact h.write i key v
  | share => exact hp.elim
  | replace => exact hp.elim
  | mutate i key f =>
    simp only [World.exec, specStep, Op.target]
    rcases ho : W.objs[i]? with _ | o
    · rw [modify_none h ho]; exact h
    · obtain ⟨I, s, hI, hs, h1, h2, h3, h4⟩ := h.at ho
      dsimp only
      rw [h1, hI]
      simp only [Option.bind_some]
      have hg := h.get hI hs h2 key
      rcases hk : I.get key with _ | v
      · rw [hk] at hg
        rw [modify_same hs _ (by simp only [Rec.step, ← hg, Option.map_none])]
        exact h
      · rw [hk] at hg
        rcases v with v | r
        · rw [modify_same hs _ (by simp only [Rec.step, ← hg, Option.map_some, World.deref])]
          exact h
        · have hl : I.attrs.lookup key = some (.ref r) := by
            unfold Inst.get at hk
            rcases hl : I.attrs.lookup key with _ | v
            · exfalso
              rw [hl] at hk
              simp only at hk
              have hne : key ≠ "integration_opts" := hp
              rcases hcl : I.cls <;> rw [hcl] at hk <;> simp only [Cls.classAttrs, lookup_cons_ite] at hk
              all_goals first | (simp at hk; done) | (split_ifs at hk <;> simp_all)
            · rw [hl] at hk
              exact hk
          rw [modify_eq hs _ (fun s => s.set key (.cont (f (W.conts.getD r (.dict []))))) (by simp only [Rec.step, ← hg, Option.map_some, World.deref])]
          exact h.mutate hI hs hl f
  | setup i =>
    simp only [World.exec, specStep, Op.target]
    rcases ho : W.objs[i]? with _ | o
    · rw [modify_none h ho]; exact h
    · obtain ⟨I, s, hI, hs, h1, h2, h3, h4⟩ := h.at ho
      dsimp only
      rw [h1, hI]
      dsimp only
      have hm := h.missing hI hs h2
      have hv : (I.attrs.lookup "check_for_mandatory_settings").isSome = (s.vals.lookup "check_for_mandatory_settings").isSome := by
        rw [← h.val i I s _ hI hs, Option.isSome_map]
      by_cases hc : (I.attrs.lookup "check_for_mandatory_settings").isSome = true
      · rw [if_pos hc, modify_same hs _ (by simp only [Rec.step]; rw [← hv, hc]; rfl)]
        exact h
      · rw [if_neg hc]
        rcases hmi : I.missing with _ | key
        · rw [hmi] at hm
          dsimp only
          rw [modify_eq hs _ (fun s => { s with isSetup := true }) (by
            simp only [Rec.step]; rw [← hv, ← hm, show (I.attrs.lookup "check_for_mandatory_settings").isSome = false from Bool.eq_false_iff.2 hc]; rfl)]
          refine ⟨by simp [h.len], by simp [h.leni], ?_, ?_, h.cls0, h.refs, h.own⟩
          · intro j o' I' s' ho' hI' hs'
            obtain ⟨s0, hs0, rfl⟩ := getElem?_modify' _ _ _ _ _ hs'
            by_cases hij : i = j
            · subst hij
              rw [List.getElem?_set_self (List.getElem?_eq_some_iff.1 ho).1] at ho'
              simp only [Option.some.injEq] at ho'
              subst ho'
              obtain ⟨a, b, c, d⟩ := h.obj i o I' s0 ho hI' hs0
              rw [if_pos rfl]
              exact ⟨rfl, b, c, rfl⟩
            · rw [List.getElem?_set_ne hij] at ho'
              rw [if_neg hij]
              exact h.obj j o' I' s0 ho' hI' hs0
          · intro j I' s' key' hI' hs'
            obtain ⟨s0, hs0, rfl⟩ := getElem?_modify' _ _ _ _ _ hs'
            have := h.val j I' s0 key' hI' hs0
            split_ifs <;> exact this
        · rw [hmi] at hm
          rw [modify_same hs _ (by simp only [Rec.step]; rw [← hm]; simp)]
          exact h

theorem Rel.run {W : World} {S : List Rec} (h : Rel W S) (ops : List Op) (hp : ∀ op ∈ ops, op.Plain) : Rel (W.run ops) (ops.foldl specStep S) := by
  induction ops generalizing W S with
  | nil => exact h
  | cons op ops ih => exact ih (h.exec op (hp op List.mem_cons_self)) fun o ho => hp o (List.mem_cons_of_mem _ ho)

theorem Rel.read {W : World} {S : List Rec} (h : Rel W S) (i : Nat) (key : String) : W.read i key = (S[i]?).bind fun s => s.get key := by
  unfold World.read
  rcases ho : W.objs[i]? with _ | o
  · have : S[i]? = none := by
      rw [List.getElem?_eq_none_iff] at ho ⊢
      rw [← h.len]; exact ho
    rw [this]; rfl
  · obtain ⟨I, s, hI, hs, h1, h2, h3, h4⟩ := h.at ho
    rw [hs]
    simp only [Option.bind_some]
    rw [h1, hI]
    simp only [Option.bind_some]
    exact h.get hI hs h2 key

/-! ### The properties -/

/-- records of the objects after a history, in the world of independent objects -/
theorem rel_run (ops : List Op) (hp : ∀ op ∈ ops, op.Plain) : Rel (World.init.run ops) (ops.foldl specStep []) := rel_init.run ops hp

theorem run_append (W : World) (a b : List Op) : W.run (a ++ b) = (W.run a).run b := by
  induction a generalizing W with
  | nil => rfl
  | cons x a ih => exact ih _

/-- **C90 (partial).**  After every history of constructor calls, `set_param`, assignments, in-place changes and `setup` calls for any number of objects,
every setting of every object is what it would be if each object had its own record of values.  Missing: histories that hand a settings object or a
container of one object to another one, and in-place changes of `integration_opts`; the claim is false for them, see below. -/
theorem C90_settings_partial (ops : List Op) (hp : ∀ op ∈ ops, op.Plain) (i : Nat) (key : String) :
    (World.init.run ops).read i key = ((ops.foldl specStep [])[i]?).bind fun s => s.get key :=
  (rel_run ops hp).read i key

/-- **C90 (partial).**  A call for one object, or the construction of a new one, does not change any setting of another object. -/
theorem C90_independent_partial (ops : List Op) (hp : ∀ op ∈ ops, op.Plain) (op : Op) (hop : op.Plain) (i : Nat) (hne : op.target ≠ some i)
    (hi : i < (World.init.run ops).objs.length) (key : String) :
    ((World.init.run ops).exec op).1.read i key = (World.init.run ops).read i key := by
  have h := rel_run ops hp
  rw [(h.exec op hop).read, h.read]
  congr 1
  rw [h.len] at hi
  generalize ops.foldl specStep [] = S at hi ⊢
  have hmod : ∀ (j : Nat) (f : Rec → Rec), (some j : Option Nat) ≠ some i → (S.modify j f)[i]? = S[i]? := by
    intro j f hj
    rw [List.getElem?_modify]
    have : j ≠ i := fun e => hj (e ▸ rfl)
    simp [this]
  cases op with
  | create c a => exact List.getElem?_append_left hi
  | setParam j _ => exact hmod j _ hne
  | assign j _ _ => exact hmod j _ hne
  | share => exact hop.elim
  | replace => exact hop.elim
  | mutate j _ _ => exact hmod j _ hne
  | setup j => exact hmod j _ hne

/-- **C90 (partial).**  A new object has the documented settings with the documented defaults, and no others, whatever has been done with other
objects before. -/
theorem C90_defaults_partial (ops : List Op) (hp : ∀ op ∈ ops, op.Plain) (c : Cls) (arg : Option Nat) (key : String) :
    ((World.init.run ops).exec (.create c arg)).1.read (World.init.run ops).objs.length key = c.documented.lookup key := by
  have h := rel_run ops hp
  rw [(h.exec (.create c arg) trivial).read, h.len]
  simp only [specStep, List.getElem?_concat_length, Option.bind_some]
  have happ : ∀ (a b : List (String × DVal)), (match a.lookup key with | some v => some v | none => b.lookup key) = (a ++ b).lookup key := by
    intro a b
    induction a with
    | nil => rfl
    | cons e a ih =>
      rw [List.cons_append, lookup_cons_ite, lookup_cons_ite]
      split_ifs
      · rfl
      · exact ih
  refine (happ (Rec.new c).vals (Rec.new c).cls.otherDefaults).trans ?_
  congr 1
  cases c <;> rfl

/-- a keyword written by `set_param` -/
theorem params_get (kw : List (String × Lit)) (s : Rec) (key : String) (hk : s.has key = true) (hn : (kw.map Prod.fst).Nodup) :
    (kw.foldl Rec.param s).get key = match kw.lookup key with | some v => some v.deep | none => s.get key := by
  induction kw generalizing s with
  | nil => rfl
  | cons e kw ih =>
    obtain ⟨n, v⟩ := e
    simp only [List.map_cons, List.nodup_cons] at hn
    rw [List.foldl_cons, lookup_cons_ite]
    have hhas : (s.param (n, v)).has key = true := by
      unfold Rec.param
      split_ifs
      · simp only [Rec.has, Rec.get, Rec.set, lookup_dictSet] at hk ⊢
        split_ifs
        · simp
        · exact hk
      · exact hk
    rw [ih _ hhas hn.2]
    split_ifs with hkey
    · subst hkey
      have hnone : kw.lookup key = none := by
        rw [List.lookup_eq_none_iff]
        intro p hp
        simp only [bne_iff_ne, ne_eq, beq_eq_false_iff_ne]
        rintro rfl
        exact hn.1 (List.mem_map_of_mem hp)
      rw [hnone]
      simp only [Rec.param, hk, if_true, Rec.get, Rec.set, lookup_dictSet]
    · have : (s.param (n, v)).get key = s.get key := by
        unfold Rec.param
        split_ifs
        · simp only [Rec.get, Rec.set, lookup_dictSet]
          rw [if_neg hkey]
        · rfl
      rw [this]

/-- an unknown keyword -/
theorem params_unknown (kw : List (String × Lit)) (s : Rec) (hu : ∀ e ∈ kw, s.has e.1 = false) : kw.foldl Rec.param s = s := by
  induction kw with
  | nil => rfl
  | cons e kw ih =>
    rw [List.foldl_cons]
    have : s.param e = s := by
      unfold Rec.param
      rw [hu e List.mem_cons_self]
      rfl
    rw [this]
    exact ih fun e he => hu e (List.mem_cons_of_mem _ he)

/-- the record of an object -/
theorem Rel.get? {W : World} {S : List Rec} (h : Rel W S) {i : Nat} {o : Obj} (ho : W.objs[i]? = some o) :
    ∃ s, S[i]? = some s ∧ s.cls = o.cls ∧ s.isSetup = o.isSetup ∧ ∀ key, W.read i key = s.get key := by
  obtain ⟨I, s, hI, hs, h1, h2, h3, h4⟩ := h.at ho
  refine ⟨s, hs, h3, h4, fun key => ?_⟩
  rw [h.read, hs]; rfl

/-- **C90 (partial).**  What `set_param` does when it is allowed: no error, each known setting has the value given in the call, or the old one when it is
not mentioned; a keyword that is neither a setting nor a method has no effect (there is only a message). -/
theorem C90_set_param_partial (ops : List Op) (hp : ∀ op ∈ ops, op.Plain) (i : Nat) (o : Obj) (ho : (World.init.run ops).objs[i]? = some o)
    (kw : List (String × Lit)) (hn : (kw.map Prod.fst).Nodup) (hok : o.cls.guarded = false ∨ o.isSetup = false) (key : String) :
    ((World.init.run ops).exec (.setParam i kw)).2 = none ∧
    ((World.init.run ops).exec (.setParam i kw)).1.read i key =
      if ((World.init.run ops).read i key).isSome ∨ key ∈ o.cls.documentedMethods then
        match kw.lookup key with
        | some v => some v.deep
        | none => (World.init.run ops).read i key
      else none := by
  have h := rel_run ops hp
  obtain ⟨s, hs, hc, hset, hrd⟩ := h.get? ho
  have hg : (o.cls.guarded && o.isSetup) = false := by rcases hok with h | h <;> simp [h]
  refine ⟨by simp only [World.exec, ho]; rw [hg]; rfl, ?_⟩
  rw [(h.exec (.setParam i kw) trivial).read, hrd]
  have hstep : (specStep (ops.foldl specStep []) (.setParam i kw))[i]? = some (kw.foldl Rec.param s) := by
    simp only [specStep, Op.target, List.getElem?_modify, hs]
    simp only [if_true, Option.map_eq_map, Option.map_some, Rec.step, hc, hset, hg]
    rfl
  rw [hstep]
  simp only [Option.bind_some]
  have hhas : s.has key = true ↔ ((s.get key).isSome = true ∨ key ∈ o.cls.documentedMethods) := by
    have hm : o.cls.documentedMethods = o.cls.methods := by cases o.cls <;> rfl
    simp only [Rec.has, Bool.or_eq_true, List.contains_iff_mem, hc, hm]
  split_ifs with hk
  · exact params_get kw s key (hhas.2 hk) hn
  · have hno : s.has key = false := by
      rw [Bool.eq_false_iff]
      exact fun e => hk (hhas.1 e)
    clear hs hstep hhas hset hrd hn
    have : ∀ (kw : List (String × Lit)) (s : Rec), s.has key = false → (kw.foldl Rec.param s).get key = none := by
      intro kw
      induction kw with
      | nil =>
        intro s hs
        simp only [Rec.has, Bool.or_eq_false_iff] at hs
        simpa using hs.1
      | cons e kw ih =>
        intro s hs
        rw [List.foldl_cons]
        apply ih
        unfold Rec.param
        split_ifs with he
        · have hne : key ≠ e.1 := by rintro rfl; rw [hs] at he; cases he
          simp only [Rec.has, Rec.get, Rec.set, lookup_dictSet] at hs ⊢
          rw [if_neg hne]
          exact hs
        · exact hs
    exact this kw s hno

/-- **C90 (partial).**  `obj.settings.key = value` sets this setting and no other one, before and after `setup`. -/
theorem C90_assign_partial (ops : List Op) (hp : ∀ op ∈ ops, op.Plain) (i : Nat) (o : Obj) (ho : (World.init.run ops).objs[i]? = some o)
    (key : String) (v : Lit) (key' : String) :
    ((World.init.run ops).exec (.assign i key v)).1.read i key' = if key' = key then some v.deep else (World.init.run ops).read i key' := by
  have h := rel_run ops hp
  obtain ⟨s, hs, hc, hset, hrd⟩ := h.get? ho
  rw [(h.exec (.assign i key v) trivial).read, hrd]
  have hstep : (specStep (ops.foldl specStep []) (.assign i key v))[i]? = some (s.set key v.deep) := by
    simp only [specStep, Op.target, List.getElem?_modify, hs]
    rfl
  rw [hstep]
  simp only [Option.bind_some, Rec.get, Rec.set, lookup_dictSet]
  by_cases hk : key = key'
  · subst hk; simp
  · rw [if_neg (Ne.symm hk), if_neg (Ne.symm hk)]

/-- **C90 (partial).**  An operation that changes a container in place changes this setting of this object, and no other setting. -/
theorem C90_mutate_partial (ops : List Op) (hp : ∀ op ∈ ops, op.Plain) (i : Nat) (o : Obj) (ho : (World.init.run ops).objs[i]? = some o)
    (key : String) (hkey : key ≠ "integration_opts") (c : Cont) (hc : (World.init.run ops).read i key = some (.cont c)) (f : Cont → Cont) (key' : String) :
    ((World.init.run ops).exec (.mutate i key f)).1.read i key' = if key' = key then some (.cont (f c)) else (World.init.run ops).read i key' := by
  have h := rel_run ops hp
  obtain ⟨s, hs, hcl, hset, hrd⟩ := h.get? ho
  rw [(h.exec (.mutate i key f) hkey).read, hrd]
  rw [hrd] at hc
  have hstep : (specStep (ops.foldl specStep []) (.mutate i key f))[i]? = some (s.set key (.cont (f c))) := by
    simp only [specStep, Op.target, List.getElem?_modify, hs]
    simp only [if_true, Option.map_eq_map, Option.map_some, Rec.step, hc]
  rw [hstep]
  simp only [Option.bind_some, Rec.get, Rec.set, lookup_dictSet]
  by_cases hk : key = key'
  · subst hk; simp
  · rw [if_neg (Ne.symm hk), if_neg (Ne.symm hk)]

/-- the setting has a value other than `None` -/
def World.Given (W : World) (i : Nat) (key : String) : Prop := ∃ v, W.read i key = some v ∧ v ≠ .val .none

/-- **C90 (partial).**  `setup` gets past the settings exactly when `t_step` has a value, for MPC and MHE `n_horizon`, too, and the method that checks
this has not been overwritten.  Otherwise it raises, and nothing changes. -/
theorem C90_setup_partial (ops : List Op) (hp : ∀ op ∈ ops, op.Plain) (i : Nat) (o : Obj) (ho : (World.init.run ops).objs[i]? = some o) :
    (((World.init.run ops).exec (.setup i)).2 = none ↔
      (World.init.run ops).Given i "t_step" ∧ (o.cls = .mpc ∨ o.cls = .mhe → (World.init.run ops).Given i "n_horizon") ∧
      (World.init.run ops).read i "check_for_mandatory_settings" = none) ∧
    (((World.init.run ops).exec (.setup i)).2 ≠ none → ((World.init.run ops).exec (.setup i)).1 = World.init.run ops) := by
  have h := rel_run ops hp
  generalize World.init.run ops = W at *
  generalize ops.foldl specStep [] = S at *
  obtain ⟨I, s, hI, hs, h1, h2, h3, h4⟩ := h.at ho
  have hrd : ∀ key, W.read i key = s.get key := fun key => by rw [h.read, hs]; rfl
  have hm := h.missing hI hs h2
  have hchk : (I.attrs.lookup "check_for_mandatory_settings").isSome = (W.read i "check_for_mandatory_settings").isSome := by
    rw [hrd, Rec.get, ← h.val i I s _ hI hs]
    rcases I.attrs.lookup "check_for_mandatory_settings" with _ | v
    · cases hcl : s.cls <;> rfl
    · rfl
  have hgiven : ∀ key, W.Given i key ↔ ¬ (s.get key = none ∨ s.get key = some (.val .none)) := by
    intro key
    unfold World.Given
    rw [hrd]
    rcases s.get key with _ | v <;> simp
  have hmiss : s.missing = false ↔ W.Given i "t_step" ∧ (o.cls = .mpc ∨ o.cls = .mhe → W.Given i "n_horizon") := by
    rw [hgiven, hgiven, Bool.eq_false_iff, Rec.missing, h3]
    cases o.cls <;> simp [Cls.mandatory]
  simp only [World.exec, ho, h1, hI]
  rw [← and_assoc, ← hmiss, ← hm]
  by_cases hc : (I.attrs.lookup "check_for_mandatory_settings").isSome = true
  · rw [if_pos hc]
    refine ⟨⟨fun e => (by cases e), fun e => ?_⟩, fun _ => rfl⟩
    rw [hchk, e.2] at hc
    cases hc
  · rw [if_neg hc]
    have hnone : W.read i "check_for_mandatory_settings" = none := by
      rw [hchk] at hc
      exact Option.not_isSome_iff_eq_none.1 hc
    rcases I.missing with _ | k
    · exact ⟨⟨fun _ => ⟨rfl, hnone⟩, fun _ => rfl⟩, fun e => absurd rfl e⟩
    · exact ⟨⟨fun e => (by cases e), fun e => (by cases e.1)⟩, fun _ => rfl⟩

/-- classes and flags persist -/
theorem persist (W : World) (op : Op) (i : Nat) (o : Obj) (ho : W.objs[i]? = some o) :
    ∃ o', (W.exec op).1.objs[i]? = some o' ∧ o'.cls = o.cls ∧ (o.isSetup = true → o'.isSetup = true) := by
  have hi := (List.getElem?_eq_some_iff.1 ho).1
  have halloc : ∀ (W : World) (v : Lit), (W.alloc v).1.objs = W.objs := by intro W v; cases v <;> rfl
  have hset : ∀ (W : World) (j : Nat) (o1 o2 : Obj), W.objs[i]? = some o → W.objs[j]? = some o1 → o2.cls = o1.cls →
      (o1.isSetup = true → o2.isSetup = true) →
      ∃ o', (W.objs.set j o2)[i]? = some o' ∧ o'.cls = o.cls ∧ (o.isSetup = true → o'.isSetup = true) := by
    intro W j o1 o2 h h1 h2 h3
    by_cases hj : j = i
    · subst hj
      rw [h] at h1
      cases h1
      exact ⟨o2, List.getElem?_set_self (List.getElem?_eq_some_iff.1 h).1, h2, h3⟩
    · exact ⟨o, by rw [List.getElem?_set_ne hj]; exact h, rfl, id⟩
  cases op with
  | create c a =>
    have : (W.newInst c).objs = W.objs := by
      obtain ⟨cs, new, h1, h2, _⟩ := fields_fold c.fields W []
      simp only [World.newInst]
      rw [h1]
    refine ⟨o, ?_, rfl, id⟩
    simp only [World.exec, this]
    rw [List.getElem?_append_left hi]
    exact ho
  | setParam j kw =>
    simp only [World.exec]
    rcases W.objs[j]? with _ | oj
    · exact ⟨o, ho, rfl, id⟩
    · dsimp only
      split_ifs
      · exact ⟨o, ho, rfl, id⟩
      · have : ∀ (kw : List (String × Lit)) (W : World), (kw.foldl (fun W e => W.param oj.inst e) W).objs = W.objs := by
          intro kw
          induction kw with
          | nil => intro W; rfl
          | cons e kw ih =>
            intro W
            rw [List.foldl_cons, ih]
            unfold World.param
            split
            · split_ifs
              · exact halloc _ _
              · exact halloc _ _
            · rfl
        exact ⟨o, by rw [this]; exact ho, rfl, id⟩
  | assign j key v =>
    simp only [World.exec]
    rcases W.objs[j]? with _ | oj
    · exact ⟨o, ho, rfl, id⟩
    · exact ⟨o, by dsimp only [World.setAttr]; rw [halloc]; exact ho, rfl, id⟩
  | share j key k key' =>
    simp only [World.exec]
    split
    · split
      · exact ⟨o, ho, rfl, id⟩
      · exact ⟨o, ho, rfl, id⟩
    · exact ⟨o, ho, rfl, id⟩
  | replace j k =>
    simp only [World.exec]
    split
    · rename_i o1 o2 h1 h2
      split_ifs
      · exact ⟨o, ho, rfl, id⟩
      · exact hset W j o1 _ ho h1 rfl id
    · exact ⟨o, ho, rfl, id⟩
  | mutate j key f =>
    simp only [World.exec]
    rcases W.objs[j]? with _ | oj
    · exact ⟨o, ho, rfl, id⟩
    · dsimp only
      split <;> exact ⟨o, ho, rfl, id⟩
  | setup j =>
    simp only [World.exec]
    rcases h1 : W.objs[j]? with _ | oj
    · exact ⟨o, ho, rfl, id⟩
    · dsimp only
      rcases W.insts[oj.inst]? with _ | I
      · exact ⟨o, ho, rfl, id⟩
      · dsimp only
        split_ifs
        · exact ⟨o, ho, rfl, id⟩
        · split
          · exact ⟨o, ho, rfl, id⟩
          · exact hset W j oj _ ho h1 rfl fun _ => rfl

theorem persist_run (ops : List Op) (W : World) (i : Nat) (o : Obj) (ho : W.objs[i]? = some o) :
    ∃ o', (W.run ops).objs[i]? = some o' ∧ o'.cls = o.cls ∧ (o.isSetup = true → o'.isSetup = true) := by
  induction ops generalizing W o with
  | nil => exact ⟨o, ho, rfl, id⟩
  | cons op ops ih =>
    obtain ⟨o1, h1, h2, h3⟩ := persist W op i o ho
    obtain ⟨o2, h4, h5, h6⟩ := ih _ o1 h1
    exact ⟨o2, h4, h5.trans h2, fun e => h6 (h3 e)⟩

/-- **C90.**  Once `setup` has succeeded for an MPC controller, an MHE or a simulator, then after any further history - including shared settings
objects - `set_param` raises and changes nothing.  (For `LQR` there is no such check.) -/
theorem C90_frozen (W : World) (i : Nat) (o : Obj) (I : Inst) (ho : W.objs[i]? = some o) (hI : W.insts[o.inst]? = some I) (hc : o.cls ≠ .lqr)
    (hok : (W.exec (.setup i)).2 = none) (ops : List Op) (kw : List (String × Lit)) :
    ((W.exec (.setup i)).1.run ops).exec (.setParam i kw) = (((W.exec (.setup i)).1.run ops), some "AssertionError") := by
  have hset : (W.exec (.setup i)).1.objs[i]? = some { o with isSetup := true } := by
    simp only [World.exec, ho, hI] at hok ⊢
    by_cases h : (I.attrs.lookup "check_for_mandatory_settings").isSome = true
    · rw [if_pos h] at hok; cases hok
    · rw [if_neg h] at hok ⊢
      rcases hmi : I.missing with _ | k <;> rw [hmi] at hok
      · exact List.getElem?_set_self (List.getElem?_eq_some_iff.1 ho).1
      · cases hok
  obtain ⟨o', h1, h2, h3⟩ := persist_run ops _ i _ hset
  have hg : o'.cls.guarded = true := by
    rw [h2]
    show o.cls.guarded = true
    revert hc
    cases o.cls <;> simp [Cls.guarded]
  have := h3 rfl
  generalize (W.exec (.setup i)).1.run ops = V at h1 ⊢
  simp only [World.exec, h1, hg, this]
  rfl

/-- **C90.**  `mpc.settings = other.settings` and `simulator.settings = other.settings` have no effect; there is only a warning. -/
theorem C90_replace_ignored (W : World) (i j : Nat) (o o' : Obj) (ho : W.objs[i]? = some o) (ho' : W.objs[j]? = some o')
    (hc : o.cls = .mpc ∨ o.cls = .simD ∨ o.cls = .simC) : W.exec (.replace i j) = (W, some "Warning") := by
  simp only [World.exec, ho, ho']
  rcases hc with h | h | h <;> rw [h] <;> rfl

/-! ### Where the claim fails -/

/-- add an entry to a dictionary -/
def addOpt (k : String) (v : PV) : Cont → Cont
  | .dict d => .dict (dictSet d k v)
  | c => c

/-- **C90 fails.**  Two simulators of continuous-time models; an option is added to the dictionary `integration_opts` of the first.  The second one, and
one that is created afterwards, have it, too. -/
theorem C90_fails_integration_opts :
    let ops := [.create .simC none, .create .simC none, .mutate 0 "integration_opts" (addOpt "max_num_steps" (.int 5)), .create .simC none]
    (World.init.run ops).read 1 "integration_opts" = some (.cont (.dict [("max_num_steps", .int 5)])) ∧
    (World.init.run ops).read 2 "integration_opts" = some (.cont (.dict [("max_num_steps", .int 5)])) ∧
    ((ops.foldl specStep [])[1]?).bind (·.get "integration_opts") = some (.cont (.dict [])) := by
  decide +kernel

/-- The same option for `nlpsol_opts` of two MPC controllers stays with the first. -/
example :
    let ops := [.create .mpc none, .create .mpc none, .mutate 0 "nlpsol_opts" suppress]
    (∀ op ∈ ops, op.Plain) ∧ (World.init.run ops).read 0 "nlpsol_opts" =
      some (.cont (.dict [("ipopt.print_level", .int 0), ("ipopt.sb", .str "yes"), ("print_time", .int 0)])) ∧
    (World.init.run ops).read 1 "nlpsol_opts" = some (.cont (.dict [])) := by
  refine ⟨?_, by decide +kernel, by decide +kernel⟩
  intro op hop
  simp only [List.mem_cons, List.not_mem_nil, or_false] at hop
  rcases hop with rfl | rfl | rfl
  · trivial
  · trivial
  · show ("nlpsol_opts" : String) ≠ "integration_opts"
    decide

/-- **C90 fails.**  The constructor of `MPC` has an argument `settings` and does not use it: the new controller has the defaults. -/
theorem C90_fails_mpc_argument (W : World) (arg : Option Nat) : W.exec (.create .mpc arg) = W.exec (.create .mpc none) := rfl

/-- After `MPC(model, settings = a)`, where `a` has a horizon of 20, `n_horizon` is not set. -/
theorem C90_fails_mpc_argument_ex :
    (World.init.run [.create .mpc none, .setParam 0 [("n_horizon", .val (.int 20))], .create .mpc (some 0)]).read 1 "n_horizon" = some (.val .none) := by
  decide +kernel

/-- **C90 fails.**  `mhe2.settings = mhe1.settings` makes both use the same object: a later `set_param` of the first changes the second. -/
theorem C90_fails_shared_object :
    let ops := [.create .mhe none, .create .mhe none, .replace 1 0, .setParam 0 [("n_horizon", .val (.int 7))]]
    (World.init.run ops).read 1 "n_horizon" = some (.val (.int 7)) := by
  decide +kernel

/-- **C90 fails.**  … and `set_param` of the first changes the settings of the second although the second has been set up. -/
theorem C90_fails_frozen_shared :
    let ops := [.create .mhe none, .create .mhe none, .replace 1 0, .setParam 0 [("n_horizon", .val (.int 7)), ("t_step", .val (.int 1))], .setup 1]
    (((World.init.run ops).objs[1]?).map (·.isSetup) = some true) ∧
    (((World.init.run ops).exec (.setParam 0 [("n_horizon", .val (.int 9))])).1.read 1 "n_horizon" = some (.val (.int 9))) := by
  decide +kernel

/-- **C90 fails.**  `a.settings.nlpsol_opts = b.settings.nlpsol_opts` makes both controllers use one dictionary. -/
theorem C90_fails_shared_dict :
    let ops := [.create .mpc none, .create .mpc none, .share 0 "nlpsol_opts" 1 "nlpsol_opts", .mutate 0 "nlpsol_opts" (linearSolver "MA27")]
    (World.init.run ops).read 1 "nlpsol_opts" = some (.cont (.dict [("ipopt.linear_solver", .str "MA27")])) := by
  decide +kernel

/-- **C90 fails.**  After `setup`, `set_param` is refused, but an assignment to the settings object is not. -/
theorem C90_fails_frozen_assign :
    let ops := [.create .mpc none, .setParam 0 [("n_horizon", .val (.int 20)), ("t_step", .val (.int 1))], .setup 0]
    ((World.init.run ops).exec (.setParam 0 [("n_horizon", .val (.int 5))])).2 = some "AssertionError" ∧
    ((World.init.run ops).exec (.assign 0 "n_horizon" (.val (.int 5)))).2 = none ∧
    ((World.init.run ops).exec (.assign 0 "n_horizon" (.val (.int 5)))).1.read 0 "n_horizon" = some (.val (.int 5)) := by
  decide +kernel

/-- **C90 fails.**  A misspelled name: `set_param` reports it and has no effect, the assignment creates a new attribute without a message. -/
theorem C90_fails_misspelled :
    ((World.init.run [.create .mpc none, .setParam 0 [("n_horizn", .val (.int 20))]]).read 0 "n_horizn" = none) ∧
    ((World.init.run [.create .mpc none, .assign 0 "n_horizn" (.val (.int 20))]).read 0 "n_horizn" = some (.val (.int 20))) := by
  decide +kernel

/-- **C90 fails.**  `set_param` accepts names of methods: then `setup` cannot call the check. -/
theorem C90_fails_method :
    ((World.init.run [.create .mpc none, .setParam 0 [("t_step", .val (.int 1)), ("n_horizon", .val (.int 20)),
      ("check_for_mandatory_settings", .val (.bool true))]]).exec (.setup 0)).2 = some "TypeError" := by
  decide +kernel

/-- A history with all five classes that meets the hypotheses of the theorems above. -/
def exOps : List Op :=
  [.create .mpc none, .create .mhe none, .create .simC none, .create .lqr none, .create .simD none,
   .setParam 0 [("n_horizon", .val (.int 20)), ("t_step", .val (.flt "0.1")), ("unknown", .val .none), ("nlpsol_opts", .new (.dict [("ipopt.tol", .flt "1e-8")]))],
   .mutate 0 "nlpsol_opts" (linearSolver "MA27"), .setParam 2 [("t_step", .val (.flt "0.1")), ("integration_opts", .new (.dict []))],
   .assign 1 "n_horizon" (.val (.int 10)), .setup 0, .setup 1, .setup 2, .setParam 0 [("n_horizon", .val (.int 3))], .mutate 1 "nlpsol_opts" suppress]

theorem exOps_plain : ∀ op ∈ exOps, op.Plain := by
  intro op hop
  simp only [exOps, List.mem_cons, List.not_mem_nil, or_false] at hop
  rcases hop with rfl | rfl | rfl | rfl | rfl | rfl | rfl | rfl | rfl | rfl | rfl | rfl | rfl | rfl
  all_goals first | trivial | (show ("nlpsol_opts" : String) ≠ "integration_opts"; decide)

example : (World.init.run exOps).read 0 "n_horizon" = some (.val (.int 20)) ∧
    (World.init.run exOps).read 0 "nlpsol_opts" = some (.cont (.dict [("ipopt.tol", .flt "1e-8"), ("ipopt.linear_solver", .str "MA27")])) ∧
    (World.init.run exOps).read 1 "nlpsol_opts" =
      some (.cont (.dict [("ipopt.print_level", .int 0), ("ipopt.sb", .str "yes"), ("print_time", .int 0)])) ∧
    (World.init.run exOps).read 0 "unknown" = none ∧ (World.init.run exOps).objs.map (·.isSetup) = [true, false, true, false, false] := by
  decide +kernel

end DoMpc.Settings
