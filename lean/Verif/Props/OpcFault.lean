import Verif.Model.OpcFault
import Verif.Props.OpcLoop

/-!
# C108: the OPC UA interface when connections fail
-/
set_option linter.unusedSectionVars false
namespace DoMpc.Opc
variable {ι V : Type} [DecidableEq ι] {σ : ι → Type}

/-! ### One step -/

theorem readLoopW_ok {w : Nat → Wire} {S : Server V} (tags : List String) (i : Nat) (vals : List (List V))
    (h : readLoopW w S i tags = .ok vals) : tags.mapM (readData S) = .ok vals ∧ ∀ j < tags.length, w (i + j) = .done := by
  induction tags generalizing i vals with
  | nil => exact ⟨h, by simp⟩
  | cons t ts ih =>
    cases hv : readDataW (w i) S t with
    | error e => simp [readLoopW, hv, bind, Except.bind] at h
    | ok v =>
      cases hvs : readLoopW w S (i + 1) ts with
      | error e => simp [readLoopW, hv, hvs, bind, Except.bind] at h
      | ok vs =>
        simp [readLoopW, hv, hvs, bind, Except.bind, pure, Except.pure] at h
        subst h
        obtain ⟨h1, h2⟩ := ih _ _ hvs
        have hw : w i = .done := by
          cases hw : w i <;> simp [readDataW, hw] at hv ⊢
        rw [hw] at hv
        refine ⟨by simp [List.mapM_cons, show readData S t = .ok v from hv, h1, bind, Except.bind, pure, Except.pure], ?_⟩
        intro j hj
        cases j with
        | zero => simpa using hw
        | succ j => rw [show i + (j + 1) = i + 1 + j by omega]; exact h2 j (by simpa using hj)

theorem readLoopW_done {w : Nat → Wire} {S : Server V} (tags : List String) (i : Nat) (h : ∀ j < tags.length, w (i + j) = .done) :
    readLoopW w S i tags = tags.mapM (readData S) := by
  induction tags generalizing i with
  | nil => rfl
  | cons t ts ih =>
    have h0 : w i = .done := by simpa using h 0 (by simp)
    simp only [readLoopW, h0, readDataW, List.mapM_cons]
    rw [ih (i + 1) (fun j hj => by have := h (j + 1) (by simpa using hj); rwa [show i + 1 + j = i + (j + 1) by omega])]

/-- Whatever happens to the requests, the first `k` values have been written and nothing else has changed. -/
theorem writeLoopW_spec {w : Nat → Wire} (l : List (String × V)) (i : Nat) (S : Server V) :
    ∃ k ≤ l.length, (writeLoopW w i l S).1 = (writeLoop (l.take k) S).1 ∧ (writeLoop (l.take k) S).2 = none ∧
      ((writeLoopW w i l S).2 = none → k = l.length ∧ ∀ j < l.length, w (i + j) = .done) := by
  induction l generalizing i S with
  | nil => exact ⟨0, le_rfl, rfl, rfl, fun _ => ⟨rfl, by simp⟩⟩
  | cons a l ih =>
    obtain ⟨t, v⟩ := a
    cases hw : w i with
    | done =>
      cases hd : writeData S t [v] with
      | error e => exact ⟨0, by simp, by simp [writeLoopW, writeDataW, hw, hd, writeLoop], rfl, by simp [writeLoopW, writeDataW, hw, hd]⟩
      | ok S' =>
        obtain ⟨k, hk, h1, h2, h3⟩ := ih (i + 1) S'
        refine ⟨k + 1, by simpa using hk, ?_, ?_, ?_⟩
        · simpa [writeLoopW, writeDataW, hw, hd, writeLoop] using h1
        · simpa [writeLoop, hd] using h2
        · intro h
          obtain ⟨ha, hb⟩ := h3 (by simpa [writeLoopW, writeDataW, hw, hd] using h)
          refine ⟨by simp [ha], fun j hj => ?_⟩
          cases j with
          | zero => simpa using hw
          | succ j => rw [show i + (j + 1) = i + 1 + j by omega]; exact hb j (by simpa using hj)
    | refused => exact ⟨0, by simp, by simp [writeLoopW, writeDataW, hw, writeLoop], rfl, by simp [writeLoopW, writeDataW, hw]⟩
    | broken e => exact ⟨0, by simp, by simp [writeLoopW, writeDataW, hw, writeLoop], rfl, by simp [writeLoopW, writeDataW, hw]⟩
    | lost e =>
      cases hd : writeData S t [v] with
      | error e' => exact ⟨0, by simp, by simp [writeLoopW, writeDataW, hw, hd, writeLoop], rfl, by simp [writeLoopW, writeDataW, hw, hd]⟩
      | ok S' =>
        exact ⟨1, by simp, by simp [writeLoopW, writeDataW, hw, hd, writeLoop], by simp [writeLoop, hd], by simp [writeLoopW, writeDataW, hw, hd]⟩

theorem writeLoopW_done {w : Nat → Wire} (l : List (String × V)) (i : Nat) (S : Server V) (h : ∀ j < l.length, w (i + j) = .done) :
    writeLoopW w i l S = writeLoop l S := by
  induction l generalizing i S with
  | nil => rfl
  | cons a l ih =>
    obtain ⟨t, v⟩ := a
    have h0 : w i = .done := by simpa using h 0 (by simp)
    simp only [writeLoopW, h0, writeDataW, writeLoop]
    cases hd : writeData S t [v] with
    | error e => rfl
    | ok S' =>
      exact ih (i + 1) S' (fun j hj => by have := h (j + 1) (by simpa using hj); rwa [show i + 1 + j = i + (j + 1) by omega])

theorem mapM_read {S : Server V} (tags : List String) (vals : List (List V)) (h : tags.mapM (readData S) = .ok vals) : tags.map S = vals.map some := by
  induction tags generalizing vals with
  | nil =>
    simp [pure, Except.pure] at h
    subst h
    rfl
  | cons t ts ih =>
    cases hv : readData S t with
    | error e => simp [List.mapM_cons, hv, bind, Except.bind] at h
    | ok v =>
      cases hvs : ts.mapM (readData S) with
      | error e => simp [List.mapM_cons, hv, hvs, bind, Except.bind] at h
      | ok vs =>
        simp [List.mapM_cons, hv, hvs, bind, Except.bind, pure, Except.pure] at h
        subst h
        rw [List.map_cons, List.map_cons, ih _ hvs]
        congr 1
        unfold readData at hv
        split at hv
        · simp at hv
        · rename_i l hl
          rw [hl, Except.ok.inj hv]

theorem writeLoop_took (tags : List String) (out : List V) (S : Server V) (hl : out.length = tags.length) (hn : tags.Nodup)
    (h : (writeLoop (tags.zip out) S).2 = none) :
    (∀ i (hi : i < tags.length), (writeLoop (tags.zip out) S).1 tags[i] = some [out[i]'(hl ▸ hi)]) ∧
    ∀ t, t ∉ tags → (writeLoop (tags.zip out) S).1 t = S t := by
  induction tags generalizing out S with
  | nil => exact ⟨fun i hi => absurd hi (by simp), fun t _ => by simp [writeLoop]⟩
  | cons t ts ih =>
    cases out with
    | nil => simp at hl
    | cons v vs =>
      rw [List.zip_cons_cons] at h ⊢
      cases hd : writeData S t [v] with
      | error e => simp [writeLoop, hd] at h
      | ok S' =>
        have hS' : S' = Function.update S t (some [v]) := by
          unfold writeData at hd
          split at hd
          · simp at hd
          · exact (Except.ok.inj hd).symm
        simp only [writeLoop, hd] at h ⊢
        obtain ⟨h1, h2⟩ := ih vs S' (by simpa using hl) (List.nodup_cons.1 hn).2 h
        refine ⟨fun i hi => ?_, fun t' ht' => ?_⟩
        · cases i with
          | zero =>
            simp only [List.getElem_cons_zero]
            rw [h2 t (List.nodup_cons.1 hn).1, hS', Function.update_self]
          | succ i => simpa using h1 i (by simpa using hi)
        · simp only [List.mem_cons, not_or] at ht'
          rw [h2 t' ht'.2, hS', Function.update_of_ne ht'.1]

/-- **C108** (one step).  Whatever happens to the requests of a step of a client: either the do-mpc object is not called, nothing has changed and an exception
is raised; or the object is called exactly once, with the values its tags have on the server.  Then either the object raises (the exception is passed on) or its result does not
fit the tags (an exception is raised), and the server is unchanged; or the tags hold the first `k` components of the result and otherwise what they held before, and if no
exception is raised `k` is the number of tags. -/
theorem C108_step {τ : Type} (c : RtClient V τ) (hn : c.tagout.Nodup) (w : Nat → Wire) (S : Server V) (s : τ) :
    let r := c.stepW w S s
    (r.input = none ∧ r.output = none ∧ r.obj = s ∧ r.srv = S ∧ r.err ≠ none) ∨
    ∃ vals : List (List V), c.tagin.map S = vals.map some ∧ r.input = some vals.flatten ∧ r.obj = (c.makeStep s vals.flatten).1 ∧
      ((∃ e, (c.makeStep s vals.flatten).2 = .error e ∧ r.err = some e ∧ r.srv = S ∧ r.output = none) ∨
       ∃ out, (c.makeStep s vals.flatten).2 = .ok out ∧
        ((out.length ≠ c.tagout.length ∧ r.srv = S ∧ r.err ≠ none ∧ r.output = none) ∨
         ∃ hl : out.length = c.tagout.length, r.output = some out ∧ ∃ (k : Nat) (hk : k ≤ c.tagout.length),
          (∀ i (hi : i < k), r.srv (c.tagout[i]'(by omega)) = some [out[i]'(by omega)]) ∧
          (∀ t, t ∉ c.tagout.take k → r.srv t = S t) ∧ (r.err = none → k = c.tagout.length))) := by
  intro r
  show _ ∨ _
  simp only [r]
  unfold RtClient.stepW
  split
  · left; simp
  · rename_i vals hvals
    obtain ⟨hm, -⟩ := readLoopW_ok _ _ _ hvals
    split
    · right
      split
      · rename_i s' e he
        exact ⟨vals, mapM_read _ _ hm, rfl, by rw [he], Or.inl ⟨e, by rw [he], rfl, rfl, rfl⟩⟩
      · rename_i s' out he
        refine ⟨vals, mapM_read _ _ hm, ?_, ?_, Or.inr ⟨out, by rw [he], ?_⟩⟩
        · split <;> rfl
        · split <;> rw [he]
        · split
          · rename_i hl; exact Or.inl ⟨hl, rfl, by simp, rfl⟩
          · rename_i hl
            have hl : out.length = c.tagout.length := by simpa using hl
            right
            obtain ⟨k, hk, h1, h2, h3⟩ := writeLoopW_spec (w := w) (c.tagout.zip out) c.tagin.length S
            have hlz : (c.tagout.zip out).length = c.tagout.length := by simp [hl]
            rw [show (c.tagout.zip out).take k = (c.tagout.take k).zip (out.take k) by simp [List.zip, List.take_zipWith]] at h1 h2
            obtain ⟨h4, h5⟩ := writeLoop_took (c.tagout.take k) (out.take k) S (by simp [hl]) (hn.sublist (List.take_sublist _ _)) h2
            refine ⟨hl, rfl, k, by omega, ?_, ?_, ?_⟩
            · intro i hi
              have := h4 i (by simp; omega)
              dsimp only
              rw [h1]
              simpa using this
            · intro t ht
              dsimp only
              rw [h1]
              exact h5 t ht
            · intro he'
              rw [(h3 he').1, hlz]
    · left; simp

/-- **C108** (nothing is hidden).  A step that raises nothing was not disturbed: each of its requests was answered, and it has had the effect of an undisturbed step. -/
theorem C108_silent {τ : Type} (c : RtClient V τ) (w : Nat → Wire) (S : Server V) (s : τ) (h : (c.stepW w S s).err = none) :
    (∀ i < c.tagin.length + c.tagout.length, w i = .done) ∧ ((c.stepW w S s).srv, (c.stepW w S s).obj, (c.stepW w S s).err) = c.step S s := by
  unfold RtClient.stepW at h ⊢
  split at h
  · simp at h
  · rename_i vals hvals
    obtain ⟨hm, hr⟩ := readLoopW_ok _ _ _ hvals
    simp only [hvals]
    split at h
    · rename_i hp
      have hread : readFromTags c.tagin S = .ok vals.flatten := by
        unfold readFromTags
        rw [hm]
        show (if _ then _ else _) = _
        rw [if_pos hp]
        rfl
      rw [if_pos hp]
      unfold RtClient.step
      rw [hread]
      dsimp only
      split at h
      · simp at h
      · rename_i s' out he
        rw [he]
        dsimp only
        split at h
        · simp at h
        · rename_i hl
          rw [if_neg hl]
          have hl : out.length = c.tagout.length := by simpa using hl
          obtain ⟨k, hk, h1, h2, h3⟩ := writeLoopW_spec (w := w) (c.tagout.zip out) c.tagin.length S
          have hlz : (c.tagout.zip out).length = c.tagout.length := by simp [hl]
          obtain ⟨-, hd⟩ := h3 h
          rw [hlz] at hd
          refine ⟨fun i hi => ?_, ?_⟩
          · by_cases hi' : i < c.tagin.length
            · simpa using hr i hi'
            · have := hd (i - c.tagin.length) (by omega)
              rwa [show c.tagin.length + (i - c.tagin.length) = i by omega] at this
          · rw [writeLoopW_done _ _ _ (by rw [hlz]; exact hd)]
            simp [writeToTags, hl]
    · simp at h

/-- **C108** (undisturbed requests).  If every request is answered, the step is the one of C88. -/
theorem C108_undisturbed {τ : Type} (c : RtClient V τ) (w : Nat → Wire) (S : Server V) (s : τ) (h : ∀ i < c.tagin.length + c.tagout.length, w i = .done) :
    ((c.stepW w S s).srv, (c.stepW w S s).obj, (c.stepW w S s).err) = c.step S s := by
  have hr : readLoopW w S 0 c.tagin = c.tagin.mapM (readData S) := readLoopW_done _ _ (fun j hj => by rw [Nat.zero_add]; exact h j (by omega))
  unfold RtClient.stepW RtClient.step readFromTags
  rw [hr]
  cases hm : c.tagin.mapM (readData S) with
  | error e => rfl
  | ok vals =>
    dsimp only [bind, Except.bind]
    by_cases hp : vals.Pairwise (fun a b => a.length = b.length)
    · rw [if_pos hp, if_pos hp]
      dsimp only [pure, Except.pure]
      rcases he : c.makeStep s vals.flatten with ⟨s', r⟩
      cases r with
      | error e => rfl
      | ok out =>
        dsimp only
        by_cases hl : out.length = c.tagout.length
        · rw [if_neg (by simpa using hl)]
          rw [writeLoopW_done _ _ _ (fun j hj => h _ (by simp [hl] at hj; omega))]
          simp [writeToTags, hl]
        · rw [if_pos hl]
          simp [writeToTags, hl]
    · rw [if_neg hp, if_neg hp]

/-! ### Histories -/

/-- The beginning: the tags of client `c` hold the vector `v0 c`; nobody is connected. -/
def FNet.start (S : Server V) (objs : ∀ c, σ c) (v0 : ι → List V) : FNet ι V σ :=
  { srv := S, obj := objs, linked := fun _ => false, errs := [], ins := fun _ => [], outs := fun c => [v0 c] }

/-- The state of a do-mpc object after it was called with these inputs. -/
def calledWith {τ : Type} (f : τ → List V → τ × Except String (List V)) (s : τ) : List (List V) → τ
  | [] => s
  | i :: is => calledWith f (f s i).1 is

/-- The vectors of `n` components that a do-mpc object returned when it was called with these inputs. -/
def returnedBy {τ : Type} (f : τ → List V → τ × Except String (List V)) (n : Nat) (s : τ) : List (List V) → List (List V)
  | [] => []
  | i :: is =>
    (match (f s i).2 with
      | .ok out => if out.length = n then [out] else []
      | .error _ => []) ++ returnedBy f n (f s i).1 is

theorem calledWith_snoc {τ : Type} (f : τ → List V → τ × Except String (List V)) (s : τ) (l : List (List V)) (i : List V) :
    calledWith f s (l ++ [i]) = (f (calledWith f s l) i).1 := by
  induction l generalizing s with
  | nil => rfl
  | cons a l ih => exact ih _

theorem returnedBy_snoc {τ : Type} (f : τ → List V → τ × Except String (List V)) (n : Nat) (s : τ) (l : List (List V)) (i : List V) :
    returnedBy f n s (l ++ [i]) = returnedBy f n s l ++
      (match (f (calledWith f s l) i).2 with
        | .ok out => if out.length = n then [out] else []
        | .error _ => []) := by
  induction l generalizing s with
  | nil => simp [returnedBy, calledWith]
  | cons a l ih => simp only [List.cons_append, returnedBy, calledWith, ih, List.append_assoc]

/-- Each tag of client `c` holds the component of one of the vectors the client has begun to write, not older than number `b`. -/
def TagsFrom (C : ∀ c, RtClient V (σ c)) (N : FNet ι V σ) (c : ι) (b : Nat) : Prop :=
  ∀ i (hi : i < (C c).tagout.length), ∃ (x : V) (r : Nat) (vec : List V), b ≤ r ∧ N.srv (C c).tagout[i] = some [x] ∧ (N.outs c)[r]? = some vec ∧ vec[i]? = some x

/-- The invariant. -/
structure FOk (C : ∀ c, RtClient V (σ c)) (src : ι → ι) (objs : ∀ c, σ c) (v0 : ι → List V) (N : FNet ι V σ) : Prop where
  obj : ∀ c, N.obj c = calledWith (C c).makeStep (objs c) (N.ins c)
  outs : ∀ c, N.outs c = v0 c :: returnedBy (C c).makeStep (C c).tagout.length (objs c) (N.ins c)
  tags : ∀ c, TagsFrom C N c 0
  ins : ∀ c, ∀ input ∈ N.ins c, input.length = (C c).tagin.length ∧ ∀ i < input.length, ∃ vec ∈ N.outs (src c), vec[i]? = input[i]?

theorem tagsFrom_act (C : ∀ c, RtClient V (σ c)) (src : ι → ι) (hw : Wired C src) (N : FNet ι V σ) (e : FEv ι) (c : ι) (b : Nat)
    (hb : b ≤ (N.outs c).length) (h : TagsFrom C N c b) : TagsFrom C (N.act C e) c b ∧ b ≤ ((N.act C e).outs c).length := by
  cases e with
  | connect c' o => exact ⟨h, hb⟩
  | disconnect c' o => exact ⟨h, hb⟩
  | step c' w =>
    have hs := C108_step (C c') (hw.nodup c') (if N.linked c' then w else fun _ => .broken "ConnectionError") N.srv (N.obj c')
    simp only at hs
    show (∀ i (hi : i < (C c).tagout.length), ∃ (x : V) (r : Nat) (vec : List V), b ≤ r ∧ ((C c').stepW _ N.srv (N.obj c')).srv (C c).tagout[i] = some [x] ∧
      (Function.update N.outs c' (N.outs c' ++ ((C c').stepW _ N.srv (N.obj c')).output.toList) c)[r]? = some vec ∧ vec[i]? = some x) ∧
      b ≤ (Function.update N.outs c' (N.outs c' ++ ((C c').stepW _ N.srv (N.obj c')).output.toList) c).length
    generalize (C c').stepW (if N.linked c' then w else fun _ => .broken "ConnectionError") N.srv (N.obj c') = R at hs ⊢
    have hlen : b ≤ (Function.update N.outs c' (N.outs c' ++ R.output.toList) c).length := by
      by_cases hc : c = c'
      · subst hc; rw [Function.update_self]; simp; omega
      · rw [Function.update_of_ne hc]; exact hb
    refine ⟨?_, hlen⟩
    -- values that are not touched
    have keep : ∀ i (hi : i < (C c).tagout.length), R.srv (C c).tagout[i] = N.srv (C c).tagout[i] →
        ∃ (x : V) (r : Nat) (vec : List V), b ≤ r ∧ R.srv (C c).tagout[i] = some [x] ∧
          (Function.update N.outs c' (N.outs c' ++ R.output.toList) c)[r]? = some vec ∧ vec[i]? = some x := by
      intro i hi he
      obtain ⟨x, r, vec, h1, h2, h3, h4⟩ := h i hi
      refine ⟨x, r, vec, h1, by rw [he, h2], ?_, h4⟩
      by_cases hc : c = c'
      · subst hc
        rw [Function.update_self, List.getElem?_append_left (List.getElem?_eq_some_iff.1 h3).1]
        exact h3
      · rw [Function.update_of_ne hc]; exact h3
    intro i hi
    rcases hs with ⟨-, -, -, hS, -⟩ | ⟨vals, -, -, -, hs⟩
    · exact keep i hi (by rw [hS])
    · rcases hs with ⟨e, -, -, hS, -⟩ | ⟨out, -, hs⟩
      · exact keep i hi (by rw [hS])
      · rcases hs with ⟨-, hS, -, -⟩ | ⟨hl, ho, k, hk, h1, h2, -⟩
        · exact keep i hi (by rw [hS])
        · by_cases hc : c = c'
          · subst hc
            by_cases hik : i < k
            · refine ⟨out[i], (N.outs c).length, out, hb, h1 i hik, ?_, ?_⟩
              · rw [Function.update_self, ho]; simp
              · exact List.getElem?_eq_getElem _
            · apply keep i hi
              apply h2
              intro hmem
              obtain ⟨j, hj, hje⟩ := List.getElem_of_mem hmem
              rw [List.getElem_take] at hje
              have hj' : j < k := by simp at hj; omega
              have := (hw.nodup c).getElem_inj_iff.1 hje
              omega
          · apply keep i hi
            apply h2
            intro hmem
            exact hw.disjoint c c' hc _ (List.getElem_mem hi) (List.mem_of_mem_take hmem)

theorem fok_act (C : ∀ c, RtClient V (σ c)) (src : ι → ι) (hw : Wired C src) (objs : ∀ c, σ c) (v0 : ι → List V) (N : FNet ι V σ)
    (h : FOk C src objs v0 N) (e : FEv ι) : FOk C src objs v0 (N.act C e) := by
  refine ⟨?_, ?_, fun c => (tagsFrom_act C src hw N e c 0 (Nat.zero_le _) (h.tags c)).1, ?_⟩
  all_goals
    cases e with
    | connect c' o => first | exact h.obj | exact h.outs | exact h.ins
    | disconnect c' o => first | exact h.obj | exact h.outs | exact h.ins
    | step c' w => ?_
  · intro c
    have hs := C108_step (C c') (hw.nodup c') (if N.linked c' then w else fun _ => .broken "ConnectionError") N.srv (N.obj c')
    simp only at hs
    show Function.update N.obj c' ((C c').stepW _ N.srv (N.obj c')).obj c = calledWith (C c).makeStep (objs c)
      (Function.update N.ins c' (N.ins c' ++ ((C c').stepW _ N.srv (N.obj c')).input.toList) c)
    generalize (C c').stepW (if N.linked c' then w else fun _ => .broken "ConnectionError") N.srv (N.obj c') = R at hs ⊢
    by_cases hc : c = c'
    · subst hc
      rw [Function.update_self, Function.update_self]
      rcases hs with ⟨hi, -, ho, -, -⟩ | ⟨vals, -, hi, ho, -⟩
      · rw [hi, ho, h.obj c]; simp
      · rw [hi, ho, h.obj c]
        exact (calledWith_snoc _ _ _ _).symm
    · rw [Function.update_of_ne hc, Function.update_of_ne hc]
      exact h.obj c
  · intro c
    have hs := C108_step (C c') (hw.nodup c') (if N.linked c' then w else fun _ => .broken "ConnectionError") N.srv (N.obj c')
    simp only at hs
    show Function.update N.outs c' (N.outs c' ++ ((C c').stepW _ N.srv (N.obj c')).output.toList) c = v0 c :: returnedBy (C c).makeStep (C c).tagout.length (objs c)
      (Function.update N.ins c' (N.ins c' ++ ((C c').stepW _ N.srv (N.obj c')).input.toList) c)
    generalize (C c').stepW (if N.linked c' then w else fun _ => .broken "ConnectionError") N.srv (N.obj c') = R at hs ⊢
    by_cases hc : c = c'
    · subst hc
      rw [Function.update_self, Function.update_self]
      rcases hs with ⟨hi, ho, -, -, -⟩ | ⟨vals, -, hi, -, hs⟩
      · rw [hi, ho, h.outs c]; simp
      · rw [hi, Option.toList_some, returnedBy_snoc, ← h.obj c, h.outs c, List.cons_append]
        congr 2
        rcases hs with ⟨e, he, -, -, ho⟩ | ⟨out, he, hs⟩
        · rw [he, ho]; rfl
        · rw [he]
          rcases hs with ⟨hl, -, -, ho⟩ | ⟨hl, ho, -⟩
          · rw [ho]; simp [hl]
          · rw [ho]; simp [hl]
    · rw [Function.update_of_ne hc, Function.update_of_ne hc]
      exact h.outs c
  · intro c input hin
    have hs := C108_step (C c') (hw.nodup c') (if N.linked c' then w else fun _ => .broken "ConnectionError") N.srv (N.obj c')
    simp only at hs
    have hin' : input ∈ Function.update N.ins c' (N.ins c' ++ ((C c').stepW (if N.linked c' then w else fun _ => .broken "ConnectionError") N.srv (N.obj c')).input.toList) c := hin
    show _ ∧ ∀ i < input.length, ∃ vec ∈ Function.update N.outs c' (N.outs c' ++ ((C c').stepW _ N.srv (N.obj c')).output.toList) (src c), vec[i]? = input[i]?
    generalize (C c').stepW (if N.linked c' then w else fun _ => .broken "ConnectionError") N.srv (N.obj c') = R at hs hin' ⊢
    have mono : ∀ vec ∈ N.outs (src c), vec ∈ Function.update N.outs c' (N.outs c' ++ R.output.toList) (src c) := by
      intro vec hv
      by_cases hc : src c = c'
      · rw [hc] at hv ⊢
        rw [Function.update_self]
        exact List.mem_append_left _ hv
      · rw [Function.update_of_ne hc]; exact hv
    by_cases hold : input ∈ N.ins c
    · obtain ⟨h1, h2⟩ := h.ins c input hold
      refine ⟨h1, fun i hi => ?_⟩
      obtain ⟨vec, hv, he⟩ := h2 i hi
      exact ⟨vec, mono vec hv, he⟩
    · have hc : c = c' := by
        by_contra hc
        rw [Function.update_of_ne hc] at hin'
        exact hold hin'
      subst hc
      rw [Function.update_self, List.mem_append] at hin'
      have hin' := hin'.resolve_left hold
      rcases hs with ⟨hi, -⟩ | ⟨vals, hv, hi, -⟩
      · rw [hi] at hin'; simp at hin'
      · rw [hi] at hin'
        have he : input = vals.flatten := by simpa using hin'
        -- the values are single numbers
        have hget : ∀ i (hi : i < (C c).tagin.length), ∃ (x : V) (r : Nat) (vec : List V), vals[i]? = some [x] ∧ (N.outs (src c))[r]? = some vec ∧ vec[i]? = some x := by
          intro i hi'
          obtain ⟨x, r, vec, -, h1, h2, h3⟩ := h.tags (src c) i (by rw [← hw.tags]; exact hi')
          refine ⟨x, r, vec, ?_, h2, h3⟩
          have := congrArg (fun l => l[i]?) hv
          simp only [List.getElem?_map] at this
          rw [List.getElem?_eq_getElem hi', Option.map_some] at this
          have ht : (C c).tagin[i] = (C (src c)).tagout[i]'(by rw [← hw.tags]; exact hi') := by simp only [hw.tags]
          rw [ht, h1] at this
          cases hvi : vals[i]? with
          | none => rw [hvi] at this; simp at this
          | some l => rw [hvi] at this; simp at this; rw [this]
        have hlen : vals.length = (C c).tagin.length := by simpa using (congrArg List.length hv).symm
        have : ∃ xs : List V, vals = xs.map fun x => [x] := by
          have : ∀ l ∈ vals, ∃ x, l = [x] := by
            intro l hl
            obtain ⟨i, hi', rfl⟩ := List.getElem_of_mem hl
            obtain ⟨x, _, _, h1, _⟩ := hget i (by omega)
            rw [List.getElem?_eq_getElem hi'] at h1
            exact ⟨x, Option.some.inj h1⟩
          clear * - this
          induction vals with
          | nil => exact ⟨[], rfl⟩
          | cons a l ih =>
            obtain ⟨x, rfl⟩ := this a (by simp)
            obtain ⟨xs, rfl⟩ := ih (fun l' hl' => this l' (by simp [hl']))
            exact ⟨x :: xs, rfl⟩
        obtain ⟨xs, rfl⟩ := this
        rw [flatten_single] at he
        subst he
        refine ⟨by simpa using hlen, fun i hi' => ?_⟩
        obtain ⟨x, r, vec, h1, h2, h3⟩ := hget i (by simp at hlen; omega)
        refine ⟨vec, mono _ (List.mem_of_getElem? h2), ?_⟩
        rw [h3]
        rw [List.getElem?_map] at h1
        cases hx : input[i]? with
        | none => rw [hx] at h1; simp at h1
        | some y => rw [hx] at h1; simp at h1; rw [h1]

theorem fok_start (C : ∀ c, RtClient V (σ c)) (src : ι → ι) (S : Server V) (objs : ∀ c, σ c) (v0 : ι → List V)
    (hS : ∀ c, Carries S (C c).tagout (v0 c)) : FOk C src objs v0 (FNet.start S objs v0) := by
  refine ⟨fun c => rfl, fun c => rfl, fun c i hi => ?_, fun c input h => absurd h (by simp [FNet.start])⟩
  exact ⟨_, 0, v0 c, le_rfl, (hS c).get i hi, rfl, List.getElem?_eq_getElem _⟩

theorem fok_run (C : ∀ c, RtClient V (σ c)) (src : ι → ι) (hw : Wired C src) (objs : ∀ c, σ c) (v0 : ι → List V) (N : FNet ι V σ)
    (h : FOk C src objs v0 N) (evs : List (FEv ι)) : FOk C src objs v0 (N.run C evs) := by
  induction evs generalizing N with
  | nil => exact h
  | cons e es ih => exact ih _ (fok_act C src hw objs v0 N h e)

/-- **C108** (no invented data).  Clients wired as in C88, in any history of connecting, disconnecting and steps, whatever happens to the requests: every object has been called
with the inputs `ins` and nothing else, the vectors written are the ones it returned then, each component of each input is the component of the same number of a vector the
other client returned (or of the vector at the beginning), and so is each component on the server. -/
theorem C108_history (C : ∀ c, RtClient V (σ c)) (src : ι → ι) (hw : Wired C src) (S : Server V) (objs : ∀ c, σ c) (v0 : ι → List V)
    (hS : ∀ c, Carries S (C c).tagout (v0 c)) (evs : List (FEv ι)) (c : ι) :
    let N := (FNet.start S objs v0).run C evs
    N.obj c = calledWith (C c).makeStep (objs c) (N.ins c) ∧
    N.outs c = v0 c :: returnedBy (C c).makeStep (C c).tagout.length (objs c) (N.ins c) ∧
    (∀ input ∈ N.ins c, input.length = (C c).tagin.length ∧ ∀ i < input.length, ∃ vec ∈ N.outs (src c), vec[i]? = input[i]?) ∧
    ∀ i (hi : i < (C c).tagout.length), ∃ x, N.srv (C c).tagout[i] = some [x] ∧ ∃ vec ∈ N.outs c, vec[i]? = some x := by
  intro N
  have h := fok_run C src hw objs v0 _ (fok_start C src S objs v0 hS) evs
  refine ⟨h.obj c, h.outs c, h.ins c, fun i hi => ?_⟩
  obtain ⟨x, r, vec, -, h1, h2, h3⟩ := h.tags c i hi
  exact ⟨x, h1, vec, List.mem_of_getElem? h2, h3⟩

theorem run_append (C : ∀ c, RtClient V (σ c)) (N : FNet ι V σ) (e1 e2 : List (FEv ι)) : N.run C (e1 ++ e2) = (N.run C e1).run C e2 := by
  simp [FNet.run, List.foldl_append]

/-- **C108** (recovery).  After any history: a step of client `c` that raises nothing leaves the whole vector its object returned on the server; and whatever happens later, the tags never go
back to an older vector. -/
theorem C108_recovers (C : ∀ c, RtClient V (σ c)) (src : ι → ι) (hw : Wired C src) (S : Server V) (objs : ∀ c, σ c) (v0 : ι → List V)
    (hS : ∀ c, Carries S (C c).tagout (v0 c)) (before after : List (FEv ι)) (c : ι) (w : Nat → Wire)
    (hok : ((FNet.start S objs v0).run C (before ++ [.step c w])).errs.getLast? = some none) :
    (∃ out, ((FNet.start S objs v0).run C (before ++ [.step c w])).outs c = ((FNet.start S objs v0).run C before).outs c ++ [out] ∧
      Carries ((FNet.start S objs v0).run C (before ++ [.step c w])).srv (C c).tagout out) ∧
    TagsFrom C ((FNet.start S objs v0).run C (before ++ [.step c w] ++ after)) c (((FNet.start S objs v0).run C before).outs c).length := by
  set N := (FNet.start S objs v0).run C before with hN
  have e1 : (FNet.start S objs v0).run C (before ++ [.step c w]) = N.act C (.step c w) := by rw [run_append]; rfl
  rw [e1] at hok ⊢
  have hs := C108_step (C c) (hw.nodup c) (if N.linked c then w else fun _ => .broken "ConnectionError") N.srv (N.obj c)
  simp only at hs
  have herr : ((C c).stepW (if N.linked c then w else fun _ => .broken "ConnectionError") N.srv (N.obj c)).err = none := by
    simpa [FNet.act] using hok
  have key : ∃ out, (N.act C (.step c w)).outs c = N.outs c ++ [out] ∧ Carries (N.act C (.step c w)).srv (C c).tagout out := by
    show ∃ out, Function.update N.outs c (N.outs c ++ ((C c).stepW _ N.srv (N.obj c)).output.toList) c = _ ∧ Carries ((C c).stepW _ N.srv (N.obj c)).srv _ out
    rw [Function.update_self]
    generalize (C c).stepW (if N.linked c then w else fun _ => .broken "ConnectionError") N.srv (N.obj c) = R at hs herr ⊢
    rcases hs with ⟨-, -, -, -, he⟩ | ⟨vals, -, -, -, hs⟩
    · exact absurd herr he
    · rcases hs with ⟨e, -, he, -⟩ | ⟨out, -, hs⟩
      · rw [herr] at he; simp at he
      · rcases hs with ⟨-, -, he, -⟩ | ⟨hl, ho, k, hk, h1, -, h3⟩
        · exact absurd herr he
        · refine ⟨out, by rw [ho]; rfl, ?_⟩
          have hk' := h3 herr
          exact carries_of hl fun i hi => h1 i (by omega)
  refine ⟨key, ?_⟩
  rw [run_append, e1]
  obtain ⟨out, ho, hc⟩ := key
  have h0 : TagsFrom C (N.act C (.step c w)) c (N.outs c).length ∧ (N.outs c).length ≤ ((N.act C (.step c w)).outs c).length := by
    refine ⟨fun i hi => ⟨_, (N.outs c).length, out, le_rfl, hc.get i hi, by rw [ho]; simp, List.getElem?_eq_getElem _⟩, by rw [ho]; simp⟩
  have : ∀ (M : FNet ι V σ), TagsFrom C M c (N.outs c).length ∧ (N.outs c).length ≤ (M.outs c).length → ∀ evs : List (FEv ι), TagsFrom C (M.run C evs) c (N.outs c).length := by
    intro M hM evs
    induction evs generalizing M with
    | nil => exact hM.1
    | cons e es ih => exact ih _ (tagsFrom_act C src hw M e c _ hM.2 hM.1)
  exact this _ h0 after

/-- the clients that execute the steps of a history -/
def stepsOf : List (FEv ι) → List ι
  | [] => []
  | .step c _ :: es => c :: stepsOf es
  | _ :: es => stepsOf es

theorem errs_prefix (C : ∀ c, RtClient V (σ c)) (N : FNet ι V σ) (evs : List (FEv ι)) : ∃ l, (N.run C evs).errs = N.errs ++ l := by
  induction evs generalizing N with
  | nil => exact ⟨[], by simp [FNet.run]⟩
  | cons e es ih =>
    obtain ⟨l, hl⟩ := ih (N.act C e)
    cases e <;> exact ⟨[_] ++ l, hl.trans (List.append_assoc _ _ _)⟩

theorem silent_run (C : ∀ c, RtClient V (σ c)) (N : FNet ι V σ) (evs : List (FEv ι)) (h : ∀ x ∈ (N.run C evs).errs, x = none) :
    ((N.run C evs).srv, (N.run C evs).obj) = runSteps C N.srv N.obj (stepsOf evs) := by
  induction evs generalizing N with
  | nil => rfl
  | cons e es ih =>
    have hr : N.run C (e :: es) = (N.act C e).run C es := rfl
    rw [hr] at h ⊢
    rw [ih _ h]
    cases e with
    | connect c o => rfl
    | disconnect c o => rfl
    | step c w =>
      obtain ⟨l, hl⟩ := errs_prefix C (N.act C (.step c w)) es
      have herr : ((C c).stepW (if N.linked c then w else fun _ => .broken "ConnectionError") N.srv (N.obj c)).err = none := by
        apply h
        rw [hl]
        simp [FNet.act]
      obtain ⟨-, h2⟩ := C108_silent _ _ _ _ herr
      show runSteps C ((C c).stepW _ N.srv (N.obj c)).srv (Function.update N.obj c ((C c).stepW _ N.srv (N.obj c)).obj) (stepsOf es) = runSteps C ((C c).step N.srv (N.obj c)).1 _ _
      rw [← h2]

/-- **C108** (histories without exceptions).  If nothing raised, the objects are in the states they would be in if they had passed their results to each other directly, whatever
happened to the requests. -/
theorem C108_silent_history (C : ∀ c, RtClient V (σ c)) (src : ι → ι) (hw : Wired C src) (S : Server V) (objs : ∀ c, σ c) (v0 : ι → List V)
    (hS : ∀ c, Carries S (C c).tagout (v0 c)) (evs : List (FEv ι)) (h : ∀ x ∈ ((FNet.start S objs v0).run C evs).errs, x = none) :
    ((FNet.start S objs v0).run C evs).obj = (mailSteps C src v0 objs (stepsOf evs)).2 ∧
    ∀ c, Carries ((FNet.start S objs v0).run C evs).srv (C c).tagout ((mailSteps C src v0 objs (stepsOf evs)).1 c) := by
  have h1 := silent_run C _ evs h
  obtain ⟨h2, h3⟩ := C88_steps C src hw S v0 objs hS (stepsOf evs)
  have e1 := congrArg Prod.fst h1
  have e2 := congrArg Prod.snd h1
  dsimp only at e1 e2
  rw [e1, e2]
  exact ⟨h2, h3⟩

/-- **C108** (connections).  A client is connected if and only if one of its attempts to connect succeeded and it has not been disconnected since. -/
theorem C108_linked (C : ∀ c, RtClient V (σ c)) (S : Server V) (objs : ∀ c, σ c) (v0 : ι → List V) (evs : List (FEv ι)) (c : ι) :
    ((FNet.start S objs v0).run C evs).linked c = true ↔
      ∃ a b, evs = a ++ .connect c .done :: b ∧ ∀ e ∈ b, e ≠ .disconnect c .done := by
  induction evs using List.reverseRecOn with
  | nil => simp [FNet.run, FNet.start]
  | append_singleton es e ih =>
    rw [run_append]
    set N := (FNet.start S objs v0).run C es with hN
    have hr : N.run C [e] = N.act C e := rfl
    rw [hr]
    -- an event that leaves the connection alone
    have keep : (N.act C e).linked c = N.linked c → e ≠ .connect c .done → e ≠ .disconnect c .done →
        ((N.act C e).linked c = true ↔ ∃ a b, es ++ [e] = a ++ .connect c .done :: b ∧ ∀ e ∈ b, e ≠ .disconnect c .done) := by
      intro h1 h2 h3
      rw [h1, ih]
      constructor
      · rintro ⟨a, b, rfl, hb⟩
        refine ⟨a, b ++ [e], by simp, ?_⟩
        intro e' he'
        rcases List.mem_append.1 he' with h | h
        · exact hb e' h
        · rw [List.mem_singleton.1 h]; exact h3
      · rintro ⟨a, b, hab, hb⟩
        rcases List.eq_nil_or_concat b with rfl | ⟨b', e', rfl⟩
        · have := List.append_inj_right' hab rfl
          simp at this
          exact absurd this h2
        · rw [List.concat_eq_append] at hab hb
          have hab' : es ++ [e] = (a ++ FEv.connect c .done :: b') ++ [e'] := by rw [hab]; simp
          have h4 := List.append_inj_left' hab' rfl
          exact ⟨a, b', h4, fun x hx => hb x (List.mem_append_left _ hx)⟩
    cases e with
    | step c' w => exact keep rfl (by simp) (by simp)
    | connect c' o =>
      by_cases hc : c = c'
      · subst hc
        cases o with
        | done =>
          refine ⟨fun _ => ⟨es, [], by simp, by simp⟩, fun _ => ?_⟩
          simp [FNet.act, connect]
        | runtimeError => exact keep (by simp [FNet.act, connect]) (by simp) (by simp)
        | other e => exact keep (by simp [FNet.act, connect]) (by simp) (by simp)
      · refine keep ?_ (by simp [Ne.symm hc]) (by simp)
        exact Function.update_of_ne hc _ _
    | disconnect c' o =>
      by_cases hc : c = c'
      · subst hc
        cases o with
        | done =>
          refine ⟨fun h => absurd h (by simp [FNet.act, disconnect]), ?_⟩
          rintro ⟨a, b, hab, hb⟩
          rcases List.eq_nil_or_concat b with rfl | ⟨b', e', rfl⟩
          · have := List.append_inj_right' hab rfl
            simp at this
          · rw [List.concat_eq_append] at hab hb
            have hab' : es ++ [FEv.disconnect c .done] = (a ++ FEv.connect c .done :: b') ++ [e'] := by rw [hab]; simp
            have h5 := List.append_inj_right' hab' rfl
            exact absurd (List.singleton_inj.1 h5).symm (hb e' (by simp))
        | runtimeError => exact keep (by simp [FNet.act, disconnect]) (by simp) (by simp)
        | other e => exact keep (by simp [FNet.act, disconnect]) (by simp) (by simp)
      · refine keep ?_ (by simp) (by simp [Ne.symm hc])
        exact Function.update_of_ne hc _ _

/-- **C108** (no step without connection).  In any history, a step of a client that has tags and is not connected raises, and changes neither the server nor an object. -/
theorem C108_unconnected (C : ∀ c, RtClient V (σ c)) (N : FNet ι V σ) (c : ι) (w : Nat → Wire) (hl : N.linked c = false) (ht : (C c).tagin ≠ []) :
    ∃ e, (N.act C (.step c w)).errs = N.errs ++ [some e] ∧ (N.act C (.step c w)).srv = N.srv ∧ (N.act C (.step c w)).obj = N.obj := by
  obtain ⟨t, ts, hts⟩ := List.exists_cons_of_ne_nil ht
  have : (C c).stepW (if N.linked c then w else fun _ => .broken "ConnectionError") N.srv (N.obj c) = ⟨N.srv, N.obj c, some "ConnectionError", none, none⟩ := by
    simp [RtClient.stepW, hl, hts, readLoopW, readDataW, bind, Except.bind]
  refine ⟨"ConnectionError", ?_, ?_, ?_⟩
  · simp only [FNet.act]; rw [this]
  · simp only [FNet.act]; rw [this]
  · simp only [FNet.act]; rw [this]; exact Function.update_eq_self _ _

/-! ### A concrete net, and what is not true -/

namespace FaultEx

/-- A controller and a plant.  The object counts its calls; the controller returns its count and what it was given. -/
def C : ∀ _ : Bool, RtClient Nat Nat
  | true => ⟨["c"], ["a", "b"], fun s i => (s + 1, .ok [s + 1, i.sum])⟩
  | false => ⟨["a", "b"], ["c"], fun s i => (s + 1, .ok [i.sum])⟩

/-- the server at the beginning -/
def srv : Server Nat := fun t => if t = "a" then some [0] else if t = "b" then some [0] else if t = "c" then some [7] else none

/-- the vectors at the beginning -/
def v0 : Bool → List Nat
  | true => [0, 0]
  | false => [7]

theorem wired : Wired C (fun c => !c) where
  tags := by intro c; cases c <;> rfl
  nodup := by intro c; cases c <;> simp [C]
  disjoint := by intro c c' h t ht; cases c <;> cases c' <;> simp_all [C] <;> rcases ht with rfl | rfl <;> simp

theorem carries : ∀ c, Carries srv (C c).tagout (v0 c) := by intro c; cases c <;> simp [Carries, C, srv, v0]

/-- The controller connects; in its first step the answer to its second write request (number 2: the requests 0 read "c", 1 write "a", 2 write "b") gets lost before it is executed. -/
def evs : List (FEv Bool) := [.connect true .done, .connect false .runtimeError, .step true fun i => if i = 2 then .broken "TimeoutError" else .done]

/-- the net at the beginning and after the history -/
def N0 : FNet Bool Nat (fun _ => Nat) := FNet.start srv (fun _ => 0) v0
/-- … -/
def N1 : FNet Bool Nat (fun _ => Nat) := N0.run C evs

/-- The failed step leaves a mixture of an old and a new vector; the object has been called. -/
example : N1.errs = [none, none, some "TimeoutError"] ∧ N1.srv "a" = some [1] ∧ N1.srv "b" = some [0] ∧ N1.obj true = 1 ∧ N1.ins true = [[7]] ∧
    N1.outs true = [[0, 0], [1, 7]] := by decide +kernel

/-- An undisturbed step afterwards: the premises of `C108_recovers` hold. -/
example : (N0.run C (evs ++ [.step true fun _ => .done])).errs.getLast? = some none ∧
    (N0.run C (evs ++ [.step true fun _ => .done])).srv "a" = some [2] ∧ (N0.run C (evs ++ [.step true fun _ => .done])).srv "b" = some [7] := by decide +kernel

/-- A history in which nothing raises: the premises of `C108_silent_history` hold. -/
example : (N0.run C [.connect true .done, .step true fun _ => .done, .connect false .done, .step false fun _ => .done]).errs = [none, none, none, none] := by
  decide +kernel

end FaultEx

/-- **C108 is false of the code** if a failed step is expected to have no effect, so that it can be repeated: the object has been called and advanced, the repetition calls it again.  After a
failed step and its repetition the object and the tags differ from what one step gives. -/
theorem C108_fails_retry : ∃ (C : Bool → RtClient Nat Nat) (S : Server Nat) (v0 : Bool → List Nat) (fault : Nat → Wire), Wired C (fun c => !c) ∧ (∀ c, Carries S (C c).tagout (v0 c)) ∧
    let N := (FNet.start (ι := Bool) (σ := fun _ => Nat) S (fun _ => 0) v0)
    let failed := N.run C [.connect true .done, .step true fault]
    let retried := N.run C [.connect true .done, .step true fault, .step true fun _ => .done]
    let once := N.run C [.connect true .done, .step true fun _ => .done]
    failed.errs = [none, some "TimeoutError"] ∧ failed.obj true ≠ N.obj true ∧ retried.errs = [none, some "TimeoutError", none] ∧
    retried.obj true ≠ once.obj true ∧ retried.srv "a" ≠ once.srv "a" :=
  ⟨FaultEx.C, FaultEx.srv, FaultEx.v0, fun i => if i = 2 then .broken "TimeoutError" else .done, FaultEx.wired, FaultEx.carries, by decide +kernel⟩

/-- **C108 is false of the code** if `connect` is expected to raise when it does not connect: a `RuntimeError` is turned into a message, in every state. -/
theorem C108_fails_connect : ∀ linked, (connect linked .runtimeError).2 = none ∧ (connect false .runtimeError).1 = false :=
  fun _ => ⟨rfl, rfl⟩

/-- **C108 is false of the code** if a server is expected to listen at the address and port of its options: two servers with different options listen at the same place, and a client with the same options as its server
cannot reach it unless the address happens to be the default one. -/
theorem C108_fails_endpoint : (∀ o o', serverEndpoint o = serverEndpoint o') ∧ (∀ o, clientEndpoint o = serverEndpoint o ↔ o.address = "opc.tcp://0.0.0.0:4840/freeopcua/server/") ∧
    ∃ o, clientEndpoint o ≠ serverEndpoint o :=
  ⟨fun _ _ => rfl, fun _ => Iff.rfl, ⟨"server", "opc.tcp://localhost:4841/freeopcua/server/", 4841⟩, by decide +kernel⟩

end DoMpc.Opc
