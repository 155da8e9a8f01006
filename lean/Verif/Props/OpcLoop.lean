import Verif.Model.OpcLoop
import Verif.Props.OpcUa
import Verif.Props.ClosedLoop

/-!
# C88: do-mpc objects that exchange their results through an OPC UA server
-/
set_option linter.unusedSectionVars false
namespace DoMpc.Opc
variable {ι V : Type} [DecidableEq ι] {σ : ι → Type}

/-- Every client reads the tags another one writes, and no tag is written twice. -/
structure Wired (C : ∀ c, RtClient V (σ c)) (src : ι → ι) : Prop where
  tags : ∀ c, (C c).tagin = (C (src c)).tagout
  nodup : ∀ c, (C c).tagout.Nodup
  disjoint : ∀ c c', c ≠ c' → ∀ t ∈ (C c).tagout, t ∉ (C c').tagout

/-- The tags hold the vector `v`, one component each. -/
def Carries (S : Server V) (tags : List String) (v : List V) : Prop := tags.map S = v.map fun x => some [x]

/-- What the clients would do without a server: each has a mailbox with the last vector it returned, and reads the mailbox of another one. -/
def mailSteps (C : ∀ c, RtClient V (σ c)) (src : ι → ι) (mail : ι → List V) (objs : ∀ c, σ c) : List ι → (ι → List V) × (∀ c, σ c)
  | [] => (mail, objs)
  | c :: cs =>
    let r := (C c).makeStep (objs c) (mail (src c))
    let mail' := match r.2 with
      | .ok out => if out.length = (C c).tagout.length then Function.update mail c out else mail
      | .error _ => mail
    mailSteps C src mail' (Function.update objs c r.1) cs

theorem Carries.length {S : Server V} {tags : List String} {v : List V} (h : Carries S tags v) : v.length = tags.length := by
  have := congrArg List.length h
  simpa using this.symm

theorem Carries.get {S : Server V} {tags : List String} {v : List V} (h : Carries S tags v) (i : Nat) (hi : i < tags.length) :
    S tags[i] = some [v[i]'(h.length ▸ hi)] := by
  have h1 : (tags.map S)[i]'(by simpa using hi) = (v.map fun x => some [x])[i]'(by simpa [h.length] using hi) := by
    simp only [show tags.map S = v.map fun x => some [x] from h]
  simpa using h1

theorem carries_of {S : Server V} {tags : List String} {v : List V} (hl : v.length = tags.length)
    (h : ∀ i (hi : i < tags.length), S tags[i] = some [v[i]'(hl ▸ hi)]) : Carries S tags v := by
  apply List.ext_getElem
  · simp [hl]
  · intro i h1 h2
    simpa using h i (by simpa using h1)

theorem pairwise_single (v : List V) : (v.map fun x => [x]).Pairwise (fun a b => a.length = b.length) := by
  rw [List.pairwise_map]
  exact List.pairwise_of_forall (by intros; rfl)

theorem flatten_single (v : List V) : (v.map fun x => [x]).flatten = v := by
  induction v with
  | nil => rfl
  | cons a l ih => simp [ih]

theorem Carries.read {S : Server V} {tags : List String} {v : List V} (h : Carries S tags v) : readFromTags tags S = .ok v := by
  unfold readFromTags
  rw [readLoop tags v S h.length (fun i hi => h.get i hi)]
  show (if _ then _ else _) = _
  rw [if_pos (pairwise_single v), flatten_single]
  rfl

theorem Carries.exists {S : Server V} {tags : List String} {v : List V} (h : Carries S tags v) : ∀ t ∈ tags, (S t).isSome := by
  intro t ht
  obtain ⟨i, hi, rfl⟩ := List.getElem_of_mem ht
  rw [h.get i hi]
  rfl

theorem Carries.congr {S S' : Server V} {tags : List String} {v : List V} (h : Carries S tags v) (h' : ∀ t ∈ tags, S' t = S t) :
    Carries S' tags v := by
  unfold Carries at h ⊢
  rw [← h]
  exact List.map_congr_left h'

theorem Carries.write {S : Server V} {tags : List String} {old v : List V} (h : Carries S tags old) (hn : tags.Nodup)
    (hl : v.length = tags.length) :
    (writeToTags tags S v).2 = none ∧ Carries (writeToTags tags S v).1 tags v ∧ ∀ t, t ∉ tags → (writeToTags tags S v).1 t = S t := by
  have e : writeToTags tags S v = writeLoop (tags.zip v) S := by simp [writeToTags, hl]
  obtain ⟨h1, h2, h3⟩ := writeLoop_spec tags v S hl h.exists hn
  rw [e]
  exact ⟨h1, carries_of hl h2, h3⟩

/-- One step of one client. -/
theorem client_step (C : ∀ c, RtClient V (σ c)) (src : ι → ι) (hw : Wired C src) (S : Server V) (mail : ι → List V)
    (hS : ∀ c, Carries S (C c).tagout (mail c)) (c : ι) (s : σ c) :
    ((C c).step S s).2.1 = ((C c).makeStep s (mail (src c))).1 ∧
    (∀ c', Carries ((C c).step S s).1 (C c').tagout
      ((match ((C c).makeStep s (mail (src c))).2 with
        | .ok out => if out.length = (C c).tagout.length then Function.update mail c out else mail
        | .error _ => mail) c')) := by
  have hr : readFromTags (C c).tagin S = .ok (mail (src c)) := by rw [hw.tags]; exact (hS _).read
  unfold RtClient.step
  rw [hr]
  dsimp only
  rcases hm : (C c).makeStep s (mail (src c)) with ⟨s', r⟩
  cases r with
  | error e => exact ⟨rfl, hS⟩
  | ok out =>
    refine ⟨rfl, ?_⟩
    intro c'
    dsimp only
    by_cases hl : out.length = (C c).tagout.length
    · rw [if_pos hl]
      obtain ⟨-, h2, h3⟩ := (hS c).write (hw.nodup c) hl
      by_cases hc : c' = c
      · subst hc
        rw [Function.update_self]
        exact h2
      · rw [Function.update_of_ne hc]
        exact (hS c').congr fun t ht => h3 t (hw.disjoint c' c hc t ht)
    · rw [if_neg hl]
      have : (writeToTags (C c).tagout S out).1 = S := by simp [writeToTags, hl]
      rw [this]
      exact hS c'

/-- **C88** (whole steps).  If every client reads the tags another one writes, no tag is written by two clients or twice by one, and the tags exist
and hold a vector, then, for every order in which the clients execute whole steps and whatever their objects return or raise: the objects go
through the same states as if they passed their results to each other directly, and the tags of every client hold the last vector it returned. -/
theorem C88_steps (C : ∀ c, RtClient V (σ c)) (src : ι → ι) (hw : Wired C src) (S : Server V) (mail : ι → List V) (objs : ∀ c, σ c)
    (hS : ∀ c, Carries S (C c).tagout (mail c)) (order : List ι) :
    (runSteps C S objs order).2 = (mailSteps C src mail objs order).2 ∧
    ∀ c, Carries (runSteps C S objs order).1 (C c).tagout ((mailSteps C src mail objs order).1 c) := by
  induction order generalizing S mail objs with
  | nil => exact ⟨rfl, hS⟩
  | cons c cs ih =>
    obtain ⟨h1, h2⟩ := client_step C src hw S mail hS c (objs c)
    simp only [runSteps, mailSteps]
    rw [h1]
    exact ih _ _ _ h2

/-! ### All interleavings -/

/-- The beginning: every client is idle, its tags hold the vector `v0 c`. -/
def Net.start (S : Server V) (objs : ∀ c, σ c) (v0 : ι → List V) : Net ι V σ :=
  { srv := S, obj := objs, phase := fun _ => .idle, hist := fun c => [v0 c], since := fun _ => 0 }

/-- What holds in every state for the tags of client `c`. -/
def TagsOk (C : ∀ c, RtClient V (σ c)) (N : Net ι V σ) (c : ι) : Prop :=
  match N.phase c with
  | .writing rest => ∃ older prev last j, N.hist c = older ++ [prev, last] ∧ rest = ((C c).tagout.zip last).drop j ∧
      j ≤ (C c).tagout.length ∧ prev.length = (C c).tagout.length ∧ last.length = (C c).tagout.length ∧
      Carries N.srv (C c).tagout (last.take j ++ prev.drop j)
  | _ => ∃ older last, N.hist c = older ++ [last] ∧ Carries N.srv (C c).tagout last

/-- What a client that has read part of its tags has got. -/
def ReadOk (C : ∀ c, RtClient V (σ c)) (src : ι → ι) (N : Net ι V σ) (c : ι) : Prop :=
  match N.phase c with
  | .reading todo got => ∃ vals : List V, got = vals.map (fun x => [x]) ∧ (C c).tagin.drop vals.length = todo ∧
      vals.length ≤ (C c).tagin.length ∧ N.since c ≤ N.completed (src c) ∧ 1 ≤ N.since c ∧
      ∀ i (hi : i < vals.length), ∃ r vec, N.since c ≤ r + 1 ∧ (N.hist (src c))[r]? = some vec ∧ vec[i]? = some vals[i]
  | _ => True

/-- the invariant -/
def NetOk (C : ∀ c, RtClient V (σ c)) (src : ι → ι) (N : Net ι V σ) : Prop := (∀ c, TagsOk C N c) ∧ ∀ c, ReadOk C src N c

theorem TagsOk.value {C : ∀ c, RtClient V (σ c)} {N : Net ι V σ} {c : ι} (h : TagsOk C N c) (i : Nat) (hi : i < (C c).tagout.length) :
    ∃ x r vec, N.srv (C c).tagout[i] = some [x] ∧ N.completed c ≤ r + 1 ∧ (N.hist c)[r]? = some vec ∧ vec[i]? = some x := by
  have nw : (∃ older last, N.hist c = older ++ [last] ∧ Carries N.srv (C c).tagout last) → N.completed c = (N.hist c).length →
      ∃ x r vec, N.srv (C c).tagout[i] = some [x] ∧ N.completed c ≤ r + 1 ∧ (N.hist c)[r]? = some vec ∧ vec[i]? = some x := by
    rintro ⟨older, last, h1, h2⟩ hc
    refine ⟨_, older.length, last, h2.get i hi, ?_, ?_, ?_⟩
    · rw [hc, h1]; simp
    · rw [h1]; simp
    · exact List.getElem?_eq_getElem _
  unfold TagsOk at h
  unfold Net.completed at nw ⊢
  split at h
  · rename_i rest hp
    rw [hp]
    dsimp only
    obtain ⟨older, prev, last, j, h1, -, hj, hpl, hll, h2⟩ := h
    have hg := h2.get i hi
    by_cases hij : i < j
    · refine ⟨_, older.length + 1, last, hg, ?_, ?_, ?_⟩
      · rw [h1]; simp
      · rw [h1]; simp
      · rw [List.getElem?_eq_getElem (by omega)]
        congr 1
        rw [List.getElem_append_left (by simp; omega), List.getElem_take]
    · refine ⟨_, older.length, prev, hg, ?_, ?_, ?_⟩
      · rw [h1]; simp
      · rw [h1]; simp
      · rw [List.getElem?_eq_getElem (by omega)]
        congr 1
        rw [List.getElem_append_right (by simp; omega), List.getElem_drop]
        congr 1
        simp
        omega
  · rename_i hp
    apply nw h
    split
    · rename_i rest hq; exact absurd hq (hp rest)
    · rfl

theorem TagsOk.hist_ne {C : ∀ c, RtClient V (σ c)} {N : Net ι V σ} {c : ι} (h : TagsOk C N c) : 1 ≤ N.completed c := by
  unfold TagsOk at h
  unfold Net.completed
  split at h
  · rename_i rest hp
    rw [hp]
    obtain ⟨older, prev, last, j, h1, -⟩ := h
    rw [h1]; simp
  · rename_i hp
    obtain ⟨older, last, h1, -⟩ := h
    split
    · rename_i rest hq; exact absurd hq (hp rest)
    · rw [h1]; simp

/-- A change of the phase of `c` only, between phases other than writing. -/
theorem completed_congr {N N' : Net ι V σ} (c : ι) (hh : N'.hist c = N.hist c)
    (hp : (∃ r, N.phase c = .writing r) ↔ ∃ r, N'.phase c = .writing r) : N'.completed c = N.completed c := by
  unfold Net.completed
  rw [hh]
  rcases h1 : N.phase c with _ | _ | r <;> rcases h2 : N'.phase c with _ | _ | r' <;> simp_all

theorem TagsOk.congr {C : ∀ c, RtClient V (σ c)} {N N' : Net ι V σ} {c : ι} (h : TagsOk C N c) (hh : N'.hist c = N.hist c)
    (hp : N'.phase c = N.phase c) (hs : ∀ t ∈ (C c).tagout, N'.srv t = N.srv t) : TagsOk C N' c := by
  unfold TagsOk at h ⊢
  rw [hp, hh]
  split
  · rename_i rest hq
    rw [hq] at h
    obtain ⟨o, p, l, j, a, b, c1, d1, e, f⟩ := h
    exact ⟨o, p, l, j, a, b, c1, d1, e, f.congr hs⟩
  · rename_i hq
    split at h
    · rename_i rest hq'; exact absurd hq' (hq rest)
    · obtain ⟨o, l, a, b⟩ := h
      exact ⟨o, l, a, b.congr hs⟩

theorem ReadOk.congr {C : ∀ c, RtClient V (σ c)} {src : ι → ι} {N N' : Net ι V σ} {c : ι} (h : ReadOk C src N c)
    (hp : N'.phase c = N.phase c) (hs : N'.since c = N.since c) (hc : N.completed (src c) ≤ N'.completed (src c))
    (hh : ∃ more, N'.hist (src c) = N.hist (src c) ++ more) : ReadOk C src N' c := by
  obtain ⟨more, hh⟩ := hh
  unfold ReadOk at h ⊢
  rw [hp, hs, hh]
  split
  · rename_i todo got hq
    rw [hq] at h
    obtain ⟨vals, a, b, c1, d1, d2, e⟩ := h
    refine ⟨vals, a, b, c1, le_trans d1 hc, d2, ?_⟩
    intro i hi
    obtain ⟨r, vec, f, g, k⟩ := e i hi
    refine ⟨r, vec, f, ?_, k⟩
    rw [List.getElem?_append_left (List.getElem?_eq_some_iff.1 g).1]
    exact g
  · trivial

theorem NetOk.act {C : ∀ c, RtClient V (σ c)} {src : ι → ι} (hw : Wired C src) {N : Net ι V σ} (h : NetOk C src N) (c : ι) :
    NetOk C src (N.act C src c) := by
  obtain ⟨hT, hR⟩ := h
  -- a move of `c` between phases that are not writing phases
  have move : ∀ (N' : Net ι V σ) (ph : Phase V), (∀ r, N.phase c ≠ .writing r) → (∀ r, ph ≠ .writing r) →
      N'.phase = Function.update N.phase c ph → N'.hist = N.hist → N'.srv = N.srv → (∀ c', c' ≠ c → N'.since c' = N.since c') →
      ReadOk C src N' c → NetOk C src N' := by
    intro N' ph h1 h2 hp hh hs hsi hr
    have hph : N'.phase c = ph := by rw [hp, Function.update_self]
    have hcomp : ∀ c', N'.completed c' = N.completed c' := by
      intro c'
      apply completed_congr c' (by rw [hh])
      by_cases hc : c' = c
      · subst hc
        rw [hph]
        exact ⟨fun ⟨r, e⟩ => absurd e (h1 r), fun ⟨r, e⟩ => absurd e (h2 r)⟩
      · rw [hp, Function.update_of_ne hc]
    refine ⟨?_, ?_⟩
    · intro c'
      by_cases hc : c' = c
      · subst hc
        have := hT c'
        unfold TagsOk at this ⊢
        rw [hph, hh, hs]
        split at this
        · rename_i r hq; exact absurd hq (h1 r)
        · rcases ph with _ | ⟨a, b⟩ | r
          · exact this
          · exact this
          · exact absurd rfl (h2 r)
      · exact (hT c').congr (by rw [hh]) (by rw [hp, Function.update_of_ne hc]) (by intro t _; rw [hs])
    · intro c'
      by_cases hc : c' = c
      · subst hc; exact hr
      · exact (hR c').congr (by rw [hp, Function.update_of_ne hc]) (hsi c' hc) (hcomp _).ge ⟨[], by rw [hh]; simp⟩
  have hTc := hT c
  have hRc := hR c
  unfold Net.act
  split
  · -- begins to read
    rename_i hp
    refine move _ (.reading (C c).tagin []) (by rw [hp]; intro r; simp) (by intro r; simp) rfl rfl rfl
      (fun c' hc => by simp [Function.update_of_ne hc]) ?_
    unfold ReadOk
    simp only [Function.update_self]
    refine ⟨[], rfl, by simp, by simp, ?_, (hT _).hist_ne, by simp⟩
    apply le_of_eq
    symm
    apply fun a b => completed_congr (N := N) _ a b
    · rfl
    by_cases hc : src c = c
    · simp only [hc, Function.update_self, hp]
      constructor <;> (rintro ⟨r, e⟩; simp at e)
    · simp only [Function.update_of_ne hc]
  · -- reads a tag
    rename_i t todo got hp
    unfold ReadOk at hRc
    rw [hp] at hRc
    obtain ⟨vals, a, b, c1, d1, d2, e⟩ := hRc
    have hlt : vals.length < (C c).tagin.length := by
      by_contra hge
      rw [List.drop_eq_nil_of_le (by omega)] at b
      simp at b
    have hdrop := List.drop_eq_getElem_cons hlt
    rw [b] at hdrop
    obtain ⟨ht, hrest⟩ := List.cons.inj hdrop
    have hlt' : vals.length < (C (src c)).tagout.length := by rw [← hw.tags]; exact hlt
    have hti : (C c).tagin[vals.length] = (C (src c)).tagout[vals.length] := by simp only [hw.tags]
    obtain ⟨x, r, vec, v1, v2, v3, v4⟩ := (hT (src c)).value vals.length hlt'
    have hrd : readData N.srv t = .ok [x] := by
      unfold readData
      rw [ht, hti, v1]
    rw [hrd]
    dsimp only
    refine move _ (.reading todo (got ++ [[x]])) (by rw [hp]; intro r; simp) (by intro r; simp) rfl rfl rfl (fun _ _ => rfl) ?_
    unfold ReadOk
    simp only [Function.update_self]
    refine ⟨vals ++ [x], by simp [a], by simp [hrest], by simp; omega, ?_, d2, ?_⟩
    · refine le_trans d1 (le_of_eq ?_)
      symm
      apply fun a b => completed_congr (N := N) _ a b
      · rfl
      by_cases hc : src c = c
      · simp only [hc, Function.update_self, hp]
        constructor <;> (rintro ⟨r, e⟩; simp at e)
      · simp only [Function.update_of_ne hc]
    · intro i hi
      by_cases hil : i < vals.length
      · obtain ⟨r', vec', f, g, k⟩ := e i hil
        exact ⟨r', vec', f, g, by rw [k, List.getElem_append_left hil]⟩
      · have hie : i = vals.length := by simp at hi; omega
        subst hie
        refine ⟨r, vec, le_trans d1 v2, v3, ?_⟩
        rw [v4]
        simp
  · -- calls its object
    rename_i got hp
    have idle : ∀ o, NetOk C src { N with obj := o, phase := Function.update N.phase c .idle } := by
      intro o
      refine move _ .idle (by rw [hp]; intro r; simp) (by intro r; simp) rfl rfl rfl (fun _ _ => rfl) ?_
      unfold ReadOk
      simp
    split
    · split
      · exact idle _
      · rename_i s' out hm
        split
        · exact idle _
        · rename_i hl
          simp only [ne_eq, not_not] at hl
          -- begins to write
          unfold TagsOk at hTc
          rw [hp] at hTc
          obtain ⟨older, last, k1, k2⟩ := hTc
          have hcomp : ∀ c', N.completed c' = Net.completed { N with
              obj := Function.update N.obj c s'
              phase := Function.update N.phase c (.writing ((C c).tagout.zip out))
              hist := Function.update N.hist c (N.hist c ++ [out]) } c' := by
            intro c'
            by_cases hc : c' = c
            · subst hc
              unfold Net.completed
              rw [hp]
              simp
            · symm
              apply completed_congr _ (by simp [Function.update_of_ne hc])
              simp [Function.update_of_ne hc]
          refine ⟨?_, ?_⟩
          · intro c'
            by_cases hc : c' = c
            · subst hc
              unfold TagsOk
              simp only [Function.update_self]
              refine ⟨older, last, out, 0, by simp [k1], by simp, by omega, k2.length, hl, ?_⟩
              simpa using k2
            · exact (hT c').congr (by simp [Function.update_of_ne hc]) (by simp [Function.update_of_ne hc]) (fun _ _ => rfl)
          · intro c'
            by_cases hc : c' = c
            · subst hc
              unfold ReadOk
              simp
            · refine (hR c').congr (by simp [Function.update_of_ne hc]) rfl (hcomp _).le ?_
              by_cases hs : src c' = c
              · exact ⟨[out], by simp [hs]⟩
              · exact ⟨[], by simp [Function.update_of_ne hs]⟩
    · exact idle N.obj
  · -- has written everything
    rename_i hp
    unfold TagsOk at hTc
    rw [hp] at hTc
    obtain ⟨older, prev, last, j, k1, k2, k3, k4, k5, k6⟩ := hTc
    have hj : j = (C c).tagout.length := by
      have := congrArg List.length k2
      simp [k5] at this
      omega
    have k7 : Carries N.srv (C c).tagout last := by
      rw [hj, List.drop_eq_nil_of_le (by omega), List.append_nil, List.take_of_length_le (by omega)] at k6
      exact k6
    refine ⟨?_, ?_⟩
    · intro c'
      by_cases hc : c' = c
      · subst hc
        unfold TagsOk
        simp only [Function.update_self]
        exact ⟨older ++ [prev], last, by simp [k1], k7⟩
      · exact (hT c').congr rfl (by simp [Function.update_of_ne hc]) (fun _ _ => rfl)
    · intro c'
      by_cases hc : c' = c
      · subst hc
        unfold ReadOk
        simp
      · refine (hR c').congr (by simp [Function.update_of_ne hc]) rfl ?_ ⟨[], by simp⟩
        by_cases hs : src c' = c
        · unfold Net.completed
          simp only [hs, Function.update_self, hp]
          omega
        · apply le_of_eq
          symm
          apply fun a b => completed_congr (N := N) _ a b
          · rfl
          simp [Function.update_of_ne hs]
  · -- writes a tag
    rename_i t v rest hp
    unfold TagsOk at hTc
    rw [hp] at hTc
    obtain ⟨older, prev, last, j, k1, k2, k3, k4, k5, k6⟩ := hTc
    have hjl : j < ((C c).tagout.zip last).length := by
      by_contra hge
      rw [List.drop_eq_nil_of_le (by omega)] at k2
      simp at k2
    have hjt : j < (C c).tagout.length := by simp at hjl; omega
    have hjv : j < last.length := by omega
    have hdrop := List.drop_eq_getElem_cons hjl
    rw [← k2] at hdrop
    obtain ⟨e1, e2⟩ := List.cons.inj hdrop
    simp only [List.getElem_zip, Prod.mk.injEq] at e1
    obtain ⟨et, ev⟩ := e1
    have hex := k6.get j hjt
    have hwd : writeData N.srv t [v] = .ok (Function.update N.srv t (some [v])) := by
      unfold writeData
      rw [et, hex]
    rw [hwd]
    dsimp only
    refine ⟨?_, ?_⟩
    · intro c'
      by_cases hc : c' = c
      · subst hc
        unfold TagsOk
        simp only [Function.update_self]
        refine ⟨older, prev, last, j + 1, k1, e2, by omega, k4, k5, ?_⟩
        apply carries_of (by simp; omega)
        intro i hi
        by_cases hij : i = j
        · subst hij
          rw [et, Function.update_self, ev, List.getElem_append_left (by simp; omega), List.getElem_take]
        · have hne : (C c').tagout[i] ≠ t := by
            rw [et]
            intro h
            exact hij ((hw.nodup c').getElem_inj_iff.1 h)
          rw [Function.update_of_ne hne, k6.get i hi]
          congr 2
          by_cases hlt : i < j
          · rw [List.getElem_append_left (by simp; omega), List.getElem_append_left (by simp; omega), List.getElem_take, List.getElem_take]
          · rw [List.getElem_append_right (by simp; omega), List.getElem_append_right (by simp; omega), List.getElem_drop, List.getElem_drop]
            congr 1
            simp
            omega
      · refine (hT c').congr rfl (by simp [Function.update_of_ne hc]) ?_
        intro t' ht'
        apply Function.update_of_ne
        rintro rfl
        rw [et] at ht'
        exact hw.disjoint c c' (Ne.symm hc) _ (List.getElem_mem hjt) ht'
    · intro c'
      by_cases hc : c' = c
      · subst hc
        unfold ReadOk
        simp
      · refine (hR c').congr (by simp [Function.update_of_ne hc]) rfl (le_of_eq ?_) ⟨[], by simp⟩
        symm
        apply fun a b => completed_congr (N := N) _ a b
        · rfl
        by_cases hs : src c' = c
        · simp [hs, hp]
        · simp [Function.update_of_ne hs]

theorem NetOk.run {C : ∀ c, RtClient V (σ c)} {src : ι → ι} (hw : Wired C src) {N : Net ι V σ} (h : NetOk C src N) (acts : List ι) :
    NetOk C src (N.run C src acts) := by
  induction acts generalizing N with
  | nil => exact h
  | cons c cs ih => exact ih (h.act hw c)

theorem NetOk.start {C : ∀ c, RtClient V (σ c)} {src : ι → ι} (S : Server V) (objs : ∀ c, σ c) (v0 : ι → List V)
    (hS : ∀ c, Carries S (C c).tagout (v0 c)) : NetOk C src (Net.start S objs v0) := by
  refine ⟨?_, ?_⟩
  · intro c
    exact ⟨[], v0 c, rfl, hS c⟩
  · intro c
    trivial

/-- **C88** (all interleavings, partial).  Requests of different clients may be interleaved in any way.  When a client has read its tags and calls
its object, the argument has one component per tag, and every component is that component of a vector which the other client has returned (or
which was there at the beginning), no older than the last one that was completely written when the reading began.  Missing: the components may
belong to different vectors (`C88_fails_torn`). -/
theorem C88_reading_partial (C : ∀ c, RtClient V (σ c)) (src : ι → ι) (hw : Wired C src) (S : Server V) (objs : ∀ c, σ c) (v0 : ι → List V)
    (hS : ∀ c, Carries S (C c).tagout (v0 c)) (acts : List ι) (c : ι) (got : List (List V))
    (hp : ((Net.start S objs v0).run C src acts).phase c = .reading [] got) :
    let N := (Net.start S objs v0).run C src acts
    got.Pairwise (fun a b => a.length = b.length) ∧ got.flatten.length = (C c).tagin.length ∧ 1 ≤ N.since c ∧
    ∀ i (hi : i < got.flatten.length), ∃ r vec, N.since c ≤ r + 1 ∧ (N.hist (src c))[r]? = some vec ∧ vec[i]? = some got.flatten[i] := by
  intro N
  have h := ((NetOk.start (src := src) S objs v0 hS).run hw acts).2 c
  unfold ReadOk at h
  rw [hp] at h
  obtain ⟨vals, rfl, b, c1, d1, d2, e⟩ := h
  refine ⟨pairwise_single vals, ?_, d2, ?_⟩
  · rw [flatten_single]
    have := List.drop_eq_nil_iff.1 b
    omega
  · simp only [flatten_single]
    exact e

/-- **C88** (undisturbed reading).  If the other client had written all its vectors completely when the reading began, and has begun to write none
since, then the argument is the last vector it returned. -/
theorem C88_undisturbed (C : ∀ c, RtClient V (σ c)) (src : ι → ι) (hw : Wired C src) (S : Server V) (objs : ∀ c, σ c) (v0 : ι → List V)
    (hS : ∀ c, Carries S (C c).tagout (v0 c)) (acts : List ι) (c : ι) (got : List (List V))
    (hp : ((Net.start S objs v0).run C src acts).phase c = .reading [] got)
    (hq : (((Net.start S objs v0).run C src acts).hist (src c)).length = ((Net.start S objs v0).run C src acts).since c) :
    (((Net.start S objs v0).run C src acts).hist (src c)).getLast? = some got.flatten := by
  obtain ⟨-, h2, h3, h4⟩ := C88_reading_partial C src hw S objs v0 hS acts c got hp
  have hT := ((NetOk.start (src := src) S objs v0 hS).run hw acts).1 (src c)
  have hlast : ∃ older last, ((Net.start S objs v0).run C src acts).hist (src c) = older ++ [last] ∧ last.length = (C (src c)).tagout.length := by
    unfold TagsOk at hT
    split at hT
    · obtain ⟨o, p, l, j, k1, -, -, -, k5, -⟩ := hT
      exact ⟨o ++ [p], l, by simp [k1], k5⟩
    · obtain ⟨o, l, k1, k2⟩ := hT
      exact ⟨o, l, k1, k2.length⟩
  obtain ⟨older, last, k1, k2⟩ := hlast
  have : got.flatten = last := by
    apply List.ext_getElem
    · rw [h2, k2, hw.tags]
    · intro i hi hi'
      obtain ⟨r, vec, a, b, e⟩ := h4 i hi
      have hr : r = older.length := by
        have h5 := (List.getElem?_eq_some_iff.1 b).1
        rw [← hq] at a
        rw [k1] at h5 a
        simp at h5 a
        omega
      rw [hr, k1] at b
      simp at b
      subst b
      rw [List.getElem?_eq_getElem hi'] at e
      exact (Option.some.inj e).symm
  rw [k1, this]
  simp

/-! ### A step that is not interrupted -/

theorem run_replicate_add (C : ∀ c, RtClient V (σ c)) (src : ι → ι) (N : Net ι V σ) (c : ι) (m n : Nat) :
    N.run C src (List.replicate (m + n) c) = (N.run C src (List.replicate m c)).run C src (List.replicate n c) := by
  unfold Net.run
  rw [List.replicate_add, List.foldl_append]

theorem run_one (C : ∀ c, RtClient V (σ c)) (src : ι → ι) (N : Net ι V σ) (c : ι) : N.run C src (List.replicate 1 c) = N.act C src c := rfl

theorem acts_read (C : ∀ c, RtClient V (σ c)) (src : ι → ι) (c : ι) (todo : List String) (N : Net ι V σ) (got : List (List V))
    (hp : N.phase c = .reading todo got) :
    ∃ n, (N.run C src (List.replicate n c)).srv = N.srv ∧ (N.run C src (List.replicate n c)).obj = N.obj ∧
      (N.run C src (List.replicate n c)).phase c =
        match todo.mapM (readData N.srv) with
        | .error _ => .idle
        | .ok vals => .reading [] (got ++ vals) := by
  induction todo generalizing N got with
  | nil => exact ⟨0, rfl, rfl, by simp [Net.run, hp, pure, Except.pure]⟩
  | cons t todo ih =>
    rcases hr : readData N.srv t with e | v
    · refine ⟨1, ?_, ?_, ?_⟩ <;> rw [run_one] <;> simp [Net.act, hp, hr, List.mapM_cons, bind, Except.bind]
    · obtain ⟨n, h1, h2, h3⟩ := ih { N with phase := Function.update N.phase c (.reading todo (got ++ [v])) } (got ++ [v]) (by simp)
      have e : N.act C src c = { N with phase := Function.update N.phase c (.reading todo (got ++ [v])) } := by simp [Net.act, hp, hr]
      refine ⟨1 + n, ?_, ?_, ?_⟩ <;> rw [run_replicate_add, run_one, e]
      · exact h1
      · exact h2
      · rw [h3]
        simp only [List.mapM_cons, hr, bind, Except.bind]
        rcases todo.mapM (readData N.srv) with e | vs
        · rfl
        · simp [pure, Except.pure]

theorem acts_write (C : ∀ c, RtClient V (σ c)) (src : ι → ι) (c : ι) (rest : List (String × V)) (N : Net ι V σ)
    (hp : N.phase c = .writing rest) :
    ∃ n, (N.run C src (List.replicate n c)).srv = (writeLoop rest N.srv).1 ∧ (N.run C src (List.replicate n c)).obj = N.obj ∧
      (N.run C src (List.replicate n c)).phase c = .idle := by
  induction rest generalizing N with
  | nil =>
    refine ⟨1, ?_, ?_, ?_⟩ <;> rw [run_one] <;> simp [Net.act, hp, writeLoop]
  | cons tv rest ih =>
    obtain ⟨t, v⟩ := tv
    rcases hr : writeData N.srv t [v] with e | S'
    · refine ⟨1, ?_, ?_, ?_⟩ <;> rw [run_one] <;> simp [Net.act, hp, hr, writeLoop]
    · obtain ⟨n, h1, h2, h3⟩ := ih { N with srv := S', phase := Function.update N.phase c (.writing rest) } (by simp)
      have e : N.act C src c = { N with srv := S', phase := Function.update N.phase c (.writing rest) } := by simp [Net.act, hp, hr]
      refine ⟨1 + n, ?_, ?_, ?_⟩ <;> rw [run_replicate_add, run_one, e]
      · rw [h1]; simp [writeLoop, hr]
      · exact h2
      · exact h3

/-- **C88**: requests of one client that no other client interrupts are one whole step: the requests of `make_step` have the effect of
`RtClient.step`, for every server and every object. -/
theorem C88_uninterrupted (C : ∀ c, RtClient V (σ c)) (src : ι → ι) (N : Net ι V σ) (c : ι) (hp : N.phase c = .idle) :
    ∃ n, 0 < n ∧ (N.run C src (List.replicate n c)).srv = ((C c).step N.srv (N.obj c)).1 ∧
      (N.run C src (List.replicate n c)).obj = Function.update N.obj c ((C c).step N.srv (N.obj c)).2.1 ∧
      (N.run C src (List.replicate n c)).phase c = .idle := by
  have e0 : N.act C src c = { N with
      phase := Function.update N.phase c (.reading (C c).tagin []), since := Function.update N.since c (N.completed (src c)) } := by
    simp [Net.act, hp]
  obtain ⟨n, h1, h2, h3⟩ := acts_read C src c (C c).tagin (N.act C src c) [] (by rw [e0]; simp)
  have hs0 : (N.act C src c).srv = N.srv := by rw [e0]
  have ho0 : (N.act C src c).obj = N.obj := by rw [e0]
  rw [hs0] at h1 h3
  rw [ho0] at h2
  have hN : ∀ k, N.run C src (List.replicate (1 + n + k) c) =
      (((N.act C src c).run C src (List.replicate n c)).run C src (List.replicate k c)) := by
    intro k
    rw [run_replicate_add, run_replicate_add, run_one]
  generalize hM : (N.act C src c).run C src (List.replicate n c) = M at h1 h2 h3 hN
  rcases hr : (C c).tagin.mapM (readData N.srv) with e | vals
  · rw [hr] at h3
    have hrd : readFromTags (C c).tagin N.srv = .error e := by
      unfold readFromTags
      rw [hr]; rfl
    refine ⟨1 + n + 0, by omega, ?_, ?_, ?_⟩ <;> rw [hN 0]
    · simp [Net.run, h1, RtClient.step, hrd]
    · simp [Net.run, h2, RtClient.step, hrd]
    · simpa [Net.run] using h3
  · rw [hr] at h3
    simp only [List.nil_append] at h3
    by_cases hpw : vals.Pairwise (fun a b => a.length = b.length)
    · have hrd : readFromTags (C c).tagin N.srv = .ok vals.flatten := by
        unfold readFromTags
        rw [hr]
        show (if _ then _ else _) = _
        rw [if_pos hpw]; rfl
      rcases hm : (C c).makeStep (N.obj c) vals.flatten with ⟨s', e | out⟩
      · have ea : M.act C src c = { M with obj := Function.update M.obj c s', phase := Function.update M.phase c .idle } := by
          simp [Net.act, h3, hpw, h2, hm]
        refine ⟨1 + n + 1, by omega, ?_, ?_, ?_⟩ <;> rw [hN 1, run_one, ea]
        · simp [h1, RtClient.step, hrd, hm]
        · simp [h2, RtClient.step, hrd, hm]
        · simp
      · by_cases hl : out.length = (C c).tagout.length
        · obtain ⟨k, w1, w2, w3⟩ := acts_write C src c ((C c).tagout.zip out) { M with
              obj := Function.update M.obj c s'
              phase := Function.update M.phase c (.writing ((C c).tagout.zip out))
              hist := Function.update M.hist c (M.hist c ++ [out]) } (by simp)
          have ea : M.act C src c = { M with
              obj := Function.update M.obj c s'
              phase := Function.update M.phase c (.writing ((C c).tagout.zip out))
              hist := Function.update M.hist c (M.hist c ++ [out]) } := by
            simp [Net.act, h3, hpw, h2, hm, hl]
          have hwt : writeToTags (C c).tagout N.srv out = writeLoop ((C c).tagout.zip out) N.srv := by simp [writeToTags, hl]
          refine ⟨1 + n + (1 + k), by omega, ?_, ?_, ?_⟩ <;> rw [hN, run_replicate_add, run_one, ea]
          · rw [w1]; simp [h1, RtClient.step, hrd, hm, hwt]
          · rw [w2]; simp [h2, RtClient.step, hrd, hm]
          · exact w3
        · have ea : M.act C src c = { M with obj := Function.update M.obj c s', phase := Function.update M.phase c .idle } := by
            simp [Net.act, h3, hpw, h2, hm, hl]
          have hwt : (writeToTags (C c).tagout N.srv out).1 = N.srv := by simp [writeToTags, hl]
          refine ⟨1 + n + 1, by omega, ?_, ?_, ?_⟩ <;> rw [hN 1, run_one, ea]
          · simp [h1, RtClient.step, hrd, hm, hwt]
          · simp [h2, RtClient.step, hrd, hm]
          · simp
    · have hrd : readFromTags (C c).tagin N.srv = .error "ValueError" := by
        unfold readFromTags
        rw [hr]
        show (if _ then _ else _) = _
        rw [if_neg hpw]
      have ea : M.act C src c = { M with phase := Function.update M.phase c .idle } := by
        simp [Net.act, h3, hpw]
      refine ⟨1 + n + 1, by omega, ?_, ?_, ?_⟩ <;> rw [hN 1, run_one, ea]
      · simp [h1, RtClient.step, hrd]
      · simp [h2, RtClient.step, hrd]
      · simp

/-! ### MPC and simulator -/

/-- The clients of the usual loop: `true` is the controller, `false` the simulator.  What the solver does in the coming iterations is part of the
state of the controller. -/
def loopState (K : Type) (d : Dims) (n : Nat) : Bool → Type
  | true => MpcSt K d × List (SolverArgs K d → SolverResult K d n)
  | false => SimSt K d

/-- the two clients -/
def loopClients {K : Type} [Field K] [LinearOrder K] {d : Dims} (EM : MpcEnv K d) (ES : SimEnv K d)
    (S0 : SolverArgs K d → SolverResult K d EM.nLagr) (utags ytags : List String) : ∀ c, RtClient K (loopState K d EM.nLagr c)
  | true => ⟨ytags, utags, fun s x => (((EM.makeStep (s.2.headD S0) s.1 x).1, s.2.tail), (EM.makeStep (s.2.headD S0) s.1 x).2.map List.ofFn)⟩
  | false => ⟨utags, ytags, fun s u => ((ES.makeStep s { u := some u }).1, (ES.makeStep s { u := some u }).2.map List.ofFn)⟩

/-- the states of the two objects -/
def loopObjs {K : Type} {d : Dims} {n : Nat} (m : MpcSt K d) (Ss : List (SolverArgs K d → SolverResult K d n)) (s : SimSt K d) :
    ∀ c, loopState K d n c
  | true => (m, Ss)
  | false => s

section loop
variable {K : Type} [Field K] [LinearOrder K] {d : Dims}

theorem loop_wired (EM : MpcEnv K d) (ES : SimEnv K d) (S0 : SolverArgs K d → SolverResult K d EM.nLagr) (utags ytags : List String)
    (hu : utags.Nodup) (hy : ytags.Nodup) (hd : ∀ t ∈ utags, t ∉ ytags) : Wired (loopClients EM ES S0 utags ytags) (fun c => !c) := by
  refine ⟨?_, ?_, ?_⟩
  · intro c; cases c <;> rfl
  · intro c; cases c <;> assumption
  · intro c c' h t ht
    cases c <;> cases c' <;> simp_all [loopClients]
    exact fun h' => hd t h' ht

/-- **C88** (MPC and simulator).  A controller and a simulator that exchange input and measurement through the server and step in turn do exactly
what the loop `u = mpc.make_step(x); y = simulator.make_step(u); x = y` does, for every number of iterations and whatever the solver does. -/
theorem C88_mpc_loop (EM : MpcEnv K d) (ES : SimEnv K d) (S0 : SolverArgs K d → SolverResult K d EM.nLagr)
    (utags ytags : List String) (hu : utags.Nodup) (hy : ytags.Nodup) (hd : ∀ t ∈ utags, t ∉ ytags)
    (hul : utags.length = d.nu) (hyl : ytags.length = d.ny)
    (Ss : List (SolverArgs K d → SolverResult K d EM.nLagr)) (l l' : Loop K d) (hrun : Loop.iterate EM ES Ss l = some l')
    (S : Server K) (u0 : List K) (hS : Carries S ytags l.x) (hSu : Carries S utags u0) :
    (runSteps (loopClients EM ES S0 utags ytags) S (loopObjs l.mpc Ss l.sim) ((List.replicate Ss.length [true, false]).flatten)).2 =
      loopObjs l'.mpc [] l'.sim ∧
    readFromTags ytags
      (runSteps (loopClients EM ES S0 utags ytags) S (loopObjs l.mpc Ss l.sim) ((List.replicate Ss.length [true, false]).flatten)).1 =
      .ok l'.x := by
  have hw := loop_wired EM ES S0 utags ytags hu hy hd
  induction Ss generalizing l S u0 with
  | nil =>
    simp only [Loop.iterate, Option.some.injEq] at hrun
    subst hrun
    exact ⟨rfl, hS.read⟩
  | cons T Ss ih =>
    simp only [Loop.iterate, Option.bind_eq_some_iff] at hrun
    obtain ⟨l1, h1, h2⟩ := hrun
    unfold Loop.step at h1
    split at h1
    · simp at h1
    · rename_i m' u hmpc
      split at h1
      · simp at h1
      · rename_i s' y hsim
        simp only [Option.some.injEq] at h1
        have key := fun (r : List Bool) => (C88_steps _ _ hw S (fun c => match c with | true => u0 | false => l.x)
          (loopObjs l.mpc (T :: Ss) l.sim) (by intro c; cases c <;> assumption) r)
        obtain ⟨k1, k2⟩ := key [true, false]
        have e1 : mailSteps (loopClients EM ES S0 utags ytags) (fun c => !c) (fun c => match c with | true => u0 | false => l.x)
            (loopObjs l.mpc (T :: Ss) l.sim) [true, false] =
            ((fun c => match c with | true => List.ofFn u | false => List.ofFn y), loopObjs m' Ss s') := by
          have a1 : (loopClients EM ES S0 utags ytags true).makeStep (loopObjs l.mpc (T :: Ss) l.sim true) l.x =
              ((m', Ss), .ok (List.ofFn u)) := by
            simp only [loopClients, loopObjs, List.headD_cons, List.tail_cons, hmpc]
            rfl
          have a2 : (loopClients EM ES S0 utags ytags false).makeStep l.sim (List.ofFn u) = (s', .ok (List.ofFn y)) := by
            simp only [loopClients, hsim]
            rfl
          have a3 : (loopClients EM ES S0 utags ytags true).tagout = utags := rfl
          have a4 : (loopClients EM ES S0 utags ytags false).tagout = ytags := rfl
          simp only [mailSteps, Bool.not_true, Bool.not_false]
          rw [a1]
          simp only [a3, a4, List.length_ofFn, hul, if_true, Function.update_self]
          have a5 : Function.update (loopObjs l.mpc (T :: Ss) l.sim) true ((m', Ss) : loopState K d EM.nLagr true) false = l.sim := rfl
          rw [a5, a2]
          simp only [List.length_ofFn, hyl, if_true]
          refine Prod.ext ?_ ?_
          · funext c; cases c <;> rfl
          · funext c; cases c <;> rfl
        rw [e1] at k1 k2
        subst h1
        have e2 : ∀ r, runSteps (loopClients EM ES S0 utags ytags) S (loopObjs l.mpc (T :: Ss) l.sim) ([true, false] ++ r) =
            runSteps (loopClients EM ES S0 utags ytags)
              (runSteps (loopClients EM ES S0 utags ytags) S (loopObjs l.mpc (T :: Ss) l.sim) [true, false]).1
              (runSteps (loopClients EM ES S0 utags ytags) S (loopObjs l.mpc (T :: Ss) l.sim) [true, false]).2 r := fun r => rfl
        simp only [List.length_cons, List.replicate_succ, List.flatten_cons]
        rw [e2, k1]
        exact ih _ h2 _ (List.ofFn u) (k2 false) (k2 true)

end loop

/-! ### Examples -/

namespace OpcLoopEx

/-- Two clients: `false` returns the vectors `[1, 1]`, `[2, 2]`, …, whatever it reads; `true` copies what it reads. -/
def clients : Bool → RtClient Nat Nat
  | true => ⟨["a", "b"], ["u", "v"], fun s x => (s, .ok x)⟩
  | false => ⟨["u", "v"], ["a", "b"], fun s _ => (s + 1, .ok [s + 1, s + 1])⟩

theorem wired : Wired (σ := fun _ => Nat) clients (fun c => !c) := by
  refine ⟨?_, ?_, ?_⟩
  · intro c; cases c <;> rfl
  · intro c; cases c <;> decide
  · intro c c' h t ht
    cases c <;> cases c' <;> simp_all [clients]
    all_goals rcases ht with rfl | rfl <;> decide

/-- all tags hold zero -/
def server : Server Nat := fun _ => some [0]

theorem carries (c : Bool) : Carries server (clients c).tagout [0, 0] := by cases c <;> rfl

/-- whole steps in the order plant, plant, controller, plant -/
example : (runSteps (σ := fun _ => Nat) clients server (fun _ => 0) [false, false, true, false]).2 false = 3 ∧
    readFromTags ["u", "v"] (runSteps (σ := fun _ => Nat) clients server (fun _ => 0) [false, false, true, false]).1 = .ok [2, 2] :=
  ⟨by decide, rfl⟩

/-- the vectors in the mailboxes meet the hypothesis of `C88_steps` -/
example : ∀ c, Carries (runSteps (σ := fun _ => Nat) clients server (fun _ => 0) [false, false, true, false]).1 (clients c).tagout
    ((mailSteps (σ := fun _ => Nat) clients (fun c => !c) (fun _ => [0, 0]) (fun _ => 0) [false, false, true, false]).1 c) :=
  (C88_steps (σ := fun _ => Nat) clients _ wired server _ _ (fun c => carries c) _).2

/-- the plant begins its step, reads both tags, calls its object and writes one of the two components; then the controller reads -/
def torn : List Bool := [false, false, false, false, false] ++ [true, true, true]

/-- An undisturbed reading: the plant finishes its step first. -/
def whole : List Bool := [false, false, false, false, false, false, false] ++ [true, true, true]

/-- non-vacuity of `C88_undisturbed` -/
example : ((Net.start (σ := fun _ => Nat) server (fun _ => 0) (fun _ => [0, 0])).run clients (fun c => !c) whole).hist false = [[0, 0], [1, 1]] ∧
    ((Net.start (σ := fun _ => Nat) server (fun _ => 0) (fun _ => [0, 0])).run clients (fun c => !c) whole).since true = 2 ∧
    ((Net.start (σ := fun _ => Nat) server (fun _ => 0) (fun _ => [0, 0])).run clients (fun c => !c) whole).phase true = .reading [] [[1], [1]] :=
  ⟨by decide +kernel, by decide +kernel, rfl⟩

end OpcLoopEx

/-- **C88 is false** if requests are interleaved: the controller is given the vector `[1, 0]`, which the plant never returned: it has returned `[1, 1]`,
and `[0, 0]` was there before. -/
theorem C88_fails_torn :
    ∃ (C : Bool → RtClient Nat Nat) (S : Server Nat) (acts : List Bool),
      Wired (σ := fun _ => Nat) C (fun c => !c) ∧ (∀ c, Carries S (C c).tagout [0, 0]) ∧
      ((Net.start (σ := fun _ => Nat) S (fun _ => 0) (fun _ => [0, 0])).run C (fun c => !c) acts).phase true = .reading [] [[1], [0]] ∧
      ((Net.start (σ := fun _ => Nat) S (fun _ => 0) (fun _ => [0, 0])).run C (fun c => !c) acts).hist false = [[0, 0], [1, 1]] :=
  ⟨OpcLoopEx.clients, OpcLoopEx.server, OpcLoopEx.torn, OpcLoopEx.wired, OpcLoopEx.carries, rfl, by decide +kernel⟩

/-- non-vacuity of `C88_mpc_loop`: three iterations of the loop of C16 through a server -/
example : readFromTags ["x"] (runSteps (loopClients clMpc clSim clSolver ["u"] ["x"]) (fun t => if t = "x" then some [8] else some [0])
      (loopObjs (clMpc.fresh 0 (fun _ => 8) (fun _ => 0) (fun i => i.elim0)) [clSolver, clSolver, clSolver]
        (SimSt.fresh (fun _ => 8) (fun i => i.elim0))) ((List.replicate 3 [true, false]).flatten)).1 = .ok [1] := by
  have hrun : ∃ l', Loop.iterate clMpc clSim [clSolver, clSolver, clSolver]
      ⟨clMpc.fresh 0 (fun _ => 8) (fun _ => 0) (fun i => i.elim0), SimSt.fresh (fun _ => 8) (fun i => i.elim0), [8]⟩ = some l' ∧ l'.x = [1] := by
    have h : ((Loop.iterate clMpc clSim [clSolver, clSolver, clSolver]
      ⟨clMpc.fresh 0 (fun _ => 8) (fun _ => 0) (fun i => i.elim0), SimSt.fresh (fun _ => 8) (fun i => i.elim0), [8]⟩).map
        fun l => l.x) = some [1] := by decide +kernel
    obtain ⟨l', h1, h2⟩ := Option.map_eq_some_iff.1 h
    exact ⟨l', h1, h2⟩
  obtain ⟨l', h1, h2⟩ := hrun
  have := (C88_mpc_loop clMpc clSim clSolver ["u"] ["x"] (by decide) (by decide) (by decide) rfl rfl _ _ l' h1
    (fun t => if t = "x" then some [8] else some [0]) [0] (by rfl) (by rfl)).2
  rw [h2] at this
  exact this

end DoMpc.Opc
