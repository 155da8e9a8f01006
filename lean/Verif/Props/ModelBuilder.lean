import Verif.Spec.ModelBuilder
import Verif.Lemmas.Files
import Verif.Props.MheParams

set_option linter.unusedSectionVars false
set_option linter.unusedSimpArgs false

/-! # C27–C30: configuring a model -/
namespace DoMpc

/-! ### C28: variable types -/

theorem pyReplace_cases (old new : List Char) (hold : old ≠ []) (s : List Char) :
    (¬ old <:+: s ∧ pyReplace old new s = s) ∨ ∃ a b, s = a ++ old ++ b ∧ pyReplace old new s = a ++ new ++ pyReplace old new b := by
  induction s with
  | nil =>
    left
    refine ⟨fun h => hold (List.infix_nil.1 h), by unfold pyReplace; rfl⟩
  | cons c cs ih =>
    rw [pyReplace]
    by_cases hp : old <+: c :: cs
    · right
      rw [if_pos ⟨hold, hp⟩]
      obtain ⟨t, ht⟩ := hp
      refine ⟨[], t, by simp [ht], ?_⟩
      rw [← ht]; simp
    · rw [if_neg (fun h => hp h.2)]
      rcases ih with ⟨h1, h2⟩ | ⟨a, b, h1, h2⟩
      · left
        refine ⟨?_, by rw [h2]⟩
        intro h
        rcases List.infix_cons_iff.1 h with h | h
        · exact hp h
        · exact h1 h
      · right
        exact ⟨c :: a, b, by rw [h1]; simp, by rw [h2]; simp⟩

theorem pyReplace_nil_iff (old new : List Char) (hold : old ≠ []) (hnew : new ≠ []) (s : List Char) (h : pyReplace old new s = []) : s = [] := by
  rcases pyReplace_cases old new hold s with ⟨-, h'⟩ | ⟨a, b, -, h'⟩
  · rw [← h', h]
  · rw [h'] at h; simp [hnew] at h

/-- preimage of a string that does not contain the replacement -/
theorem pyReplace_eq_of_not_infix (old new : List Char) (hold : old ≠ []) (s t : List Char) (ht : ¬ new <:+: t) (h : pyReplace old new s = t) :
    s = t := by
  rcases pyReplace_cases old new hold s with ⟨-, h'⟩ | ⟨a, b, -, h'⟩
  · rw [← h', h]
  · exact absurd ⟨a, pyReplace old new b, h'.symm.trans h⟩ ht

/-- preimage of the replacement itself -/
theorem pyReplace_eq_new (old new : List Char) (hold : old ≠ []) (hnew : new ≠ []) (s : List Char) (h : pyReplace old new s = new) :
    s = new ∨ s = old := by
  rcases pyReplace_cases old new hold s with ⟨-, h'⟩ | ⟨a, b, h1, h'⟩
  · left; rw [← h', h]
  · right
    rw [h'] at h
    have hl := congrArg List.length h
    simp only [List.length_append] at hl
    have ha : a = [] := List.length_eq_zero_iff.1 (by omega)
    have hb : pyReplace old new b = [] := List.length_eq_zero_iff.1 (by omega)
    rw [h1, ha, pyReplace_nil_iff old new hold hnew b hb]
    simp

theorem pyReplace_parameter (s : List Char)
    (h : pyReplace "parameter".toList "_p".toList s = "timevarying_parameter".toList) : s = "timevaryingparameterarameter".toList := by
  rcases pyReplace_cases "parameter".toList "_p".toList (by decide) s with ⟨h1, h'⟩ | ⟨a, b, h1, h'⟩
  · exfalso
    rw [h'] at h
    subst h
    exact h1 (by decide)
  · rw [h] at h'
    have hl := congrArg List.length h'
    have hlen : "timevarying_parameter".toList.length = 21 := by decide
    have hlen2 : "_p".toList.length = 2 := by decide
    simp only [List.length_append, hlen, hlen2] at hl
    have ha : a = "timevarying_parameter".toList.take a.length := by
      rw [h', List.append_assoc, List.take_left']
      rfl
    have hb : pyReplace "parameter".toList "_p".toList b = "timevarying_parameter".toList.drop (a.length + 2) := by
      rw [h', ← hlen2, ← List.length_append, List.drop_left']
      rfl
    have hall : ∀ n ≤ 21, "timevarying_parameter".toList =
        "timevarying_parameter".toList.take n ++ "_p".toList ++ "timevarying_parameter".toList.drop (n + 2) → n = 11 := by decide
    have hn : a.length = 11 := by
      apply hall _ (by omega)
      rw [← hb, ← ha]; exact h'
    rw [hn] at ha hb
    have hb' : b = "arameter".toList := by
      refine pyReplace_eq_of_not_infix "parameter".toList "_p".toList (by decide) b "arameter".toList (by decide) ?_
      rw [hb]; decide
    rw [h1, ha, hb']
    decide

open Spec

theorem shortType_tvp (s : List Char) (h : shortType s = "_tvp".toList) : s = "_tvp".toList ∨ s = "timevaryingparameterarameter".toList := by
  unfold shortType at h
  have e3 : ∀ s t : List Char, (¬ "_z".toList <:+: t) → (¬ "_u".toList <:+: t) → (¬ "_x".toList <:+: t) →
      pyReplace "algebraic".toList "_z".toList (pyReplace "inputs".toList "_u".toList (pyReplace "states".toList "_x".toList s)) = t → s = t := by
    intro s t h1 h2 h3 h
    exact pyReplace_eq_of_not_infix _ _ (by decide) _ _ h3
      (pyReplace_eq_of_not_infix _ _ (by decide) _ _ h2 (pyReplace_eq_of_not_infix _ _ (by decide) _ _ h1 h))
  rcases pyReplace_eq_new _ _ (by decide) (by decide) _ h with h | h
  · have h := pyReplace_eq_of_not_infix _ _ (by decide) _ _ (by decide) h
    exact Or.inl (e3 _ _ (by decide) (by decide) (by decide) h)
  · exact Or.inr (e3 _ _ (by decide) (by decide) (by decide) (pyReplace_parameter _ h))

theorem shortType_simple (s t : List Char) (h : shortType s = t)
    (h1 : ¬ "_tvp".toList <:+: t) : pyReplace "parameter".toList "_p".toList (pyReplace "algebraic".toList "_z".toList
      (pyReplace "inputs".toList "_u".toList (pyReplace "states".toList "_x".toList s))) = t :=
  pyReplace_eq_of_not_infix _ _ (by decide) _ _ h1 h

theorem shortType_x (s : List Char) (h : shortType s = "_x".toList) : s = "_x".toList ∨ s = "states".toList := by
  have h := shortType_simple s _ h (by decide)
  have h := pyReplace_eq_of_not_infix _ _ (by decide) _ _ (by decide) h
  have h := pyReplace_eq_of_not_infix _ _ (by decide) _ _ (by decide) h
  have h := pyReplace_eq_of_not_infix _ _ (by decide) _ _ (by decide) h
  exact pyReplace_eq_new _ _ (by decide) (by decide) _ h

theorem shortType_u (s : List Char) (h : shortType s = "_u".toList) : s = "_u".toList ∨ s = "inputs".toList := by
  have h := shortType_simple s _ h (by decide)
  have h := pyReplace_eq_of_not_infix _ _ (by decide) _ _ (by decide) h
  have h := pyReplace_eq_of_not_infix _ _ (by decide) _ _ (by decide) h
  rcases pyReplace_eq_new _ _ (by decide) (by decide) _ h with h | h
  · exact Or.inl (pyReplace_eq_of_not_infix _ _ (by decide) _ _ (by decide) h)
  · exact Or.inr (pyReplace_eq_of_not_infix _ _ (by decide) _ _ (by decide) h)

theorem shortType_z (s : List Char) (h : shortType s = "_z".toList) : s = "_z".toList ∨ s = "algebraic".toList := by
  have h := shortType_simple s _ h (by decide)
  have h := pyReplace_eq_of_not_infix _ _ (by decide) _ _ (by decide) h
  rcases pyReplace_eq_new _ _ (by decide) (by decide) _ h with h | h
  · left
    have h := pyReplace_eq_of_not_infix _ _ (by decide) _ _ (by decide) h
    exact pyReplace_eq_of_not_infix _ _ (by decide) _ _ (by decide) h
  · right
    have h := pyReplace_eq_of_not_infix _ _ (by decide) _ _ (by decide) h
    exact pyReplace_eq_of_not_infix _ _ (by decide) _ _ (by decide) h

theorem shortType_p (s : List Char) (h : shortType s = "_p".toList) : s = "_p".toList ∨ s = "parameter".toList := by
  have h := shortType_simple s _ h (by decide)
  rcases pyReplace_eq_new _ _ (by decide) (by decide) _ h with h | h
  · left
    have h := pyReplace_eq_of_not_infix _ _ (by decide) _ _ (by decide) h
    have h := pyReplace_eq_of_not_infix _ _ (by decide) _ _ (by decide) h
    exact pyReplace_eq_of_not_infix _ _ (by decide) _ _ (by decide) h
  · right
    have h := pyReplace_eq_of_not_infix _ _ (by decide) _ _ (by decide) h
    have h := pyReplace_eq_of_not_infix _ _ (by decide) _ _ (by decide) h
    exact pyReplace_eq_of_not_infix _ _ (by decide) _ _ (by decide) h

theorem varKind_accepted : ∀ e ∈ acceptedTypes, varKind e.1 = some e.2 := by decide +kernel

theorem varKind_iff (s : String) (k : MKind) : varKind s = some k ↔ (s, k) ∈ acceptedTypes := by
  constructor
  · intro h
    have key : ∀ (n : String), s.toList = n.toList → s = n := fun n h => String.ext h
    unfold varKind at h
    dsimp only at h
    split at h
    · cases h
      rcases shortType_x _ ‹_› with h | h <;> simp [key _ h, acceptedTypes]
    · split at h
      · cases h
        rcases shortType_u _ ‹_› with h | h <;> simp [key _ h, acceptedTypes]
      · split at h
        · cases h
          rcases shortType_z _ ‹_› with h | h <;> simp [key _ h, acceptedTypes]
        · split at h
          · cases h
            rcases shortType_p _ ‹_› with h | h <;> simp [key _ h, acceptedTypes]
          · split at h
            · cases h
              rcases shortType_tvp _ ‹_› with h | h <;> simp [key _ h, acceptedTypes]
            · cases h
  · exact varKind_accepted (s, k)

variable {K : Type} [Zero K]

/-- **C28, partial.**  `set_variable` succeeds exactly if the type is one of the accepted names (every documented one except
`timevarying_parameter`) and no variable of the same kind has that name (nor is it `default`); the variable is then appended to its kind and nothing else changes.
Missing: `timevarying_parameter` (`C28_fails_timevarying_parameter`). -/
theorem C28_set_variable_partial (B B' : Builder K) (t n : String) (r : Nat) :
    B.exec (.setVar t n r) = .ok B' ↔
      ∃ k, (t, k) ∈ acceptedTypes ∧ (∀ r', (n, r') ∉ B.layout k) ∧ B'.layout k = B.layout k ++ [(n, r)] ∧
        (∀ k', k' ≠ k → B'.layout k' = B.layout k') ∧ B'.w = B.w ∧ B'.v = B.v ∧ B'.aux = B.aux ∧ B'.y = B.y ∧ B'.rhs = B.rhs ∧ B'.alg = B.alg := by
  have hmem : ∀ k, (n ∈ (B.layout k).map (·.1)) ↔ ∃ r', (n, r') ∈ B.layout k := by
    intro k; simp
  simp only [Builder.exec, Builder.setVar]
  constructor
  · intro h
    cases hk : varKind t with
    | none => simp [hk] at h
    | some k =>
      simp only [hk] at h
      split at h
      · cases h
      · rename_i hn
        rw [hmem, not_exists] at hn
        cases h
        refine ⟨k, (varKind_iff t k).1 hk, hn, ?_, ?_, ?_⟩
        · cases k <;> rfl
        · intro k' hk'
          cases k <;> cases k' <;> first | rfl | exact absurd rfl hk'
        · cases k <;> exact ⟨rfl, rfl, rfl, rfl, rfl, rfl⟩
  · rintro ⟨k, hk, hn, h1, h2, h3, h4, h5, h6, h7, h8⟩
    have hk' := (varKind_iff t k).2 hk
    have hn' : n ∉ (B.layout k).map (·.1) := by
      rw [hmem, not_exists]; exact hn
    simp only [hk', if_neg hn']
    congr 1
    cases B'
    have hx := h2 .x; have hu := h2 .u; have hz := h2 .z; have hp := h2 .p; have htv := h2 .tvp
    cases k <;> simp_all [Builder.addVar, Builder.layout]

/-- **C28 fails for a documented name**: `timevarying_parameter` is refused in every state of every model. -/
theorem C28_fails_timevarying_parameter : ("timevarying_parameter", MKind.tvp) ∈ documentedTypes ∧
    ∀ (B : Builder K) (n : String) (r : Nat), B.exec (.setVar "timevarying_parameter" n r) = .error "AssertionError" := by
  refine ⟨by decide, fun B n r => ?_⟩
  have : varKind "timevarying_parameter" = none := by decide +kernel
  simp [Builder.exec, Builder.setVar, this]

/-- All other documented names are accepted, with the documented meaning. -/
example : ∀ e ∈ documentedTypes, e.1 ≠ "timevarying_parameter" → e ∈ acceptedTypes := by decide

/-! ### C27, C29, C30: setup -/

/-- calls in order, until the first that raises -/
def Builder.runOps (B : Builder K) : List (MOp K) → Except String (Builder K)
  | [] => .ok B
  | op :: ops =>
    match B.exec op with
    | .ok B' => B'.runOps ops
    | .error e => .error e

theorem varKind_some_iff (t : String) (k k' : MKind) (h : varKind t = some k) : (t, k') ∈ acceptedTypes ↔ k' = k := by
  rw [← varKind_iff, h]; simp [eq_comm]

/-- the attributes after a history are those read off the calls -/
theorem runOps_fields (ops : List (MOp K)) (B B' : Builder K) (h : B.runOps ops = .ok B') :
    (∀ k, B'.layout k = B.layout k ++ declared k ops) ∧
    B'.rhs = B.rhs ++ (rhsCalls ops).map (fun c => (c.1, ⟨c.2.1, if c.2.2 then some (c.1 ++ "_noise") else none⟩)) ∧
    B'.y = B.y ++ (measCalls ops).map (fun c => (c.1, ⟨c.2.1, if c.2.2 then some (c.1 ++ "_noise") else none⟩)) ∧
    B'.w = B.w ++ noiseOf (rhsCalls ops) ∧ B'.v = B.v ++ noiseOf (measCalls ops) ∧
    B'.aux = B.aux ++ exprCalls ops ∧ B'.alg = B.alg ++ algCalls ops ∧
    ((∀ k, ((B.layout k).map (·.1)).Nodup) → ∀ k, ((B'.layout k).map (·.1)).Nodup) ∧
    (∀ c ∈ rhsCalls ops, c.1 ∈ B'.x.map (·.1)) := by
  induction ops generalizing B with
  | nil =>
    simp only [Builder.runOps, Except.ok.injEq] at h
    subst h
    simp [declared, rhsCalls, measCalls, noiseOf, exprCalls, algCalls]
  | cons op ops ih =>
    simp only [Builder.runOps] at h
    cases he : B.exec op with
    | error e => simp [he] at h
    | ok B1 =>
      simp only [he] at h
      obtain ⟨h1, h2, h3, h4, h5, h6, h7, h8, h9⟩ := ih B1 h
      cases op with
      | setVar t n r =>
        obtain ⟨k, hk, hn, g1, g2, g3, g4, g5, g6, g7, g8⟩ := (C28_set_variable_partial B B1 t n r).1 he
        have hk' := (varKind_iff t k).2 hk
        refine ⟨?_, by rw [h2, g7]; rfl, by rw [h3, g6]; rfl, by rw [h4, g3]; rfl, by rw [h5, g4]; rfl, by rw [h6, g5]; rfl,
          by rw [h7, g8]; rfl, ?_, h9⟩
        · intro k'
          rw [h1 k']
          by_cases hkk : k' = k
          · subst hkk
            simp [g1, declared, hk]
          · have : (t, k') ∉ acceptedTypes := fun hm => hkk ((varKind_some_iff t k k' hk').1 hm)
            simp [g2 k' hkk, declared, this]
        · intro hnd
          apply h8
          intro k'
          by_cases hkk : k' = k
          · subst hkk
            rw [g1, List.map_append, List.nodup_append]
            refine ⟨hnd k', by simp, ?_⟩
            intro a ha b hb hab
            simp only [List.map_cons, List.map_nil, List.mem_singleton] at hb
            subst hb hab
            obtain ⟨⟨n', r'⟩, hm, rfl⟩ := List.mem_map.1 ha
            exact hn r' hm
          · rw [g2 k' hkk]; exact hnd k'
      | setExpr n e =>
        simp only [Builder.exec, Except.ok.injEq] at he
        subst he
        exact ⟨fun k => by rw [h1 k]; cases k <;> rfl, h2, h3, h4, h5, by rw [h6]; simp [exprCalls], h7,
          fun hnd => h8 (fun k => by have := hnd k; cases k <;> exact this), h9⟩
      | setMeas n e b =>
        simp only [Builder.exec, Except.ok.injEq] at he
        subst he
        cases b
        · exact ⟨fun k => by rw [h1 k]; cases k <;> rfl, h2, by rw [h3]; simp [Builder.setMeas, measCalls], h4,
            by rw [h5]; simp [Builder.setMeas, measCalls, noiseOf], h6, h7,
            fun hnd => h8 (fun k => by have := hnd k; cases k <;> exact this), h9⟩
        · exact ⟨fun k => by rw [h1 k]; cases k <;> rfl, h2, by rw [h3]; simp [Builder.setMeas, measCalls], h4,
            by rw [h5]; simp [Builder.setMeas, measCalls, noiseOf], h6, h7,
            fun hnd => h8 (fun k => by have := hnd k; cases k <;> exact this), h9⟩
      | setRhs n e b =>
        simp only [Builder.exec, Builder.setRhs] at he
        split at he
        · rename_i hn
          simp only [Except.ok.injEq] at he
          subst he
          have hx := h1 .x
          cases b
          · refine ⟨fun k => by rw [h1 k]; cases k <;> rfl, by rw [h2]; simp [rhsCalls], h3, by rw [h4]; simp [rhsCalls, noiseOf], h5, h6, h7,
              fun hnd => h8 (fun k => by have := hnd k; cases k <;> exact this), ?_⟩
            intro c hc
            simp only [rhsCalls, List.filterMap_cons, List.mem_cons] at hc
            rcases hc with rfl | hc
            · simp only [Builder.layout] at hx
              rw [hx, List.map_append]
              exact List.mem_append_left _ hn
            · exact h9 c hc
          · refine ⟨fun k => by rw [h1 k]; cases k <;> rfl, by rw [h2]; simp [rhsCalls], h3, by rw [h4]; simp [rhsCalls, noiseOf], h5, h6, h7,
              fun hnd => h8 (fun k => by have := hnd k; cases k <;> exact this), ?_⟩
            intro c hc
            simp only [rhsCalls, List.filterMap_cons, List.mem_cons] at hc
            rcases hc with rfl | hc
            · simp only [Builder.layout] at hx
              rw [hx, List.map_append]
              exact List.mem_append_left _ hn
            · exact h9 c hc
        · cases he
      | setAlg n e =>
        simp only [Builder.exec, Except.ok.injEq] at he
        subst he
        exact ⟨fun k => by rw [h1 k]; cases k <;> rfl, h2, h3, h4, h5, h6, by rw [h7]; simp [algCalls],
          fun hnd => h8 (fun k => by have := hnd k; cases k <;> exact this), h9⟩


theorem foldl_defaultMeas (X : Layout) (B : Builder K) :
    let B' := X.foldl (fun B e => B.setMeas e.1 ⟨e.2, fun vals i => vals .x e.1 i⟩ true) B
    B'.x = B.x ∧ B'.u = B.u ∧ B'.z = B.z ∧ B'.p = B.p ∧ B'.tvp = B.tvp ∧ B'.w = B.w ∧ B'.aux = B.aux ∧ B'.rhs = B.rhs ∧ B'.alg = B.alg ∧
    B'.y = B.y ++ X.map (fun e => (e.1, ⟨⟨e.2, fun vals i => vals .x e.1 i⟩, some (e.1 ++ "_noise")⟩)) ∧
    B'.v = B.v ++ X.map (fun e => (e.1 ++ "_noise", e.2)) := by
  induction X generalizing B with
  | nil => simp
  | cons e X ih =>
    obtain ⟨h1, h2, h3, h4, h5, h6, h7, h8, h9, h10, h11⟩ := ih (B.setMeas e.1 ⟨e.2, fun vals i => vals .x e.1 i⟩ true)
    simp only [List.foldl_cons]
    refine ⟨h1, h2, h3, h4, h5, h6, h7, h8, h9, ?_, ?_⟩
    · rw [h10]; simp [Builder.setMeas]
    · rw [h11]; simp [Builder.setMeas]

/-- the attributes used by `setup` are those read off the calls -/
theorem configured_fields (ops : List (MOp K)) (B : Builder K) (h : ({} : Builder K).runOps ops = .ok B) :
    B.defaultMeas.x = declared .x ops ∧ B.defaultMeas.u = ("default", 0) :: declared .u ops ∧
    B.defaultMeas.z = ("default", 0) :: declared .z ops ∧ B.defaultMeas.p = ("default", 0) :: declared .p ops ∧
    B.defaultMeas.tvp = ("default", 0) :: declared .tvp ops ∧
    B.defaultMeas.w = ("default", 0) :: noiseOf (rhsCalls ops) ∧ B.defaultMeas.v = ("default", 0) :: noiseOf (measurements ops) ∧
    B.defaultMeas.y = (measurements ops).map (fun c => (c.1, ⟨c.2.1, if c.2.2 then some (c.1 ++ "_noise") else none⟩)) ∧
    B.defaultMeas.rhs = (rhsCalls ops).map (fun c => (c.1, ⟨c.2.1, if c.2.2 then some (c.1 ++ "_noise") else none⟩)) ∧
    B.defaultMeas.aux = ("default", ⟨1, fun _ _ => 0⟩) :: exprCalls ops ∧ B.defaultMeas.alg = ("default", ⟨0, fun _ _ => 0⟩) :: algCalls ops ∧
    (∀ k, ((B.defaultMeas.layout k).map (·.1)).Nodup) ∧ (∀ c ∈ rhsCalls ops, c.1 ∈ B.defaultMeas.x.map (·.1)) := by
  obtain ⟨h1, h2, h3, h4, h5, h6, h7, h8, h9⟩ := runOps_fields ops {} B h
  have hx := h1 .x; have hu := h1 .u; have hz := h1 .z; have hp := h1 .p; have htv := h1 .tvp
  simp only [Builder.layout, List.nil_append, List.cons_append] at hx hu hz hp htv h2 h3 h4 h5 h6 h7
  have hnd := h8 (by intro k; cases k <;> simp [Builder.layout])
  by_cases hm : measCalls ops = []
  · have hy : B.y = [] := by rw [h3, hm]; rfl
    have hD : B.defaultMeas = B.x.foldl (fun B e => B.setMeas e.1 ⟨e.2, fun vals i => vals .x e.1 i⟩ true) B := by
      simp [Builder.defaultMeas, hy]
    obtain ⟨g1, g2, g3, g4, g5, g6, g7, g8, g9, g10, g11⟩ := foldl_defaultMeas B.x B
    rw [← hD] at g1 g2 g3 g4 g5 g6 g7 g8 g9 g10 g11
    refine ⟨by rw [g1, hx], by rw [g2, hu], by rw [g3, hz], by rw [g4, hp], by rw [g5, htv], by rw [g6, h4], ?_, ?_, by rw [g8, h2],
      by rw [g7, h6], by rw [g9, h7], ?_, by rw [g1]; exact h9⟩
    · rw [g11, h5, hm, hx]
      simp [measurements, hm, noiseOf, List.filterMap_map, Function.comp_def]
    · rw [g10, hy, hx]
      simp [measurements, hm, Function.comp_def]
    · intro k
      have := hnd k
      cases k <;> simp only [Builder.layout, g1, g2, g3, g4, g5] at this ⊢ <;> exact this
  · have hy : B.y ≠ [] := by rw [h3]; simpa using hm
    have hD : B.defaultMeas = B := by
      have : B.y.isEmpty = false := by simpa using hy
      simp [Builder.defaultMeas, this]
    rw [hD]
    refine ⟨hx, hu, hz, hp, htv, h4, ?_, ?_, h2, h6, h7, hnd, h9⟩
    · rw [h5]; simp [measurements, hm]
    · rw [h3]; simp [measurements, hm]

theorem noise_names_ne_default (n : String) : n ++ "_noise" ≠ "default" := by
  intro h
  have := congrArg (fun s : String => s.toList.reverse.head?) h
  simp [String.toList_append] at this

theorem noise_name_inj {a b : String} (h : a ++ "_noise" = b ++ "_noise") : a = b := by
  have := congrArg String.toList h
  simp only [String.toList_append] at this
  exact String.ext (List.append_cancel_right this)

theorem noiseOf_nodup (calls : List (String × MExpr K × Bool)) (h : (calls.map (·.1)).Nodup) : ((noiseOf calls).map (·.1)).Nodup := by
  induction calls with
  | nil => simp [noiseOf]
  | cons c calls ih =>
    rw [List.map_cons, List.nodup_cons] at h
    have ih := ih h.2
    by_cases hc : c.2.2
    · have : noiseOf (c :: calls) = (c.1 ++ "_noise", c.2.1.rows) :: noiseOf calls := by simp [noiseOf, hc]
      rw [this, List.map_cons, List.nodup_cons]
      refine ⟨?_, ih⟩
      intro hm
      obtain ⟨e, he, heq⟩ := List.mem_map.1 hm
      simp only [noiseOf, List.mem_filterMap] at he
      obtain ⟨c', hc', hce⟩ := he
      split at hce
      · cases hce
        exact h.1 (List.mem_map.2 ⟨c', hc', noise_name_inj heq⟩)
      · cases hce
    · have : noiseOf (c :: calls) = noiseOf calls := by simp [noiseOf, hc]
      rw [this]; exact ih

theorem default_not_noise (calls : List (String × MExpr K × Bool)) : "default" ∉ (noiseOf calls).map (·.1) := by
  intro hm
  obtain ⟨e, he, heq⟩ := List.mem_map.1 hm
  simp only [noiseOf, List.mem_filterMap] at he
  obtain ⟨c', hc', hce⟩ := he
  split at hce
  · cases hce
    exact noise_names_ne_default _ heq
  · cases hce

theorem distinct_of_ops (ops : List (MOp K)) (B : Builder K) (h : ({} : Builder K).runOps ops = .ok B) (hd : DistinctNames ops) :
    B.defaultMeas.Distinct := by
  obtain ⟨h1, h2, h3, h4, h5, h6, h7, h8, h9, h10, h11, h12, h13⟩ := configured_fields ops B h
  obtain ⟨d1, d2, d3, d4⟩ := hd
  refine ⟨?_, ?_, ?_, ?_, ?_⟩
  · rw [h6, List.map_cons, List.nodup_cons]
    exact ⟨default_not_noise _, d1⟩
  · rw [h7, List.map_cons, List.nodup_cons]
    exact ⟨default_not_noise _, noiseOf_nodup _ (List.nodup_cons.1 d2).2⟩
  · rw [h8, List.map_map]; exact d2
  · rw [h10]; exact d3
  · rw [h11]; exact d4

theorem rhsLoop_spec (X : Layout) (l acc : List (String × MEq K)) :
    (∀ R, rhsLoop X l acc = .ok R → (∀ e ∈ l, X.lookup e.1 = some e.2.expr.rows) ∧
      ∀ n, R.lookup n = (l.reverse.lookup n).or (acc.lookup n)) ∧
    ((∀ e ∈ l, X.lookup e.1 = some e.2.expr.rows) → ∃ R, rhsLoop X l acc = .ok R) := by
  induction l generalizing acc with
  | nil => simp [rhsLoop]
  | cons e l ih =>
    obtain ⟨n, e⟩ := e
    simp only [rhsLoop]
    by_cases hr : X.lookup n = some e.expr.rows
    · rw [if_pos hr]
      obtain ⟨i1, i2⟩ := ih (dictSet acc n e)
      refine ⟨fun R hR => ?_, fun hall => i2 (fun a ha => hall a (by simp [ha]))⟩
      obtain ⟨j1, j2⟩ := i1 R hR
      refine ⟨?_, ?_⟩
      · intro a ha
        rcases List.mem_cons.1 ha with rfl | ha
        · exact hr
        · exact j1 a ha
      · intro m
        rw [j2 m, lookup_dictSet, List.reverse_cons, List.lookup_append, lookup_cons_ite, List.lookup_nil]
        by_cases hm : m = n
        · subst hm; cases l.reverse.lookup m <;> simp
        · have hm' : n ≠ m := fun h => hm h.symm
          cases l.reverse.lookup m <;> simp [hm, hm']
    · rw [if_neg hr]
      refine ⟨fun R hR => (by cases hR), fun hall => absurd (hall (n, e) (by simp)) hr⟩


theorem lookup_eq_some_of_nodup {α β : Type} [DecidableEq α] (l : List (α × β)) (h : (l.map (·.1)).Nodup) (a : α) (b : β) :
    l.lookup a = some b ↔ (a, b) ∈ l := by
  induction l with
  | nil => simp
  | cons e l ih =>
    rw [List.map_cons, List.nodup_cons] at h
    rw [lookup_cons_ite, List.mem_cons]
    by_cases he : a = e.1
    · subst he
      rw [if_pos rfl]
      constructor
      · intro hb; cases hb; exact Or.inl rfl
      · rintro (hb | hb)
        · rw [← hb]
        · exact absurd (List.mem_map.2 ⟨_, hb, rfl⟩) h.1
    · rw [if_neg (by simpa using he), ih h.2]
      constructor
      · exact Or.inr
      · rintro (hb | hb)
        · exact absurd (by rw [← hb]) he
        · exact hb

theorem lookup_isSome_iff {α β : Type} [DecidableEq α] (l : List (α × β)) (a : α) : (l.lookup a).isSome = true ↔ ∃ b, (a, b) ∈ l := by
  induction l with
  | nil => simp
  | cons e l ih =>
    rw [lookup_cons_ite]
    by_cases he : a = e.1
    · subst he
      simp only [if_true, Option.isSome_some, true_iff]
      exact ⟨e.2, by simp⟩
    · rw [if_neg (by simpa using he), ih]
      constructor
      · rintro ⟨b, hb⟩; exact ⟨b, by simp [hb]⟩
      · rintro ⟨b, hb⟩
        rcases List.mem_cons.1 hb with hb | hb
        · exact absurd (by rw [← hb]) he
        · exact ⟨b, hb⟩

theorem lookup_map_snd {α β γ : Type} [DecidableEq α] (l : List (α × β)) (f : α → β → γ) (a : α) :
    (l.map fun c => (c.1, f c.1 c.2)).lookup a = (l.lookup a).map (f a) := by
  induction l with
  | nil => rfl
  | cons e l ih =>
    rw [List.map_cons, lookup_cons_ite, lookup_cons_ite]
    by_cases he : a = e.1
    · subst he; simp
    · rw [if_neg (by simpa using he), if_neg (by simpa using he), ih]

section Setup
variable {K : Type} [AddMonoid K]

/-- what `setup` does for a configuration without repeated names -/
theorem setup_eq (ops : List (MOp K)) (B : Builder K) (h : ({} : Builder K).runOps ops = .ok B) (hd : DistinctNames ops)
    (dup : Builder K → Except String (MFuns K)) :
    (∀ F, B.setup dup = .ok F → (∀ c ∈ rhsCalls ops, (c.1, c.2.1.rows) ∈ declared .x ops) ∧
      (∀ s ∈ declared .x ops, ∃ c ∈ rhsCalls ops, c.1 = s.1) ∧ (declared .z ops).size = rowsOf (algCalls ops) ∧
      ∃ R : List (String × MEq K), F = B.defaultMeas.funs R ∧ ∀ n, R.lookup n = (lastRhs n ops).map fun c =>
        ⟨c.1, if c.2 then some (n ++ "_noise") else none⟩) ∧
    ((∀ c ∈ rhsCalls ops, (c.1, c.2.1.rows) ∈ declared .x ops) ∧
      (∀ s ∈ declared .x ops, ∃ c ∈ rhsCalls ops, c.1 = s.1) ∧ (declared .z ops).size = rowsOf (algCalls ops) →
      ∃ F, B.setup dup = .ok F) := by
  obtain ⟨h1, h2, h3, h4, h5, h6, h7, h8, h9, h10, h11, h12, h13⟩ := configured_fields ops B h
  have hD := distinct_of_ops ops B h hd
  have hnx := h12 .x
  simp only [Builder.layout, h1] at hnx
  have hz : B.defaultMeas.z.size = (declared .z ops).size := by rw [h3]; simp [Layout.size]
  have ha : rowsOf B.defaultMeas.alg = rowsOf (algCalls ops) := by rw [h11]; simp [rowsOf]
  have hrows : (∀ e ∈ B.defaultMeas.rhs, B.defaultMeas.x.lookup e.1 = some e.2.expr.rows) ↔
      ∀ c ∈ rhsCalls ops, (c.1, c.2.1.rows) ∈ declared .x ops := by
    rw [h9, h1]
    simp only [List.mem_map, forall_exists_index, and_imp, forall_apply_eq_imp_iff₂]
    exact forall₂_congr fun c _ => lookup_eq_some_of_nodup _ hnx _ _
  obtain ⟨l1, l2⟩ := rhsLoop_spec B.defaultMeas.x B.defaultMeas.rhs []
  have hlast : ∀ n, (B.defaultMeas.rhs.reverse.lookup n).or (List.lookup n []) = (lastRhs n ops).map fun c =>
      (⟨c.1, if c.2 then some (n ++ "_noise") else none⟩ : MEq K) := by
    intro n
    rw [h9, ← List.map_reverse, lookup_map_snd (rhsCalls ops).reverse
      (fun n c => (⟨c.1, if c.2 then some (n ++ "_noise") else none⟩ : MEq K)) n]
    simp [lastRhs]
  have hsome : ∀ R : List (String × MEq K), (∀ n, R.lookup n = (lastRhs n ops).map fun c =>
      (⟨c.1, if c.2 then some (n ++ "_noise") else none⟩ : MEq K)) →
      ((∀ s ∈ B.defaultMeas.x, (R.lookup s.1).isSome = true) ↔ ∀ s ∈ declared .x ops, ∃ c ∈ rhsCalls ops, c.1 = s.1) := by
    intro R hR
    rw [h1]
    refine forall₂_congr fun s _ => ?_
    rw [hR, Option.isSome_map, lastRhs, lookup_isSome_iff]
    constructor
    · rintro ⟨b, hb⟩; exact ⟨(s.1, b), List.mem_reverse.1 hb, rfl⟩
    · rintro ⟨c, hc, hcs⟩; exact ⟨c.2, List.mem_reverse.2 (by rw [← hcs]; exact hc)⟩
  refine ⟨?_, ?_⟩
  · intro F hF
    unfold Builder.setup at hF
    dsimp only at hF
    rw [if_pos hD] at hF
    cases hR : rhsLoop B.defaultMeas.x B.defaultMeas.rhs [] with
    | error e => simp [hR] at hF
    | ok R =>
      obtain ⟨r1, r2⟩ := l1 R hR
      have r3 : ∀ n, R.lookup n = _ := fun n => (r2 n).trans (hlast n)
      simp only [hR] at hF
      split at hF
      · rename_i hall
        split at hF
        · rename_i hzz
          cases hF
          exact ⟨hrows.1 r1, (hsome R r3).1 hall, by rw [← hz, hzz, ha], R, rfl, r3⟩
        · cases hF
      · cases hF
  · rintro ⟨c1, c2, c3⟩
    obtain ⟨R, hR⟩ := l2 (hrows.2 c1)
    have r3 : ∀ n, R.lookup n = _ := fun n => ((l1 R hR).2 n).trans (hlast n)
    refine ⟨B.defaultMeas.funs R, ?_⟩
    unfold Builder.setup
    dsimp only
    rw [if_pos hD, hR]
    dsimp only
    rw [if_pos ((hsome R r3).2 c2), if_pos (by rw [hz, ha, c3])]

/-- **C27: exactly the complete configurations can be set up.**  For every history of configuration calls without repeated names:
`setup` succeeds iff every right-hand side has the size of its state, every state has a right-hand side, and the numbers of algebraic
equations and algebraic states agree. -/
theorem C27_setup_iff (ops : List (MOp K)) (B : Builder K) (h : ({} : Builder K).runOps ops = .ok B) (hd : DistinctNames ops)
    (dup : Builder K → Except String (MFuns K)) :
    (∃ F, B.setup dup = .ok F) ↔ (∀ c ∈ rhsCalls ops, (c.1, c.2.1.rows) ∈ declared .x ops) ∧
      (∀ s ∈ declared .x ops, ∃ c ∈ rhsCalls ops, c.1 = s.1) ∧ (declared .z ops).size = rowsOf (algCalls ops) := by
  obtain ⟨h1, h2⟩ := setup_eq ops B h hd dup
  exact ⟨fun ⟨F, hF⟩ => ⟨(h1 F hF).1, (h1 F hF).2.1, (h1 F hF).2.2.1⟩, h2⟩

theorem entry_getD (L : Layout) (v : String → Nat → K) (hn : (L.map (·.1)).Nodup) (n : String) (r i : Nat) (he : (n, r) ∈ L) (hi : i < r) :
    (L.entry (L.flat v) n).getD i 0 = v n i := by
  rw [entry_flat L v hn (n, r) he]
  simp [List.getD_eq_getElem?_getD, hi]

theorem vals_flat (B : Builder K) (hn : ∀ k, ((B.layout k).map (·.1)).Nodup) (val : MVal K) (k : MKind) (n : String) (r i : Nat)
    (he : (n, r) ∈ B.layout k) (hi : i < r) :
    B.vals (B.x.flat (val .x)) (B.u.flat (val .u)) (B.z.flat (val .z)) (B.tvp.flat (val .tvp)) (B.p.flat (val .p)) k n i = val k n i := by
  cases k <;> exact entry_getD _ _ (hn _) n r i he hi

theorem flat_default (L : Layout) (v : String → Nat → K) : Layout.flat (("default", 0) :: L) v = L.flat v := by
  rw [flat_cons]; simp

/-- **C27, C29, C30: the functions of a set-up model.**  For every history of configuration calls without repeated names after which
`setup` succeeds, all values of the variables and of the noise: evaluated on the vectors of these values (in order of declaration),
the right-hand side is, state by state, the expression given *last* for it plus the requested noise; algebraic equations, auxiliary
expressions (after a leading 0) and measurements are the given expressions in order; without any `set_meas` the measurements are the states plus noise;
the dimensions are the numbers of entries declared. -/
theorem C27_functions (ops : List (MOp K)) (B : Builder K) (h : ({} : Builder K).runOps ops = .ok B) (hd : DistinctNames ops)
    (dup : Builder K → Except String (MFuns K)) (F : MFuns K) (hF : B.setup dup = .ok F)
    (hu : ∀ c ∈ rhsCalls ops ++ measCalls ops, UsesDeclared ops c.2.1) (hu' : ∀ c ∈ algCalls ops ++ exprCalls ops, UsesDeclared ops c.2)
    (val : MVal K) (w v : String → Nat → K) :
    let X := (declared .x ops).flat (val .x); let U := (declared .u ops).flat (val .u); let Z := (declared .z ops).flat (val .z)
    let T := (declared .tvp ops).flat (val .tvp); let P := (declared .p ops).flat (val .p)
    let W := (noiseOf (rhsCalls ops)).flat w; let V := (noiseOf (measurements ops)).flat v
    (∀ s ∈ declared .x ops, ∃ e noise, lastRhs s.1 ops = some (e, noise) ∧
      (declared .x ops).entry (F.rhs X U Z T P W) s.1 = (List.range s.2).map (withNoise (s.1, e, noise) val w)) ∧
    F.alg X U Z T P W = (algCalls ops).flatMap (fun c => (List.range c.2.rows).map (c.2.eval val)) ∧
    F.aux X U Z T P = 0 :: (exprCalls ops).flatMap (fun c => (List.range c.2.rows).map (c.2.eval val)) ∧
    F.meas X U Z T P V = (measurements ops).flatMap (fun c => (List.range c.2.1.rows).map (withNoise c val v)) ∧
    F.nx = (declared .x ops).size ∧ F.nu = (declared .u ops).size ∧ F.nz = (declared .z ops).size ∧ F.ntvp = (declared .tvp ops).size ∧
    F.np = (declared .p ops).size ∧ F.nw = (noiseOf (rhsCalls ops)).size ∧ F.nv = (noiseOf (measurements ops)).size ∧
    F.ny = ((measurements ops).map (·.2.1.rows)).sum := by
  intro X U Z T P W V
  obtain ⟨h1, h2, h3, h4, h5, h6, h7, h8, h9, h10, h11, h12, h13⟩ := configured_fields ops B h
  obtain ⟨c1, c2, c3, R, hFR, hR⟩ := (setup_eq ops B h hd dup).1 F hF
  set D := B.defaultMeas with hDdef
  have hX : D.x.flat (val .x) = X := by rw [h1]
  have hU : D.u.flat (val .u) = U := by rw [h2, flat_default]
  have hZ : D.z.flat (val .z) = Z := by rw [h3, flat_default]
  have hT : D.tvp.flat (val .tvp) = T := by rw [h5, flat_default]
  have hP : D.p.flat (val .p) = P := by rw [h4, flat_default]
  have hW : D.w.flat w = W := by rw [h6, flat_default]
  have hV : D.v.flat v = V := by rw [h7, flat_default]
  have hdD : D.Distinct := distinct_of_ops ops B h hd
  have hval : ∀ k n r, (n, r) ∈ declared k ops → ∀ i < r, D.vals X U Z T P k n i = val k n i := by
    intro k n r hm i hi
    rw [← hX, ← hU, ← hZ, ← hT, ← hP]
    refine vals_flat D h12 val k n r i ?_ hi
    cases k <;> simp only [Builder.layout, h1, h2, h3, h4, h5] <;> first | exact hm | exact List.mem_cons_of_mem _ hm
  have heval : ∀ e : MExpr K, UsesDeclared ops e → ∀ i < e.rows, e.eval (D.vals X U Z T P) i = e.eval val i := fun e he => he _ _ hval
  have hnoise : ∀ (calls : List (String × MExpr K × Bool)) (L : Layout) (nz : String → Nat → K), L = ("default", 0) :: noiseOf calls →
      (L.map (·.1)).Nodup → ∀ c ∈ calls, c.2.2 = true → ∀ i < c.2.1.rows, (L.entry (L.flat nz) (c.1 ++ "_noise")).getD i 0 = nz (c.1 ++ "_noise") i := by
    intro calls L nz hL hn c hc hb i hi
    refine entry_getD L nz hn _ c.2.1.rows i ?_ hi
    rw [hL]
    exact List.mem_cons_of_mem _ (List.mem_filterMap.2 ⟨c, hc, by simp [hb]⟩)
  subst hFR
  refine ⟨?_, ?_, ?_, ?_, by simp only [Builder.funs, h1], ?_, ?_, ?_, ?_, ?_, ?_, ?_⟩
  · intro s hs
    obtain ⟨c, hc, hcs⟩ := c2 s hs
    have hsome : (lastRhs s.1 ops).isSome = true := by
      rw [lastRhs, lookup_isSome_iff]
      exact ⟨c.2, List.mem_reverse.2 (by rw [← hcs]; exact hc)⟩
    obtain ⟨⟨e, b⟩, heb⟩ := Option.isSome_iff_exists.1 hsome
    refine ⟨e, b, heb, ?_⟩
    have hmem : (s.1, e, b) ∈ rhsCalls ops := by
      have : ∀ (l : List (String × MExpr K × Bool)) a y, l.lookup a = some y → (a, y) ∈ l := by
        intro l a y hy
        induction l with
        | nil => simp at hy
        | cons q l ih =>
          rw [lookup_cons_ite] at hy
          split at hy
          · rename_i haq
            cases hy
            rw [haq]; simp
          · exact List.mem_cons_of_mem _ (ih hy)
      exact List.mem_reverse.1 (this _ _ _ heb)
    have hrows : e.rows = s.2 := by
      have := c1 _ hmem
      have hnx := h12 .x
      simp only [Builder.layout, h1] at hnx
      have a1 := (lookup_eq_some_of_nodup _ hnx _ _).2 this
      have a2 := (lookup_eq_some_of_nodup _ hnx s.1 s.2).2 hs
      rw [a1] at a2
      exact Option.some.inj a2
    have hflat : (D.funs R).rhs X U Z T P W = (declared .x ops).flat (fun n i =>
        match R.lookup n with
        | some e => e.value D.w (D.vals X U Z T P) W i
        | none => 0) := by
      rw [← h1]; rfl
    have hnx := h12 .x
    simp only [Builder.layout, h1] at hnx
    rw [hflat, entry_flat _ _ hnx s hs]
    apply List.map_congr_left
    intro i hi
    have hi : i < s.2 := List.mem_range.1 hi
    rw [hR, heb]
    simp only [Option.map_some, MEq.value, withNoise]
    rw [heval e (hu _ (List.mem_append_left _ hmem)) i (by rw [hrows]; exact hi)]
    cases b
    · simp only [Bool.false_eq_true, if_false, add_zero]
    · simp only [if_true]
      congr 1
      rw [← hW]
      exact hnoise (rhsCalls ops) D.w w h6 hdD.1 _ hmem rfl i (by rw [hrows]; exact hi)
  · simp only [Builder.funs, h11, List.flatMap_cons, List.range_zero, List.map_nil, List.nil_append]
    apply List.flatMap_congr
    intro c hc
    exact List.map_congr_left fun i hi => heval c.2 (hu' c (List.mem_append_left _ hc)) i (List.mem_range.1 hi)
  · simp only [Builder.funs, h10, List.flatMap_cons, List.range_one, List.map_cons, List.map_nil, List.cons_append, List.nil_append]
    congr 1
    apply List.flatMap_congr
    intro c hc
    exact List.map_congr_left fun i hi => heval c.2 (hu' c (List.mem_append_right _ hc)) i (List.mem_range.1 hi)
  · simp only [Builder.funs, h8, List.flatMap_map]
    apply List.flatMap_congr
    intro c hc
    apply List.map_congr_left
    intro i hi
    have hi : i < c.2.1.rows := List.mem_range.1 hi
    have huses : c.2.1.eval (D.vals X U Z T P) i = c.2.1.eval val i := by
      by_cases hm : measCalls ops = []
      · rw [measurements, if_pos hm] at hc
        obtain ⟨s, hs, rfl⟩ := List.mem_map.1 hc
        exact hval .x s.1 s.2 hs i hi
      · rw [measurements, if_neg hm] at hc
        exact heval c.2.1 (hu _ (List.mem_append_right _ hc)) i hi
    cases hb : c.2.2
    · simp [MEq.value, withNoise, hb, huses]
    · simp only [MEq.value, withNoise, hb, if_true, huses]
      congr 1
      rw [← hV]
      exact hnoise (measurements ops) D.v v h7 hdD.2.1 c hc hb i hi
  · simp only [Builder.funs, h2]; simp [Layout.size]
  · simp only [Builder.funs, h3]; simp [Layout.size]
  · simp only [Builder.funs, h5]; simp [Layout.size]
  · simp only [Builder.funs, h4]; simp [Layout.size]
  · simp only [Builder.funs, h6]; simp [Layout.size]
  · simp only [Builder.funs, h7]; simp [Layout.size]
  · simp only [Builder.funs, h8, List.map_map]; rfl

/-- **C30.**  If no measurement is configured, the model has as many measurements as states, and with zero noise the measurement
function returns the state. -/
theorem C30_state_feedback (ops : List (MOp K)) (B : Builder K) (h : ({} : Builder K).runOps ops = .ok B) (hd : DistinctNames ops)
    (dup : Builder K → Except String (MFuns K)) (F : MFuns K) (hF : B.setup dup = .ok F) (hm : measCalls ops = [])
    (hu : ∀ c ∈ rhsCalls ops, UsesDeclared ops c.2.1) (hu' : ∀ c ∈ algCalls ops ++ exprCalls ops, UsesDeclared ops c.2) (val : MVal K) :
    F.ny = F.nx ∧
    F.meas ((declared .x ops).flat (val .x)) ((declared .u ops).flat (val .u)) ((declared .z ops).flat (val .z))
      ((declared .tvp ops).flat (val .tvp)) ((declared .p ops).flat (val .p)) (List.replicate F.nv 0) = (declared .x ops).flat (val .x) := by
  obtain ⟨-, -, -, f4, f5, -, -, -, -, -, f11, f12⟩ :=
    C27_functions ops B h hd dup F hF (by simpa [hm] using hu) hu' val (fun _ _ => 0) (fun _ _ => 0)
  have hz : ∀ L : Layout, Layout.flat L (fun _ _ => (0 : K)) = List.replicate L.size 0 := by
    intro L
    rw [List.eq_replicate_iff]
    refine ⟨flat_length L _, ?_⟩
    intro b hb
    simp only [Layout.flat, List.mem_flatMap, List.mem_map] at hb
    obtain ⟨_, _, _, _, rfl⟩ := hb
    rfl
  refine ⟨?_, ?_⟩
  · rw [f12, f5]
    simp [measurements, hm, Layout.size, Function.comp_def]
  · rw [hz, ← f11] at f4
    rw [f4]
    simp only [measurements, hm, if_true, List.flatMap_map, Layout.flat]
    apply List.flatMap_congr
    intro c _
    apply List.map_congr_left
    intro i _
    simp [withNoise]

/-- **C27: a set-up model is frozen.**  After a successful `setup`, whatever is called, every call raises and the model stays the same. -/
theorem C27_frozen (dup : Builder K → Except String (MFuns K)) (B B' : Builder K) (F : MFuns K)
    (h : (ModelObj.building B).exec dup .setup = (.ready B' F, none)) (calls : List (MCall K)) :
    (ModelObj.ready B' F).run dup calls = .ready B' F ∧ ∀ c, ((ModelObj.ready B' F).exec dup c).2 ≠ none := by
  refine ⟨?_, ?_⟩
  · induction calls with
    | nil => rfl
    | cons c cs ih => cases c <;> exact ih
  · intro c; cases c <;> simp [ModelObj.exec]

/-- Calls that raise before `setup` change nothing. -/
theorem C27_refused_no_effect (dup : Builder K → Except String (MFuns K)) (B : Builder K) (o : MOp K)
    (h : ((ModelObj.building B).exec dup (.op o)).2 ≠ none) : ((ModelObj.building B).exec dup (.op o)).1 = .building B := by
  simp only [ModelObj.exec] at h ⊢
  cases he : B.exec o with
  | ok B' => simp [he] at h
  | error e => rfl

/-- **C29, partial: names of variables.**  A second variable of the same kind and name is refused, also the name `default`
except for states.  Missing: right-hand sides (`C29_fails_second_rhs`) and measurements (left to CasADi). -/
theorem C29_duplicate_variable_partial (B : Builder K) (t n : String) (r r' : Nat) (k : MKind) (hk : (t, k) ∈ acceptedTypes)
    (hm : (n, r') ∈ B.layout k) : B.exec (.setVar t n r) = .error "AssertionError" := by
  have hk' := (varKind_iff t k).2 hk
  have : n ∈ (B.layout k).map (·.1) := List.mem_map.2 ⟨_, hm, rfl⟩
  simp [Builder.exec, Builder.setVar, hk', this]

end Setup

/-- one state with two right-hand sides: `x` and then `0` -/
def twoRhs : List (MOp Int) := [.setVar "_x" "x" 1, .setRhs "x" ⟨1, fun val => val .x "x"⟩ false, .setRhs "x" ⟨1, fun _ _ => 0⟩ false]

/-- **C29 fails for right-hand sides**: the second definition is accepted silently and replaces the first. -/
theorem C29_fails_second_rhs : ∃ B F, ({} : Builder Int).runOps twoRhs = .ok B ∧ (∀ dup, B.setup dup = .ok F) ∧
    F.rhs [5] [] [] [] [] [] = [0] := by
  have hk : varKind "_x" = some .x := by decide +kernel
  refine ⟨{ x := [("x", 1)], rhs := [("x", ⟨⟨1, fun val => val .x "x"⟩, none⟩), ("x", ⟨⟨1, fun _ _ => 0⟩, none⟩)] },
    Builder.funs (Builder.defaultMeas { x := [("x", 1)], rhs := [("x", ⟨⟨1, fun val => val .x "x"⟩, none⟩), ("x", ⟨⟨1, fun _ _ => 0⟩, none⟩)] })
      [("x", ⟨⟨1, fun _ _ => 0⟩, none⟩)], ?_, fun dup => ?_, ?_⟩
  · simp [twoRhs, Builder.runOps, Builder.exec, Builder.setVar, Builder.setRhs, hk, Builder.layout, Builder.addVar]
  · simp [Builder.setup, Builder.defaultMeas, Builder.setMeas, Builder.Distinct, rhsLoop, dictSet, rowsOf, Layout.size, List.lookup]
  · simp [Builder.funs, Builder.defaultMeas, Builder.setMeas, MEq.value, List.lookup]

/-- Non-vacuity: a model with a state, an input, an algebraic state, noise, an expression; no measurement. -/
def sampleOps : List (MOp Int) :=
  [.setVar "states" "x" 2, .setVar "_u" "u" 1, .setVar "algebraic" "z" 1, .setExpr "a" ⟨1, fun val i => val .u "u" i⟩,
   .setRhs "x" ⟨2, fun val i => val .x "x" i + val .u "u" 0⟩ true, .setAlg "g" ⟨1, fun val i => val .z "z" i - val .u "u" i⟩]

example : DistinctNames sampleOps := by
  refine ⟨?_, ?_, ?_, ?_⟩ <;> decide +kernel

example : ∃ B, ({} : Builder Int).runOps sampleOps = .ok B ∧ ∀ dup, ∃ F, B.setup dup = .ok F := by
  have h1 : varKind "states" = some .x := by decide +kernel
  have h2 : varKind "_u" = some .u := by decide +kernel
  have h3 : varKind "algebraic" = some .z := by decide +kernel
  have hrun : ∃ B, ({} : Builder Int).runOps sampleOps = .ok B := by
    simp [sampleOps, Builder.runOps, Builder.exec, Builder.setVar, Builder.setRhs, h1, h2, h3, Builder.layout, Builder.addVar]
  obtain ⟨B, hB⟩ := hrun
  refine ⟨B, hB, fun dup => (C27_setup_iff sampleOps B hB (by refine ⟨?_, ?_, ?_, ?_⟩ <;> decide +kernel) dup).2 ⟨?_, ?_, ?_⟩⟩
  · intro c hc
    simp only [sampleOps, rhsCalls, List.filterMap_cons, List.filterMap_nil, List.mem_singleton] at hc
    subst hc
    decide +kernel
  · intro s hs
    have : declared .x sampleOps = [("x", 2)] := by decide +kernel
    rw [this, List.mem_singleton] at hs
    subst hs
    exact ⟨("x", ⟨2, fun val i => val .x "x" i + val .u "u" 0⟩, true), by simp [sampleOps, rhsCalls], rfl⟩
  · decide +kernel

end DoMpc
