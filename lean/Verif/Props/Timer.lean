import Verif.Spec.Timer
import Mathlib.Tactic.Linarith
import Mathlib.Tactic.FieldSimp
import Mathlib.Algebra.Field.Rat
import Mathlib.Algebra.Order.Ring.Unbundled.Rat

/-!
# C116: the timer
-/
set_option linter.unusedSectionVars false
namespace DoMpc
open Spec
variable {K : Type} [Field K] [LinearOrder K]

theorem timer_run_append (T : Timer K) (a b : List (TimerOp K)) : T.run (a ++ b) = (T.run a).run b := List.foldl_append

theorem mt_toc (t : K) (l : List (TimerOp K)) : measuredTimes (.toc t :: l) = measuredTimes l := by
  rw [measuredTimes]; intro s' t' r h1; cases h1

theorem mt_tictic (s t : K) (l : List (TimerOp K)) : measuredTimes (.tic s :: .tic t :: l) = measuredTimes (.tic t :: l) := by
  conv_lhs => unfold measuredTimes

/-- the list and the pending start along a history -/
theorem timer_run (ops : List (TimerOp K)) : ∀ T : Timer K, T.tStart = none →
    (T.run ops).tList = T.tList ++ measuredTimes ops ∧ (T.run ops).factor = T.factor ∧ (T.run ops).unit = T.unit := by
  have gen : ∀ (n : Nat) (ops : List (TimerOp K)), ops.length ≤ n → ∀ T : Timer K,
      (T.tStart = none ∨ T.tStart = some 0 → (T.run ops).tList = T.tList ++ measuredTimes ops) ∧
      (∀ s, s ≠ 0 → T.tStart = some s → (T.run ops).tList = T.tList ++ measuredTimes (.tic s :: ops)) := by
    intro n
    induction n with
    | zero =>
      intro ops hl T
      obtain rfl := List.length_eq_zero_iff.1 (Nat.le_zero.1 hl)
      exact ⟨fun _ => (List.append_nil _).symm, fun s _ _ => (List.append_nil _).symm⟩
    | succ n ih =>
      intro ops hl T
      cases ops with
      | nil => exact ⟨fun _ => (List.append_nil _).symm, fun s _ _ => (List.append_nil _).symm⟩
      | cons op ops =>
        have hl' : ops.length ≤ n := Nat.le_of_succ_le_succ hl
        cases op with
        | tic t =>
          have step : (T.run (.tic t :: ops)) = (T.tic t).run ops := rfl
          have hskip : ∀ s, measuredTimes (.tic s :: .tic t :: ops) = measuredTimes (.tic t :: ops) := fun _ => mt_tictic _ _ _
          have key : ((T.tic t).run ops).tList = T.tList ++ measuredTimes (.tic t :: ops) := by
            by_cases ht : t = 0
            · rw [(ih ops hl' (T.tic t)).1 (.inr (by rw [← ht]; rfl))]
              refine congrArg (T.tList ++ ·) ?_
              -- a start at the time 0 counts for nothing
              cases ops with
              | nil => rfl
              | cons o rest =>
                cases o with
                | tic t' => exact (mt_tictic _ _ _).symm
                | toc t' =>
                  rw [measuredTimes, if_pos ht, mt_toc]
            · exact (ih ops hl' (T.tic t)).2 t ht rfl
          rw [step]
          exact ⟨fun _ => key, fun s _ _ => by rw [hskip]; exact key⟩
        | toc t =>
          have hfree : measuredTimes (.toc t :: ops) = measuredTimes ops := mt_toc _ _
          constructor
          · intro h
            have step : T.run (.toc t :: ops) = T.run ops := by
              show ((T.toc t).1).run ops = _
              unfold Timer.toc
              rcases h with h | h
              · rw [h]
              · rw [h]; simp
            rw [step, hfree]
            exact (ih ops hl' T).1 h
          · intro s hs h
            have step : T.run (.toc t :: ops) = ({ T with tList := T.tList ++ [t - s], tStart := none } : Timer K).run ops := by
              show ((T.toc t).1).run ops = _
              unfold Timer.toc
              rw [h]
              simp only
              rw [if_neg hs]
            rw [step, (ih ops hl' _).1 (.inl rfl), measuredTimes, if_neg hs, List.append_assoc]
            rfl
  intro T hT
  refine ⟨(gen _ ops le_rfl T).1 (.inl hT), ?_, ?_⟩
  · clear gen hT
    induction ops generalizing T with
    | nil => rfl
    | cons op ops ih =>
      refine (ih (T.exec op).1).trans ?_
      cases op with
      | tic t => rfl
      | toc t =>
        show (T.toc t).1.factor = _
        unfold Timer.toc
        cases T.tStart with
        | none => rfl
        | some s => simp only; split_ifs <;> rfl
  · clear gen hT
    induction ops generalizing T with
    | nil => rfl
    | cons op ops ih =>
      refine (ih (T.exec op).1).trans ?_
      cases op with
      | tic t => rfl
      | toc t =>
        show (T.toc t).1.unit = _
        unfold Timer.toc
        cases T.tStart with
        | none => rfl
        | some s => simp only; split_ifs <;> rfl

/-- **C116: the measured times.**  `Timer(name, unit)` accepts exactly the four units; after any calls the list of times has, in order, the time between every `tic` and the `toc`
that follows it immediately. -/
theorem C116_times (name unit : String) :
    ((∃ T : Timer K, Timer.new name unit = .ok T) ↔ (perSecond unit : Option K).isSome) ∧
    ∀ (T : Timer K), Timer.new name unit = .ok T → ∀ ops, (T.run ops).tList = measuredTimes ops ∧ perSecond unit = some (T.run ops).factor := by
  unfold Timer.new
  constructor
  · split_ifs with h1 h2 h3 h4
    · subst h1; exact ⟨fun _ => rfl, fun _ => ⟨_, rfl⟩⟩
    · subst h2; exact ⟨fun _ => rfl, fun _ => ⟨_, rfl⟩⟩
    · subst h3; exact ⟨fun _ => rfl, fun _ => ⟨_, rfl⟩⟩
    · subst h4; exact ⟨fun _ => rfl, fun _ => ⟨_, rfl⟩⟩
    · constructor
      · rintro ⟨T, hT⟩; cases hT
      · intro h
        unfold perSecond at h
        split at h <;> simp_all
  · intro T hT ops
    split_ifs at hT with h1 h2 h3 h4 <;> injection hT with hT <;> subst hT
    · obtain ⟨a, b, -⟩ := timer_run ops (⟨name, unit, 1000, none, []⟩ : Timer K) rfl
      exact ⟨a, by rw [b, h1]; rfl⟩
    · obtain ⟨a, b, -⟩ := timer_run ops (⟨name, unit, 1, none, []⟩ : Timer K) rfl
      exact ⟨a, by rw [b, h2]; rfl⟩
    · obtain ⟨a, b, -⟩ := timer_run ops (⟨name, unit, 1 / 60, none, []⟩ : Timer K) rfl
      exact ⟨a, by rw [b, h3]; rfl⟩
    · obtain ⟨a, b, -⟩ := timer_run ops (⟨name, unit, 1 / 3600, none, []⟩ : Timer K) rfl
      exact ⟨a, by rw [b, h4]; rfl⟩

/-- **C116: when `toc` raises.**  `tic` never raises; `toc` succeeds exactly if the last call before was a `tic`, not at the time 0, and otherwise raises and changes nothing. -/
theorem C116_toc (name unit : String) (T : Timer K) (hT : Timer.new name unit = .ok T) (ops : List (TimerOp K)) (now : K) :
    (((T.run ops).toc now).2 = none ↔ ∃ pre s, ops = pre ++ [.tic s] ∧ s ≠ 0) ∧
    (((T.run ops).toc now).2 ≠ none → ((T.run ops).toc now).1 = T.run ops ∧ ((T.run ops).toc now).2 = some "AssertionError") := by
  have hs : T.tStart = none := by
    unfold Timer.new at hT
    split_ifs at hT <;> injection hT with hT <;> subst hT <;> rfl
  constructor
  · have main : ∀ ops : List (TimerOp K), (∃ s, (T.run ops).tStart = some s ∧ s ≠ 0) ↔ ∃ pre s, ops = pre ++ [.tic s] ∧ s ≠ 0 := by
      intro ops
      rcases List.eq_nil_or_concat ops with rfl | ⟨pre, op, rfl⟩
      · constructor
        · rintro ⟨s, h, -⟩
          have h : T.tStart = some s := h
          rw [hs] at h; cases h
        · rintro ⟨pre, s, h, -⟩; simp at h
      · rw [List.concat_eq_append, timer_run_append]
        cases op with
        | tic t =>
          constructor
          · rintro ⟨s, h, h0⟩
            have h : some t = some s := h
            cases h
            exact ⟨pre, t, rfl, h0⟩
          · rintro ⟨pre', s, h, h0⟩
            obtain ⟨-, h⟩ := List.append_inj' h rfl
            rw [List.cons.injEq, TimerOp.tic.injEq] at h
            exact ⟨t, rfl, h.1 ▸ h0⟩
        | toc t =>
          constructor
          · rintro ⟨s, h, h0⟩
            have h : ((T.run pre).toc t).1.tStart = some s := h
            unfold Timer.toc at h
            cases hp : (T.run pre).tStart with
            | none => rw [hp] at h; simp only at h; rw [hp] at h; cases h
            | some s' =>
              rw [hp] at h
              simp only at h
              split_ifs at h with hz
              · rw [hp] at h; cases h; exact absurd hz h0
          · rintro ⟨pre', s, h, -⟩
            obtain ⟨-, h⟩ := List.append_inj' h rfl
            rw [List.cons.injEq] at h
            cases h.1
    rw [← main ops]
    unfold Timer.toc
    cases (T.run ops).tStart with
    | none => simp
    | some s =>
      by_cases h : s = 0
      · simp [h]
      · simp [h]
  · unfold Timer.toc
    cases (T.run ops).tStart with
    | none => exact fun _ => ⟨rfl, rfl⟩
    | some s =>
      by_cases h : s = 0
      · simp [h]
      · simp [h]

variable [IsStrictOrderedRing K]

/-- **C116: the times are those of disjoint intervals.**  If the clock does not run backwards, every time is nonnegative and together they are at most the time from the first call
to the last. -/
theorem C116_total (ops : List (TimerOp K)) (hmono : (ops.map callTime).Pairwise (· ≤ ·)) :
    (∀ t ∈ measuredTimes ops, 0 ≤ t) ∧ ∀ a b, (ops.map callTime).head? = some a → (ops.map callTime).getLast? = some b → (measuredTimes ops).sum ≤ b - a := by
  have gen : ∀ (n : Nat) (ops : List (TimerOp K)), ops.length ≤ n → (ops.map callTime).Pairwise (· ≤ ·) →
      (∀ t ∈ measuredTimes ops, 0 ≤ t) ∧ ∀ a b, (∀ op ∈ ops, a ≤ callTime op) → (∀ op ∈ ops, callTime op ≤ b) → a ≤ b → (measuredTimes ops).sum ≤ b - a := by
    intro n
    induction n with
    | zero =>
      intro ops hl _
      obtain rfl := List.length_eq_zero_iff.1 (Nat.le_zero.1 hl)
      exact ⟨by simp [measuredTimes], fun a b _ _ hab => by simpa [measuredTimes] using hab⟩
    | succ n ih =>
      intro ops hl hm
      have tail : ∀ op rest, ops = op :: rest → measuredTimes ops = measuredTimes rest →
          (∀ t ∈ measuredTimes ops, 0 ≤ t) ∧ ∀ a b, (∀ op ∈ ops, a ≤ callTime op) → (∀ op ∈ ops, callTime op ≤ b) → a ≤ b → (measuredTimes ops).sum ≤ b - a := by
        intro op rest he hs
        subst he
        rw [hs]
        obtain ⟨i1, i2⟩ := ih rest (Nat.le_of_succ_le_succ hl) (List.pairwise_cons.1 hm).2
        exact ⟨i1, fun a b ha hb hab => i2 a b (fun o ho => ha o (List.mem_cons_of_mem _ ho)) (fun o ho => hb o (List.mem_cons_of_mem _ ho)) hab⟩
      cases ops with
      | nil => exact ⟨by simp [measuredTimes], fun a b _ _ hab => by simpa [measuredTimes] using hab⟩
      | cons o rest =>
        cases o with
        | toc t => exact tail _ _ rfl (mt_toc _ _)
        | tic s =>
          cases rest with
          | nil => exact tail _ _ rfl rfl
          | cons o' rest =>
            cases o' with
            | tic t => exact tail _ _ rfl (mt_tictic _ _ _)
            | toc t =>
              have hm1 := List.pairwise_cons.1 hm
              have hm2 := List.pairwise_cons.1 hm1.2
              have hst : s ≤ t := hm1.1 t (by simp [callTime])
              obtain ⟨i1, i2⟩ := ih rest (by simp at hl; omega) hm2.2
              rw [measuredTimes]
              by_cases h0 : s = 0
              · rw [if_pos h0]
                exact ⟨i1, fun a b ha hb hab => i2 a b (fun o ho => ha o (List.mem_cons_of_mem _ (List.mem_cons_of_mem _ ho)))
                  (fun o ho => hb o (List.mem_cons_of_mem _ (List.mem_cons_of_mem _ ho))) hab⟩
              · rw [if_neg h0]
                refine ⟨fun x hx => ?_, fun a b ha hb hab => ?_⟩
                · rcases List.mem_cons.1 hx with rfl | hx
                  · linarith
                  · exact i1 x hx
                · have h1 : a ≤ s := ha (.tic s) List.mem_cons_self
                  have h2 : t ≤ b := hb (.toc t) (List.mem_cons_of_mem _ List.mem_cons_self)
                  have h3 := i2 t b (fun o ho => hm2.1 _ (List.mem_map_of_mem ho)) (fun o ho => hb o (List.mem_cons_of_mem _ (List.mem_cons_of_mem _ ho))) h2
                  rw [List.sum_cons]
                  linarith
  obtain ⟨h1, h2⟩ := gen _ ops le_rfl hmono
  refine ⟨h1, fun a b ha hb => ?_⟩
  have hA : ∀ op ∈ ops, a ≤ callTime op := by
    intro op ho
    cases ops with
    | nil => cases ho
    | cons o rest =>
      have : callTime o = a := by simpa using ha
      rcases List.mem_cons.1 ho with rfl | ho
      · exact this.ge
      · rw [← this]
        exact (List.pairwise_cons.1 hmono).1 _ (List.mem_map_of_mem ho)
  have hB : ∀ op ∈ ops, callTime op ≤ b := by
    intro op ho
    rcases List.eq_nil_or_concat ops with rfl | ⟨pre, o, rfl⟩
    · cases ho
    · rw [List.concat_eq_append] at ho hb hmono
      have hb' : callTime o = b := by simpa using hb
      rcases List.mem_append.1 ho with ho | ho
      · rw [List.map_append, List.pairwise_append] at hmono
        rw [← hb']
        exact hmono.2.2 _ (List.mem_map_of_mem ho) _ (by simp)
      · rw [List.mem_singleton.1 ho, hb']
  refine h2 a b hA hB ?_
  cases ops with
  | nil => simp at ha
  | cons o rest => exact (hA o List.mem_cons_self).trans (hB o List.mem_cons_self)

/-- **C116: `info`.**  It raises exactly while nothing was measured.  The smallest and the largest time printed are those of measurements (in the unit, rounded), bounds for all of
them and for the mean. -/
theorem C116_info (name unit : String) (T : Timer K) (hT : Timer.new name unit = .ok T) (f : K) (hf : perSecond unit = some f) (ops : List (TimerOp K)) (round : K → K) :
    ((∃ r, (T.run ops).info round = .ok r) ↔ measuredTimes ops ≠ []) ∧
    ∀ avg lo hi, (T.run ops).info round = .ok (avg, lo, hi) →
      avg * ((measuredTimes ops).length : K) = ((measuredTimes ops).map fun t => round (t * f)).sum ∧ lo ≤ avg ∧ avg ≤ hi ∧
      (∃ t ∈ measuredTimes ops, lo = round (t * f)) ∧ (∃ t ∈ measuredTimes ops, hi = round (t * f)) ∧ ∀ t ∈ measuredTimes ops, lo ≤ round (t * f) ∧ round (t * f) ≤ hi := by
  obtain ⟨h1, h2⟩ := (C116_times name unit).2 T hT ops
  rw [hf] at h2
  have hff : f = (T.run ops).factor := Option.some.inj h2
  unfold Timer.info
  rw [h1, ← hff]
  have hlen : ((measuredTimes ops).map fun t => round (t * f)).length = (measuredTimes ops).length := List.length_map _
  have hmem : ∀ x, x ∈ ((measuredTimes ops).map fun t => round (t * f)) ↔ ∃ t ∈ measuredTimes ops, x = round (t * f) := by
    intro x; simp [eq_comm]
  constructor
  · cases hm : (measuredTimes ops).map fun t => round (t * f) with
    | nil => rw [List.map_eq_nil_iff] at hm; simp [hm]
    | cons a l =>
      refine ⟨fun _ h => ?_, fun _ => ⟨_, rfl⟩⟩
      rw [h] at hm; cases hm
  · intro avg lo hi h
    cases hm : (measuredTimes ops).map fun t => round (t * f) with
    | nil => rw [hm] at h; cases h
    | cons a l =>
      rw [hm] at h
      rw [hm] at hmem hlen
      simp only [Except.ok.injEq, Prod.mk.injEq] at h
      obtain ⟨rfl, rfl, rfl⟩ := h
      have hmin : ∀ (l : List K) (a : K), l.foldl min a ∈ a :: l ∧ ∀ x ∈ a :: l, l.foldl min a ≤ x := by
        intro l
        induction l with
        | nil => intro a; simp
        | cons b l ih =>
          intro a
          obtain ⟨i1, i2⟩ := ih (min a b)
          rw [List.foldl_cons]
          refine ⟨?_, fun x hx => ?_⟩
          · rcases List.mem_cons.1 i1 with e | e
            · rw [e]; rcases min_choice a b with e | e <;> rw [e] <;> simp
            · exact List.mem_cons_of_mem _ (List.mem_cons_of_mem _ e)
          · rcases List.mem_cons.1 hx with rfl | hx
            · exact (i2 _ List.mem_cons_self).trans (min_le_left _ _)
            · rcases List.mem_cons.1 hx with rfl | hx
              · exact (i2 _ List.mem_cons_self).trans (min_le_right _ _)
              · exact i2 x (List.mem_cons_of_mem _ hx)
      have hmax : ∀ (l : List K) (a : K), l.foldl max a ∈ a :: l ∧ ∀ x ∈ a :: l, x ≤ l.foldl max a := by
        intro l
        induction l with
        | nil => intro a; simp
        | cons b l ih =>
          intro a
          obtain ⟨i1, i2⟩ := ih (max a b)
          rw [List.foldl_cons]
          refine ⟨?_, fun x hx => ?_⟩
          · rcases List.mem_cons.1 i1 with e | e
            · rw [e]; rcases max_choice a b with e | e <;> rw [e] <;> simp
            · exact List.mem_cons_of_mem _ (List.mem_cons_of_mem _ e)
          · rcases List.mem_cons.1 hx with rfl | hx
            · exact (le_max_left _ _).trans (i2 _ List.mem_cons_self)
            · rcases List.mem_cons.1 hx with rfl | hx
              · exact (le_max_right _ _).trans (i2 _ List.mem_cons_self)
              · exact i2 x (List.mem_cons_of_mem _ hx)
      have hsum : ∀ (l : List K) (lo hi : K), (∀ x ∈ l, lo ≤ x ∧ x ≤ hi) → lo * (l.length : K) ≤ l.sum ∧ l.sum ≤ hi * (l.length : K) := by
        intro l lo hi
        induction l with
        | nil => intro _; simp
        | cons b l ih =>
          intro hx
          obtain ⟨i1, i2⟩ := ih fun x h => hx x (List.mem_cons_of_mem _ h)
          obtain ⟨b1, b2⟩ := hx b List.mem_cons_self
          rw [List.sum_cons, List.length_cons, Nat.cast_succ]
          constructor <;> linarith
      obtain ⟨m1, m2⟩ := hmin l a
      obtain ⟨M1, M2⟩ := hmax l a
      obtain ⟨s1, s2⟩ := hsum (a :: l) _ _ fun x hx => ⟨m2 x hx, M2 x hx⟩
      have hpos : (0 : K) < ((a :: l).length : K) := by exact_mod_cast Nat.succ_pos _
      refine ⟨?_, ?_, ?_, (hmem _).1 m1, (hmem _).1 M1, fun t ht => ?_⟩
      · rw [← hlen]; field_simp
      · rw [le_div_iff₀ hpos]; exact s1
      · rw [div_le_iff₀ hpos]; exact s2
      · have := (hmem (round (t * f))).2 ⟨t, ht, rfl⟩
        exact ⟨m2 _ this, M2 _ this⟩

/-! ## Non-vacuity -/
namespace TimerEx
/-- a `toc` too early, a start that is overwritten, two measurements, a `toc` too much -/
def ops : List (TimerOp ℚ) := [.toc 1, .tic 2, .tic 3, .toc 5, .tic 7, .toc 8, .toc 9]
example : measuredTimes ops = [2, 1] ∧ (ops.map callTime).Pairwise (· ≤ ·) := by decide +kernel
example : ∃ T : Timer ℚ, Timer.new "t" "min" = .ok T ∧ ((T.run ops).info id).toOption = some (1 / 40, 1 / 60, 1 / 30) := ⟨_, rfl, by decide +kernel⟩
end TimerEx
end DoMpc
