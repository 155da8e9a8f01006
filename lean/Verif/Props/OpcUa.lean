import Verif.Model.OpcUa
import Mathlib.Data.List.Nodup
import Mathlib.Data.List.Infix

/-!
# OPC UA: real-time trigger, tags, node ids (C46–C48)
-/
set_option linter.unusedSectionVars false
namespace DoMpc.Opc

/-! ## C46: real-time trigger -/

/-- Methods executed without interruption: a start. -/
theorem astep_start (s : RT) (hc : ∀ t ∈ s.cancelled, t < s.nextId) :
    s.astep .start = { s with
      newInit := false, flag := false, running := true,
      thread := if s.running then s.thread else some s.nextId,
      nextId := if s.running then s.nextId else s.nextId + 1,
      pending := if s.running then s.pending else s.pending ++ [s.nextId],
      begun := if s.newInit then s.begun + 1 else s.begun } := by
  have hn : s.nextId ∉ s.cancelled := fun h => absurd (hc _ h) (Nat.lt_irrefl _)
  obtain ⟨r, i, f, t, n, p, c, a, b⟩ := s
  cases r <;> cases i <;> cases f <;> simp_all [RT.astep, complete, startCode, stepCode, Instr.exec]

theorem astep_stop_some (s : RT) (t : Nat) (h : s.thread = some t) :
    s.astep .stop = { s with
      newInit := true, flag := true, running := false,
      pending := s.pending.filter (· ≠ t), cancelled := t :: s.cancelled } := by
  obtain ⟨r, i, f, t', n, p, c, a, b⟩ := s
  simp_all [RT.astep, complete, stopCode, Instr.exec]

theorem astep_stop_none (s : RT) (h : s.thread = none) : s.astep .stop = s := by
  obtain ⟨r, i, f, t', n, p, c, a, b⟩ := s
  simp_all [RT.astep, complete, stopCode, Instr.exec]

theorem astep_expire (s : RT) (t : Nat) (hc : ∀ t ∈ s.cancelled, t < s.nextId) (h : t ∈ s.pending) :
    s.astep (.expire t) = { s with
      newInit := false, flag := false, running := true,
      thread := some s.nextId, nextId := s.nextId + 1,
      pending := s.pending.erase t ++ [s.nextId],
      begun := if s.newInit then s.begun + 2 else s.begun + 1 } := by
  have hn : s.nextId ∉ s.cancelled := fun h => absurd (hc _ h) (Nat.lt_irrefl _)
  obtain ⟨r, i, f, t, n, p, c, a, b⟩ := s
  cases r <;> cases i <;> cases f <;> simp_all [RT.astep, complete, runCode, startCode, stepCode, Instr.exec]

/-- What holds between uninterrupted calls. -/
structure Inv (s : RT) : Prop where
  cancelled : ∀ t ∈ s.cancelled, t < s.nextId
  thread : ∀ t, s.thread = some t → t < s.nextId
  pending : s.pending = if s.running then s.thread.toList else []
  some : s.running = true → s.thread ≠ none
  init : s.running = !s.newInit
  active : s.active = 0

theorem Inv.init' : Inv RT.init := ⟨by simp [RT.init], by simp [RT.init], by simp [RT.init], by simp [RT.init], by simp [RT.init], rfl⟩

theorem Inv.astep {s : RT} (h : Inv s) (e : AEv) : Inv (s.astep e) := by
  obtain ⟨h1, h2, h3, h4, h5, h6⟩ := h
  cases e with
  | start =>
    rw [astep_start s h1]
    refine ⟨?_, ?_, ?_, ?_, rfl, h6⟩
    · intro t ht
      have := h1 t ht
      dsimp only
      split <;> omega
    · intro t ht
      dsimp only at ht ⊢
      split at ht
      · rename_i hr; simp only [hr]; exact h2 t ht
      · rename_i hr
        rw [if_neg hr]
        simp only [Option.some.injEq] at ht
        omega
    · dsimp only
      cases hr : s.running <;> simp_all
    · dsimp only
      cases hr : s.running <;> simp_all
  | stop =>
    cases ht : s.thread with
    | none =>
      rw [astep_stop_none s ht]
      exact ⟨h1, h2, h3, h4, h5, h6⟩
    | some t =>
      rw [astep_stop_some s t ht]
      refine ⟨?_, h2, ?_, by simp, rfl, h6⟩
      · intro t' ht'
        rcases List.mem_cons.1 ht' with rfl | h'
        · exact h2 _ ht
        · exact h1 _ h'
      · dsimp only
        rw [h3]
        cases hr : s.running <;> simp [ht]
  | expire t =>
    by_cases hp : t ∈ s.pending
    · rw [astep_expire s t h1 hp]
      have hr : s.running = true := by
        by_contra hr
        simp [h3, hr] at hp
      obtain ⟨t', ht'⟩ := Option.ne_none_iff_exists'.1 (h4 hr)
      rw [h3] at hp ⊢
      simp only [hr, ht', if_true, Option.toList_some, List.mem_singleton] at hp
      subst hp
      refine ⟨?_, ?_, ?_, by simp, rfl, h6⟩
      · intro t'' h''
        exact Nat.lt_succ_of_lt (h1 _ h'')
      · intro t'' h''
        simp only [Option.some.injEq] at h''
        dsimp only
        omega
      · simp [hr, ht']
    · have : s.astep (.expire t) = s := by simp [RT.astep, hp]
      rw [this]
      exact ⟨h1, h2, h3, h4, h5, h6⟩

theorem Inv.arun {s : RT} (h : Inv s) (evs : List AEv) : Inv (s.arun evs) := by
  induction evs generalizing s with
  | nil => exact h
  | cons e l ih => exact ih (h.astep e)

/-- The state is quiet: nothing pending, not running. -/
theorem quiet_step {s : RT} (h : Inv s) (hr : s.running = false) (e : AEv) (he : e ≠ .start) :
    (s.astep e).running = false ∧ (s.astep e).begun = s.begun := by
  have hp : s.pending = [] := by simp [h.pending, hr]
  cases e with
  | start => exact absurd rfl he
  | stop =>
    cases ht : s.thread with
    | none => rw [astep_stop_none s ht]; exact ⟨hr, rfl⟩
    | some t => rw [astep_stop_some s t ht]; exact ⟨rfl, rfl⟩
  | expire t =>
    have : s.astep (.expire t) = s := by simp [RT.astep, hp]
    rw [this]
    exact ⟨hr, rfl⟩

theorem quiet_run {s : RT} (h : Inv s) (hr : s.running = false) (evs : List AEv) (he : AEv.start ∉ evs) :
    (s.arun evs).running = false ∧ (s.arun evs).begun = s.begun := by
  induction evs generalizing s with
  | nil => exact ⟨hr, rfl⟩
  | cons e l ih =>
    have h1 := quiet_step h hr e (fun h' => he (h' ▸ List.mem_cons_self))
    obtain ⟨h2, h3⟩ := ih (h.astep e) h1.1 (fun h' => he (List.mem_cons_of_mem _ h'))
    exact ⟨h2, h3.trans h1.2⟩

/-- **C46** (partial).  If calls of the methods and expiries of timers do not interrupt each other, then after every history at most one trigger is
pending, and after `async_step_stop` no trigger is pending and no step begins until the next `async_step_start`.  Missing: with interruptions the
claim is false (`C46_fails_race`, `C46_fails_two_triggers`). -/
theorem C46_partial (evs : List AEv) :
    (RT.init.arun evs).pending.length ≤ 1 ∧
    ∀ later, AEv.start ∉ later →
      (RT.init.arun (evs ++ [.stop] ++ later)).pending = [] ∧
      (RT.init.arun (evs ++ [.stop] ++ later)).begun = (RT.init.arun evs).begun := by
  have hI := Inv.init'.arun evs
  refine ⟨?_, ?_⟩
  · rw [hI.pending]
    split
    · cases (RT.init.arun evs).thread <;> simp
    · simp
  · intro later hl
    have e1 : RT.init.arun (evs ++ [.stop] ++ later) = ((RT.init.arun evs).astep .stop).arun later := by
      simp [RT.arun, List.foldl_append]
    rw [e1]
    have hS := hI.astep .stop
    have hr : ((RT.init.arun evs).astep .stop).running = false ∧ ((RT.init.arun evs).astep .stop).begun = (RT.init.arun evs).begun := by
      cases ht : (RT.init.arun evs).thread with
      | none =>
        rw [astep_stop_none _ ht]
        refine ⟨?_, rfl⟩
        by_contra hr
        exact hI.some (by simpa using hr) ht
      | some t => rw [astep_stop_some _ t ht]; exact ⟨rfl, rfl⟩
    obtain ⟨q1, q2⟩ := quiet_run hS hr.1 later hl
    have hE := hS.arun later
    refine ⟨?_, q2.trans hr.2⟩
    rw [hE.pending, q1]
    rfl

/-- non-vacuity: two steps after the first one, then a stop, then a second session -/
example : (RT.init.arun [.start, .expire 0, .expire 1]).begun = 3 ∧ (RT.init.arun [.start, .expire 0, .expire 1]).pending = [2] ∧
    (RT.init.arun [.start, .expire 0, .expire 1, .stop]).pending = [] ∧
    (RT.init.arun [.start, .expire 0, .expire 1, .stop, .start]).begun = 4 := by decide

/-- **C46**: while the loop runs it keeps running: each expiry of the pending trigger begins exactly one step and arms exactly one new trigger. -/
theorem C46_periodic (evs : List AEv) (t : Nat) (h : t ∈ (RT.init.arun evs).pending) :
    (RT.init.arun (evs ++ [.expire t])).begun = (RT.init.arun evs).begun + 1 ∧
    (RT.init.arun (evs ++ [.expire t])).pending.length = 1 := by
  have hI := Inv.init'.arun evs
  have e1 : RT.init.arun (evs ++ [.expire t]) = (RT.init.arun evs).astep (.expire t) := by
    simp [RT.arun, List.foldl_append]
  have hr : (RT.init.arun evs).running = true := by
    by_contra hr
    simp [hI.pending, hr] at h
  have hn : (RT.init.arun evs).newInit = false := by
    have := hI.init
    rw [hr] at this
    simpa using this.symm
  have hE := hI.astep (.expire t)
  rw [e1]
  refine ⟨?_, ?_⟩
  · rw [astep_expire _ t hI.cancelled h]
    simp [hn]
  · rw [hE.pending]
    rw [astep_expire _ t hI.cancelled h]
    simp

example : 0 ∈ (RT.init.arun [.start]).pending := by decide

/-! ### All interleavings -/

/-- how many timers a statement may still start -/
def weight : Instr → Nat
  | .ifNotRunning => 1
  | .startTimer => 1
  | _ => 0

/-- number of `async_step_start` calls in a history -/
def starts (evs : List Ev) : Nat := evs.count .callStart

def codeWeight (l : List Instr) : Nat := (l.map weight).sum
def threadsWeight (l : List (List Instr)) : Nat := (l.map codeWeight).sum

theorem exec_weight (s : RT) (c : Instr) (s' : RT) (code : List Instr) (new : List (List Instr)) (h : c.exec s = some (s', code, new)) :
    s'.pending.length + codeWeight code + threadsWeight new ≤ s.pending.length + weight c := by
  cases c <;> simp only [Instr.exec, Option.some.injEq, Prod.mk.injEq] at h
  case startTimer =>
    cases ht : s.thread with
    | none => simp [ht] at h
    | some t =>
      simp only [ht, Option.some.injEq, Prod.mk.injEq] at h
      obtain ⟨rfl, rfl, rfl⟩ := h
      split <;> simp [codeWeight, threadsWeight, weight]
  case cancel =>
    cases ht : s.thread with
    | none => simp [ht] at h
    | some t =>
      simp only [ht, Option.some.injEq, Prod.mk.injEq] at h
      obtain ⟨rfl, rfl, rfl⟩ := h
      have := List.length_filter_le (fun x => decide (x ≠ t)) s.pending
      simpa [codeWeight, threadsWeight, weight] using this
  all_goals
    obtain ⟨rfl, rfl, rfl⟩ := h
    try split
    all_goals simp [codeWeight, threadsWeight, weight, stepCode]

theorem threadsWeight_append (a b : List (List Instr)) : threadsWeight (a ++ b) = threadsWeight a + threadsWeight b := by
  simp [threadsWeight]

theorem threadsWeight_set (l : List (List Instr)) (i : Nat) (c c' : List Instr) (h : l[i]? = some c) :
    threadsWeight (l.set i c') + codeWeight c = threadsWeight l + codeWeight c' := by
  induction l generalizing i with
  | nil => simp at h
  | cons a l ih =>
    cases i with
    | zero =>
      simp only [List.getElem?_cons_zero, Option.some.injEq] at h
      subst h
      simp only [List.set_cons_zero, threadsWeight, List.map_cons, List.sum_cons]
      omega
    | succ i =>
      have := ih i (by simpa using h)
      simp only [List.set_cons_succ, threadsWeight, List.map_cons, List.sum_cons] at this ⊢
      omega

theorem step_weight (σ : Sys) (e : Ev) :
    (σ.step e).rt.pending.length + threadsWeight (σ.step e).threads ≤
      σ.rt.pending.length + threadsWeight σ.threads + if e = .callStart then 1 else 0 := by
  cases e with
  | callStart => simp [Sys.step, threadsWeight_append, threadsWeight, codeWeight, startCode, weight, Nat.add_assoc]
  | callStop => simp [Sys.step, threadsWeight_append, threadsWeight, codeWeight, stopCode, weight]
  | sched i =>
    simp only [Sys.step, reduceCtorEq, if_false, Nat.add_zero]
    split
    · rename_i c cs hi
      have hs := threadsWeight_set σ.threads i (c :: cs)
      split
      · have := hs [] hi
        simp only [codeWeight, List.map_nil, List.sum_nil] at this
        dsimp only
        omega
      · rename_i s' code new hx
        have h1 := exec_weight σ.rt c s' code new hx
        have h2 := hs (code ++ cs) hi
        have h3 : codeWeight (code ++ cs) = codeWeight code + codeWeight cs := by simp [codeWeight]
        have h4 : codeWeight (c :: cs) = weight c + codeWeight cs := by simp [codeWeight]
        rw [threadsWeight_append]
        dsimp only
        omega
    · exact Nat.le_refl _
  | expire t =>
    simp only [Sys.step, reduceCtorEq, if_false, Nat.add_zero]
    split
    · rename_i ht
      have h1 := List.length_erase_of_mem ht
      have h2 := List.length_pos_of_mem ht
      have h3 : threadsWeight [runCode] = 1 := by decide
      rw [threadsWeight_append]
      dsimp only
      omega
    · exact Nat.le_refl _

/-- **C46** (all interleavings, partial): whatever the interleaving, there are never more pending triggers than there were calls of
`async_step_start`; with a single call there is never more than one. -/
theorem C46_pending_le_starts_partial (evs : List Ev) : (Sys.init.run evs).rt.pending.length ≤ starts evs := by
  suffices h : ∀ σ : Sys, (σ.run evs).rt.pending.length + threadsWeight (σ.run evs).threads ≤
      σ.rt.pending.length + threadsWeight σ.threads + starts evs by
    have h0 := h Sys.init
    simp only [Sys.init, RT.init, threadsWeight, List.map_nil, List.sum_nil, List.length_nil] at h0
    show ((Sys.init).run evs).rt.pending.length ≤ _
    simp only [Sys.init, RT.init]
    omega
  induction evs with
  | nil => intro σ; simp [Sys.run, starts]
  | cons e l ih =>
    intro σ
    have h1 := ih (σ.step e)
    have h2 := step_weight σ e
    have h3 : starts (e :: l) = starts l + if e = .callStart then 1 else 0 := by
      simp only [starts, List.count_cons, beq_iff_eq]
    have h4 : σ.run (e :: l) = (σ.step e).run l := rfl
    rw [h4]
    omega

/-- the thread that executes a call -/
def finished (σ : Sys) (i : Nat) : Prop := σ.threads[i]? = some []

instance (σ : Sys) (i : Nat) : Decidable (finished σ i) := by unfold finished; infer_instance

/-- one call of `async_step_start` executed to its end by thread 0 -/
def startUp : List Ev := .callStart :: List.replicate 8 (.sched 0)

example : (Sys.init.run startUp).rt.pending = [0] ∧ finished (Sys.init.run startUp) 0 ∧ starts startUp = 1 := by decide

/-- `async_step_stop` is called, and returns, between the test of `is_running` in `async_run` and the creation of the next timer -/
def race : List Ev :=
  startUp ++ [.expire 0] ++ List.replicate 3 (.sched 2) ++ [.callStop] ++ List.replicate 4 (.sched 3) ++ List.replicate 5 (.sched 2)

/-- A loop that runs by itself: its trigger is pending and no thread is about to interfere. -/
structure Looping (σ : Sys) : Prop where
  pending : ∃ t, σ.rt.pending = [t]
  fresh : ∀ t ∈ σ.rt.cancelled, t < σ.rt.nextId
  flag : σ.rt.flag = false
  init : σ.rt.newInit = false

theorem sched_last (s : RT) (ts : List (List Instr)) (c : Instr) (cs : List Instr) (s' : RT) (code : List Instr)
    (h : c.exec s = some (s', code, [])) :
    Sys.step ⟨s, ts ++ [c :: cs]⟩ (.sched ts.length) = ⟨s', ts ++ [code ++ cs]⟩ := by
  simp [Sys.step, h]

theorem Looping.next {σ : Sys} (h : Looping σ) :
    ∃ evs, Ev.callStart ∉ evs ∧ Looping (σ.run evs) ∧ (σ.run evs).rt.begun = σ.rt.begun + 1 := by
  obtain ⟨⟨t, hp⟩, hf, hfl, hi⟩ := h
  obtain ⟨⟨r, i, f, th, n, p, c, a, b⟩, ts⟩ := σ
  simp only at hp hf hfl hi
  subst hp hfl hi
  have hn : n ∉ c := fun h => absurd (hf _ h) (Nat.lt_irrefl _)
  refine ⟨.expire t :: List.replicate 9 (.sched ts.length), ?_, ?_⟩
  · simp
  · have e0 : Sys.step ⟨⟨r, false, false, th, n, [t], c, a, b⟩, ts⟩ (.expire t) = ⟨⟨r, false, false, th, n, [], c, a, b⟩, ts ++ [runCode]⟩ := by
      simp [Sys.step]
    have e1 : Sys.run ⟨⟨r, false, false, th, n, [t], c, a, b⟩, ts⟩ (.expire t :: List.replicate 9 (.sched ts.length)) =
        ⟨⟨true, false, false, some n, n + 1, [n], c, a, b + 1⟩, ts ++ [[]]⟩ := by
      simp only [Sys.run, List.foldl_cons, e0, List.replicate, List.foldl_nil, runCode, startCode, stepCode, List.cons_append, List.nil_append]
      rw [sched_last (s' := ⟨false, false, false, th, n, [], c, a, b⟩) (code := []) (h := by simp [Instr.exec])]
      simp only [List.nil_append]
      rw [sched_last (s' := ⟨false, false, false, th, n, [], c, a, b⟩) (code := []) (h := by simp [Instr.exec])]
      simp only [List.nil_append]
      rw [sched_last (s' := ⟨false, false, false, th, n, [], c, a, b⟩) (code := [.mkTimer, .startTimer, .setRunning true]) (h := by simp [Instr.exec])]
      simp only [List.cons_append, List.nil_append]
      rw [sched_last (s' := ⟨false, false, false, some n, n + 1, [], c, a, b⟩) (code := []) (h := by simp [Instr.exec])]
      simp only [List.nil_append]
      rw [sched_last (s' := ⟨false, false, false, some n, n + 1, [n], c, a, b⟩) (code := []) (h := by simp [Instr.exec, hn])]
      simp only [List.nil_append]
      rw [sched_last (s' := ⟨true, false, false, some n, n + 1, [n], c, a, b⟩) (code := []) (h := by simp [Instr.exec])]
      simp only [List.nil_append]
      rw [sched_last (s' := ⟨true, false, false, some n, n + 1, [n], c, a, b⟩) (code := []) (h := by simp [Instr.exec])]
      simp only [List.nil_append]
      rw [sched_last (s' := ⟨true, false, false, some n, n + 1, [n], c, a + 1, b + 1⟩) (code := []) (h := by simp [Instr.exec])]
      simp only [List.nil_append]
      rw [sched_last (s' := ⟨true, false, false, some n, n + 1, [n], c, a, b + 1⟩) (code := []) (h := by simp [Instr.exec])]
      rfl
    rw [e1]
    exact ⟨⟨⟨n, rfl⟩, fun t' h' => Nat.lt_succ_of_lt (hf t' h'), rfl, rfl⟩, rfl⟩

theorem Looping.forever {σ : Sys} (h : Looping σ) (n : Nat) :
    ∃ evs, Ev.callStart ∉ evs ∧ (σ.run evs).rt.begun = σ.rt.begun + n := by
  suffices h' : ∃ evs, Ev.callStart ∉ evs ∧ Looping (σ.run evs) ∧ (σ.run evs).rt.begun = σ.rt.begun + n by
    obtain ⟨evs, h1, _, h2⟩ := h'
    exact ⟨evs, h1, h2⟩
  induction n with
  | zero => exact ⟨[], by simp, h, rfl⟩
  | succ n ih =>
    obtain ⟨evs, h1, h2, h3⟩ := ih
    obtain ⟨evs', h4, h5, h6⟩ := h2.next
    have e : σ.run (evs ++ evs') = (σ.run evs).run evs' := by simp [Sys.run, List.foldl_append]
    refine ⟨evs ++ evs', ?_, ?_, ?_⟩
    · simp [h1, h4]
    · rw [e]; exact h5
    · rw [e, h6, h3, Nat.add_assoc]

/-- **C46 is false.**  If `async_step_stop` is called while a timer thread is between its test of `is_running` and the creation of the next timer,
the stop returns normally and yet the loop goes on for ever: with one call of `async_step_start` before the stop and none after it, any number of
steps begins after the stop. -/
theorem C46_fails_race :
    starts race = 1 ∧ finished (Sys.init.run race) 3 ∧ (Sys.init.run race).rt.pending = [1] ∧
    ∀ n, ∃ later, Ev.callStart ∉ later ∧ n ≤ (Sys.init.run (race ++ later)).rt.begun - (Sys.init.run race).rt.begun := by
  refine ⟨by decide, by decide, by decide, ?_⟩
  intro n
  -- the first trigger after the stop begins the "first step" again
  let first : List Ev := .expire 1 :: List.replicate 12 (.sched 4)
  have hL : Looping (Sys.init.run (race ++ first)) :=
    ⟨⟨2, by decide⟩, by decide, by decide, by decide⟩
  obtain ⟨evs, h1, h2⟩ := hL.forever n
  refine ⟨first ++ evs, ?_, ?_⟩
  · simp [first, h1]
  · have e : Sys.init.run (race ++ (first ++ evs)) = (Sys.init.run (race ++ first)).run evs := by
      simp [Sys.run, List.foldl_append]
    rw [e, h2]
    have h3 : (Sys.init.run race).rt.begun ≤ (Sys.init.run (race ++ first)).rt.begun := by decide
    omega

/-- **C46 is false** for two overlapping calls of `async_step_start`: both find `is_running` false, two triggers are pending, and
`async_step_stop` cancels only one of them. -/
theorem C46_fails_two_triggers :
    ∃ before stop : List Ev, (Sys.init.run before).rt.pending = [0, 1] ∧
      finished (Sys.init.run (before ++ stop)) 3 ∧ (Sys.init.run (before ++ stop)).rt.pending = [0] := by
  refine ⟨[.callStart, .callStart] ++ List.replicate 3 (.sched 0) ++ List.replicate 3 (.sched 1) ++ [.sched 0, .sched 1] ++
    List.replicate 5 (.sched 0) ++ List.replicate 5 (.sched 1), [.callStop] ++ List.replicate 4 (.sched 3), ?_⟩
  decide

/-- **C46**: steps may overlap: nothing waits for the previous step, two calls of `make_step` of the same object run at the same time if a step
takes longer than the cycle time. -/
theorem C46_fails_overlap : ∃ evs, starts evs = 1 ∧ (Sys.init.run evs).rt.active = 2 :=
  ⟨startUp ++ [.sched 1, .expire 0] ++ List.replicate 8 (.sched 2), by decide, by decide⟩

/-- **C46**: a trigger can be lost: if the first timer expires before `async_step_start` has set `is_running`, the loop ends by itself, and
further calls of `async_step_start` have no effect until `async_step_stop` is called. -/
theorem C46_fails_lost_trigger :
    ∃ evs, starts evs = 1 ∧ (∀ c ∈ (Sys.init.run evs).threads, c = []) ∧ (Sys.init.run evs).rt.pending = [] ∧
      (Sys.init.run evs).rt.astep .start = (Sys.init.run evs).rt := by
  refine ⟨.callStart :: List.replicate 6 (.sched 0) ++ [.expire 0, .sched 2] ++ List.replicate 2 (.sched 0) ++ List.replicate 5 (.sched 2) ++
    List.replicate 2 (.sched 1), ?_⟩
  decide

/-- **C46**: `async_step_stop` before the first `async_step_start` raises. -/
theorem C46_stop_before_start : Instr.exec RT.init .cancel = none := rfl

/-! ## C47: tags -/

variable {V : Type}

theorem writeLoop_spec (tags : List String) (data : List V) (S : Server V) (hl : data.length = tags.length)
    (hx : ∀ t ∈ tags, (S t).isSome) (hn : tags.Nodup) :
    (writeLoop (tags.zip data) S).2 = none ∧
    (∀ i (h : i < tags.length), (writeLoop (tags.zip data) S).1 tags[i] = some [data[i]'(hl ▸ h)]) ∧
    ∀ t, t ∉ tags → (writeLoop (tags.zip data) S).1 t = S t := by
  induction tags generalizing data S with
  | nil => simp [writeLoop]
  | cons t tags ih =>
    cases data with
    | nil => simp at hl
    | cons v data =>
      simp only [List.length_cons, Nat.add_right_cancel_iff] at hl
      obtain ⟨old, ho⟩ := Option.isSome_iff_exists.1 (hx t List.mem_cons_self)
      have hw : writeData S t [v] = .ok (Function.update S t (some [v])) := by simp [writeData, ho]
      have e : writeLoop ((t :: tags).zip (v :: data)) S = writeLoop (tags.zip data) (Function.update S t (some [v])) := by
        simp [List.zip_cons_cons, writeLoop, hw]
      rw [e]
      have hn' := List.nodup_cons.1 hn
      have hx' : ∀ t' ∈ tags, (Function.update S t (some [v]) t').isSome := by
        intro t' ht'
        rw [Function.update_apply]
        split
        · rfl
        · exact hx t' (List.mem_cons_of_mem _ ht')
      obtain ⟨h1, h2, h3⟩ := ih data (Function.update S t (some [v])) hl hx' hn'.2
      refine ⟨h1, ?_, ?_⟩
      · intro i hi
        cases i with
        | zero =>
          simp only [List.getElem_cons_zero]
          rw [h3 t hn'.1, Function.update_self]
        | succ i =>
          simp only [List.getElem_cons_succ]
          exact h2 i (by simpa using hi)
      · intro t' ht'
        rw [List.mem_cons, not_or] at ht'
        rw [h3 t' ht'.2, Function.update_of_ne ht'.1]

theorem readLoop (tags : List String) (data : List V) (S : Server V) (hl : data.length = tags.length)
    (h : ∀ i (h : i < tags.length), S tags[i] = some [data[i]'(hl ▸ h)]) :
    tags.mapM (readData S) = .ok (data.map fun v => [v]) := by
  induction tags generalizing data with
  | nil =>
    cases data with
    | nil => rfl
    | cons _ _ => simp at hl
  | cons t tags ih =>
    cases data with
    | nil => simp at hl
    | cons v data =>
      simp only [List.length_cons, Nat.add_right_cancel_iff] at hl
      have h0 := h 0 (by simp)
      simp only [List.getElem_cons_zero] at h0
      have hr := ih data hl (fun i hi => by
        have := h (i + 1) (by simpa using hi)
        simpa using this)
      have h0' : readData S t = .ok [v] := by simp [readData, h0]
      rw [List.mapM_cons, hr, h0']
      rfl

/-- **C47** (partial).  A vector written to existing, pairwise different tags is what `read_from_tags` returns for the same tags, and no other node
changes.  Missing: repeated tags (`C47_fails_repeated_tag`). -/
theorem C47_round_trip_partial (tags : List String) (S : Server V) (data : List V) (hl : data.length = tags.length)
    (hx : ∀ t ∈ tags, (S t).isSome) (hn : tags.Nodup) :
    (writeToTags tags S data).2 = none ∧
    readFromTags tags (writeToTags tags S data).1 = .ok data ∧
    ∀ t, t ∉ tags → (writeToTags tags S data).1 t = S t := by
  have e : writeToTags tags S data = writeLoop (tags.zip data) S := by simp [writeToTags, hl]
  obtain ⟨h1, h2, h3⟩ := writeLoop_spec tags data S hl hx hn
  rw [e]
  refine ⟨h1, ?_, h3⟩
  unfold readFromTags
  rw [readLoop tags data _ hl h2]
  have hp : (data.map fun v => [v]).Pairwise (fun a b => a.length = b.length) := by
    rw [List.pairwise_map]
    exact List.Pairwise.imp (R := fun _ _ => True) (by intros; rfl) (by
      induction data with
      | nil => exact List.Pairwise.nil
      | cons a l _ => exact List.pairwise_of_forall (by intros; trivial))
  show (if _ then _ else _) = _
  rw [if_pos hp]
  have : (data.map fun v => [v]).flatten = data := by
    clear hp h1 h2 h3 e hl
    induction data with
    | nil => rfl
    | cons a l ih => simp [ih]
  rw [this]
  rfl

/-- non-vacuity -/
example : (∀ t ∈ ["a", "b"], (((fun _ => some [0]) : Server Nat) t).isSome) ∧ ["a", "b"].Nodup ∧
    readFromTags ["a", "b"] (writeToTags ["a", "b"] (fun _ => some [0]) [3, 4]).1 = .ok [3, 4] :=
  ⟨by simp, by decide, (C47_round_trip_partial (V := Nat) ["a", "b"] (fun _ => some [0]) [3, 4] rfl (by simp) (by decide)).2.1⟩

/-- **C47**: a vector of another size is refused and the server does not change. -/
theorem C47_wrong_size_refused (tags : List String) (S : Server V) (data : List V) (hl : data.length ≠ tags.length) :
    writeToTags tags S data = (S, some "Exception") := by simp [writeToTags, hl]

example : writeToTags ["a"] (fun _ => some [0]) [1, 2] = (fun _ => some [0], some "Exception") := C47_wrong_size_refused _ _ _ (by decide)

/-- **C47**: reading or writing a tag that does not exist on the server raises. -/
theorem C47_missing_tag (tags : List String) (S : Server V) (t : String) (ht : t ∈ tags) (hS : S t = none) :
    (∃ e, readFromTags tags S = .error e) ∧ ∀ data, (writeToTags tags S data).2 ≠ none := by
  constructor
  · have key : ∃ e, tags.mapM (readData S) = .error e := by
      clear * - ht hS
      induction tags with
      | nil => simp at ht
      | cons s tags ih =>
        rw [List.mapM_cons]
        cases hr : readData S s with
        | error e => exact ⟨e, rfl⟩
        | ok v =>
          have hne : t ≠ s := by rintro rfl; simp [readData, hS] at hr
          obtain ⟨e, he⟩ := ih (by simpa [hne] using ht)
          exact ⟨e, by rw [he]; rfl⟩
    obtain ⟨e, he⟩ := key
    exact ⟨e, by unfold readFromTags; rw [he]; rfl⟩
  · intro data
    unfold writeToTags
    split
    · simp
    · rename_i hl
      push Not at hl
      have key : ∀ (tags : List String) (data : List V) (S : Server V), data.length = tags.length → t ∈ tags → S t = none →
          (writeLoop (tags.zip data) S).2 ≠ none := by
        clear * -
        intro tags
        induction tags with
        | nil => intro _ _ _ h; simp at h
        | cons s tags ih =>
          intro data S hl ht hS
          cases data with
          | nil => simp at hl
          | cons v data =>
            simp only [List.zip_cons_cons, writeLoop]
            cases hw : writeData S s [v] with
            | error e => simp
            | ok S' =>
              have hne : t ≠ s := by rintro rfl; simp [writeData, hS] at hw
              refine ih data S' (by simpa using hl) (by simpa [hne] using ht) ?_
              unfold writeData at hw
              split at hw
              · cases hw
              · obtain rfl := Except.ok.inj hw
                rw [Function.update_of_ne hne]; exact hS
      exact key tags data S hl ht hS

example : ∃ e, readFromTags ["a", "b"] (fun t => if t = "a" then some [1] else none) = .error e :=
  (C47_missing_tag ["a", "b"] _ "b" (by simp) (by decide)).1

/-- **C47 is false** for repeated tags: the last value wins and is read back for all of them. -/
theorem C47_fails_repeated_tag :
    ∃ (tags : List String) (S : Server Nat), (∀ t ∈ tags, (S t).isSome) ∧
      (writeToTags tags S [1, 2]).2 = none ∧ readFromTags tags (writeToTags tags S [1, 2]).1 = .ok [2, 2] := by
  refine ⟨["a", "a"], fun _ => some [0], by simp, by decide, ?_⟩
  rfl

/-- **C47**: an unknown tag raises only when its turn comes: the values before it have been written. -/
theorem C47_fails_unknown_tag :
    ∃ (tags : List String) (S : Server Nat), S "a" = some [0] ∧ (writeToTags tags S [1, 2]).2 = some "UaError" ∧
      (writeToTags tags S [1, 2]).1 "a" = some [1] :=
  ⟨["a", "b"], fun t => if t = "a" then some [0] else none, by decide, by decide, by decide⟩

/-! ## C48: node ids -/

theorem nodeName_inj {a b a' b' : String} (ha : '[' ∉ a.toList) (ha' : '[' ∉ a'.toList) (hb : b.toList.head? = some '[')
    (hb' : b'.toList.head? = some '[') (h : a ++ b = a' ++ b') : a = a' ∧ b = b' := by
  have h' : a.toList ++ b.toList = a'.toList ++ b'.toList := by rw [← String.toList_append, h, String.toList_append]
  have key : ∀ (l m : List Char), '[' ∉ l → m.head? = some '[' → (l ++ m).takeWhile (· ≠ '[') = l := by
    intro l m hl hm
    induction l with
    | nil =>
      cases m with
      | nil => simp at hm
      | cons c m =>
        simp only [List.head?_cons, Option.some.injEq] at hm
        simp [hm]
    | cons c l ih =>
      simp only [List.mem_cons, not_or] at hl
      have : c ≠ '[' := fun e => hl.1 e.symm
      rw [List.cons_append, List.takeWhile_cons, ih hl.2]
      simp [this]
  have e1 : a.toList = a'.toList := by rw [← key _ _ ha hb, h', key _ _ ha' hb']
  have e2 : b.toList = b'.toList := by
    rw [e1] at h'
    exact List.append_cancel_left h'
  exact ⟨String.toList_inj.1 e1, String.toList_inj.1 e2⟩

theorem addAll_spec (es : List Entry) (S : OpcServer) (i : Nat) (hn : (es.map fun e => e.objectnode ++ e.variableName).Nodup)
    (hf : ∀ e ∈ es, (i, e.objectnode ++ e.variableName) ∉ S.nodes) :
    S.addAll i es = .ok ({ S with nodes := S.nodes ++ es.map fun e => (i, e.objectnode ++ e.variableName) },
      es.map fun e => { e with variableName := e.objectnode ++ e.variableName }) := by
  induction es generalizing S with
  | nil => simp [OpcServer.addAll]
  | cons e es ih =>
    rw [List.map_cons, List.nodup_cons] at hn
    have h0 := hf e List.mem_cons_self
    have hA : S.addVariable e i = .ok ({ S with nodes := S.nodes ++ [(i, e.objectnode ++ e.variableName)] },
        { e with variableName := e.objectnode ++ e.variableName }) := by
      simp [OpcServer.addVariable, h0]
    have hI := ih { S with nodes := S.nodes ++ [(i, e.objectnode ++ e.variableName)] } hn.2 (by
      intro e' he'
      simp only [List.mem_append, List.mem_singleton, Prod.mk.injEq, true_and, not_or]
      refine ⟨hf e' (List.mem_cons_of_mem _ he'), ?_⟩
      intro h
      exact hn.1 (List.mem_map.2 ⟨e', he', h⟩))
    rw [OpcServer.addAll, hA]
    show (OpcServer.addAll _ i es >>= _) = _
    rw [hI]
    simp [bind, Except.bind, pure, Except.pure]

/-- What an unambiguous namespace looks like: different entries, object names without brackets, variable names that begin with one (the labels of
CasADi structures, `[name,0]`). -/
structure Proper (n : Namespace) : Prop where
  nodup : n.entries.Nodup
  object : ∀ e ∈ n.entries, '[' ∉ e.objectnode.toList
  label : ∀ e ∈ n.entries, e.variableName.toList.head? = some '['

theorem Proper.names {n : Namespace} (h : Proper n) : (n.entries.map fun e => e.objectnode ++ e.variableName).Nodup := by
  have : ∀ l : List Entry, l.Nodup → (∀ e ∈ l, '[' ∉ e.objectnode.toList) → (∀ e ∈ l, e.variableName.toList.head? = some '[') →
      (l.map fun e => e.objectnode ++ e.variableName).Nodup := by
    intro l
    induction l with
    | nil => simp
    | cons e l ih =>
      intro h1 h2 h3
      rw [List.nodup_cons] at h1
      rw [List.map_cons, List.nodup_cons]
      refine ⟨?_, ih h1.2 (fun e' he' => h2 e' (List.mem_cons_of_mem _ he')) (fun e' he' => h3 e' (List.mem_cons_of_mem _ he'))⟩
      intro hm
      obtain ⟨e', he', hh⟩ := List.mem_map.1 hm
      obtain ⟨q1, q2⟩ := nodeName_inj (h2 e' (List.mem_cons_of_mem _ he')) (h2 e List.mem_cons_self)
        (h3 e' (List.mem_cons_of_mem _ he')) (h3 e List.mem_cons_self) hh
      have : e' = e := by
        cases e; cases e'
        simp_all
      exact h1.1 (this ▸ he')
  exact this _ h.nodup h.object h.label

/-- **C48** (partial).  Registering a proper namespace under a new name succeeds: every entry gets a node of its own, `namespace[object]` lists the
node ids of that object's variables in their order, and the nodes that existed before are still there.  Missing: names that are not labels
(`C48_fails_ambiguous_names`). -/
theorem C48_distinct_partial (S : OpcServer) (n : Namespace) (h : Proper n) (hnew : n.name ∉ S.spaces)
    (hS : ∀ q ∈ S.nodes, q.1 < S.spaces.length + 2) :
    ∃ S' n', S.fromClient n = .ok (S', n') ∧
      S'.nodes = S.nodes ++ n.entries.map (fun e => (S.spaces.length + 2, e.objectnode ++ e.variableName)) ∧
      (n.entries.map fun e => e.objectnode ++ e.variableName).Nodup ∧
      ∀ obj, n'.get obj = .ok ((n.entries.filter (·.objectnode = obj)).map fun e =>
        "ns=" ++ toString (S.spaces.length + 2) ++ ";s=" ++ (e.objectnode ++ e.variableName)) := by
  have hA := addAll_spec n.entries { S with spaces := S.spaces ++ [n.name] } (S.spaces.length + 2) h.names (by
    intro e _ hm
    exact absurd (hS _ hm) (Nat.lt_irrefl _))
  refine ⟨{ spaces := S.spaces ++ [n.name], nodes := S.nodes ++ n.entries.map fun e => (S.spaces.length + 2, e.objectnode ++ e.variableName) },
    { n with entries := n.entries.map fun e => { e with variableName := e.objectnode ++ e.variableName }, index := some (S.spaces.length + 2) },
    ?_, rfl, h.names, ?_⟩
  · unfold OpcServer.fromClient OpcServer.register
    rw [if_neg hnew]
    show (OpcServer.addAll _ _ _ >>= _) = _
    rw [hA]
    rfl
  · intro obj
    simp only [Namespace.get, List.filter_map, List.map_map]
    rfl

/-- The default namespace is proper for every model. -/
theorem C48_default_namespace (labels : String → List String) (name : String) 
    (hn : ∀ v ∈ ["aux", "p", "tvp", "u", "v", "w", "x", "y", "z"], (labels v).Nodup)
    (hb : ∀ v ∈ ["aux", "p", "tvp", "u", "v", "w", "x", "y", "z"], ∀ key ∈ labels v, key.toList.head? = some '[') : Proper (namespaceFromModel labels name) := by
  refine ⟨?_, ?_, ?_⟩
  · unfold namespaceFromModel
    dsimp only
    have hvl : variableList.Nodup := by decide
    change ∀ v ∈ variableList, _ at hn
    change ∀ v ∈ variableList, _ at hb
    generalize variableList = vl at *
    rw [List.nodup_flatMap]
    refine ⟨?_, ?_⟩
    · intro v hv
      exact ((hn v hv).filter _).map (fun a b hab => by simpa using hab)
    · refine hvl.imp ?_
      intro a b hab
      simp only [Function.onFun, List.disjoint_left, List.mem_map, not_exists, not_and]
      rintro e ⟨k, _, rfl⟩ k' _ he
      exact hab (by simpa using (congrArg Entry.objectnode he).symm)
  · intro e he
    simp only [namespaceFromModel, List.mem_flatMap, List.mem_map] at he
    obtain ⟨v, hv, k, hk, rfl⟩ := he
    dsimp only
    revert hv
    have : ∀ v ∈ variableList, '[' ∉ v.toList := by decide
    exact this v
  · intro e he
    simp only [namespaceFromModel, List.mem_flatMap, List.mem_map, List.mem_filter] at he
    obtain ⟨v, hv, k, hk, rfl⟩ := he
    exact hb v hv k hk.1

theorem hasDefault_iff (key : String) : hasDefault key = true ↔ "default".toList <:+: key.toList := by
  unfold hasDefault
  rw [List.any_eq_true]
  constructor
  · rintro ⟨t, ht, hp⟩
    exact (List.isPrefixOf_iff_prefix.1 hp).isInfix.trans ((List.mem_tails _ _).1 ht).isInfix
  · intro h
    obtain ⟨t, hp, hs⟩ := List.infix_iff_prefix_suffix.1 h
    exact ⟨t, (List.mem_tails _ _).2 hs, List.isPrefixOf_iff_prefix.2 hp⟩

/-- Which variables get a node: the labels of the nine groups, except the labels in which the word `default` occurs. -/
theorem C48_default_entries (labels : String → List String) (name : String) (e : Entry) :
    e ∈ (namespaceFromModel labels name).entries ↔
      e.objectnode ∈ ["aux", "p", "tvp", "u", "v", "w", "x", "y", "z"] ∧ e.variableName ∈ labels e.objectnode ∧
        ¬ "default".toList <:+: e.variableName.toList := by
  rw [← hasDefault_iff]
  simp only [namespaceFromModel, List.mem_flatMap, List.mem_map, List.mem_filter]
  constructor
  · rintro ⟨v, hv, k, ⟨hk, hd⟩, rfl⟩
    exact ⟨hv, hk, by simpa using hd⟩
  · rintro ⟨h1, h2, h3⟩
    exact ⟨_, h1, _, ⟨h2, by simpa using h3⟩, rfl⟩

/-- non-vacuity: a model with two states and one input -/
def exLabels : String → List String
  | "x" => ["[a,0]", "[b,0]"]
  | "u" => ["[a,0]"]
  | _ => []

example : (namespaceFromModel exLabels "plant").entries = [⟨"u", "[a,0]"⟩, ⟨"x", "[a,0]"⟩, ⟨"x", "[b,0]"⟩] ∧
    Proper (namespaceFromModel exLabels "plant") := by
  have hp : Proper (namespaceFromModel exLabels "plant") := by
    apply C48_default_namespace <;> simp +decide
  exact ⟨by decide, hp⟩

/-- **C48 is false** for names chosen by the user: two different pairs get the same node id, and the registration is refused. -/
theorem C48_fails_ambiguous_names :
    ∃ n : Namespace, n.entries.Nodup ∧ (OpcServer.mk [] []).fromClient n = .error "UaError" :=
  ⟨⟨"n", [⟨"a", "bc"⟩, ⟨"ab", "c"⟩], none⟩, by decide, by rfl⟩

theorem addAll_entries (es : List Entry) (S : OpcServer) (i : Nat) (S' : OpcServer) (es' : List Entry) (h : S.addAll i es = .ok (S', es')) :
    es' = es.map fun e => { e with variableName := e.objectnode ++ e.variableName } := by
  induction es generalizing S S' es' with
  | nil =>
    simp only [OpcServer.addAll, Except.ok.injEq, Prod.mk.injEq] at h
    simp [← h.2]
  | cons e es ih =>
    rw [OpcServer.addAll] at h
    unfold OpcServer.addVariable at h
    dsimp only at h
    split at h
    · simp [bind, Except.bind] at h
    · change (OpcServer.addAll _ i es >>= _) = _ at h
      cases hq : OpcServer.addAll { S with nodes := S.nodes ++ [(i, e.objectnode ++ e.variableName)] } i es with
      | error m => rw [hq] at h; simp [bind, Except.bind] at h
      | ok r =>
        obtain ⟨S2, es2⟩ := r
        rw [hq] at h
        simp only [bind, Except.bind, pure, Except.pure, Except.ok.injEq, Prod.mk.injEq] at h
        rw [← h.2, ih _ _ _ hq]
        rfl

/-- **C48 is false** for a second registration: whenever registering a client again succeeds, every one of its node ids has changed (the object
name is prefixed once more). -/
theorem C48_fails_registered_twice (S S1 S2 : OpcServer) (n n1 n2 : Namespace) (h1 : S.fromClient n = .ok (S1, n1))
    (h2 : S1.fromClient n1 = .ok (S2, n2)) :
    n2.entries = n1.entries.map (fun e => { e with variableName := e.objectnode ++ e.variableName }) ∧
    ∀ i (h : i < n1.entries.length) (h' : i < n2.entries.length), n1.entries[i].objectnode ≠ "" →
      n2.entries[i].variableName ≠ n1.entries[i].variableName := by
  have key : n2.entries = n1.entries.map (fun e => { e with variableName := e.objectnode ++ e.variableName }) := by
    unfold OpcServer.fromClient at h2
    dsimp only at h2
    cases hq : OpcServer.addAll (S1.register n1.name).1 (S1.register n1.name).2 n1.entries with
    | error m => rw [hq] at h2; simp [bind, Except.bind] at h2
    | ok r =>
      obtain ⟨S3, es3⟩ := r
      rw [hq] at h2
      simp only [bind, Except.bind, pure, Except.pure, Except.ok.injEq, Prod.mk.injEq] at h2
      rw [← h2.2]
      exact addAll_entries _ _ _ _ _ hq
  refine ⟨key, ?_⟩
  intro i h h' hne he
  simp only [key, List.getElem_map] at he
  apply hne
  have := congrArg (fun s : String => s.toList.length) he
  simp only [String.toList_append, List.length_append] at this
  have h0 : n1.entries[i].objectnode.toList.length = 0 := by omega
  exact String.toList_inj.1 (List.length_eq_zero_iff.1 h0)

/-- it does succeed for the default namespace -/
example : ∃ S1 n1 S2 n2, (OpcServer.mk [] []).fromClient (namespaceFromModel exLabels "plant") = .ok (S1, n1) ∧ S1.fromClient n1 = .ok (S2, n2) ∧
    n1.get "u" = .ok ["ns=2;s=u[a,0]"] ∧ n2.get "u" = .ok ["ns=2;s=uu[a,0]"] :=
  ⟨_, _, _, _, rfl, rfl, by decide, by decide⟩

/-- **C48**: a variable whose name contains `default` gets no node at all. -/
theorem C48_fails_default_name (labels : String → List String) (name : String) (e : Entry)
    (h : "default".toList <:+: e.variableName.toList) : e ∉ (namespaceFromModel labels name).entries := by
  rw [C48_default_entries]
  exact fun h' => h'.2.2 h

example : "default".toList <:+: "[T_default,0]".toList := ⟨"[T_".toList, ",0]".toList, rfl⟩

end DoMpc.Opc
