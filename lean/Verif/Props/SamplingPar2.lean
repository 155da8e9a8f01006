import Mathlib.Tactic.IntervalCases
import Verif.Props.SamplingPar

/-! # Property C106: processes that share out the cases of a plan -/
set_option linter.unusedSectionVars false
set_option linter.unusedSimpArgs false
namespace DoMpc
open Spec
variable {V R : Type}

section
variable (cfg : SamplerCfg V R) (f : Nat → Case V → Except String R) (fs0 fs : FS R) (calls : List Nat)

/-- the sample function was called for case `i` and returned `res` -/
def Called (i : Nat) (res : Except String R) : Prop := ∃ k c, calls[k]? = some i ∧ cfg.plan[i]? = some c ∧ f k (arguments c) = res

/-- the call of `sample_idx(i)` has been made -/
def Saved (i : Nat) : Prop := ∃ n, fileOf cfg i = some n ∧
  ((cfg.overwrite = false ∧ HasFile fs0 n ∧ fs n = fs0 n ∧ i ∉ calls) ∨
   ((cfg.overwrite = true ∨ ¬ HasFile fs0 n) ∧ ∃ v, Called cfg f calls i (.ok v) ∧ fs n = some (.file (some v))))

/-- the call of `sample_idx(i)` has not been made -/
def NotBegun (i : Nat) : Prop := i ∉ calls ∧ ∀ n, fileOf cfg i = some n → fs n = fs0 n

/-- a process at work -/
def AtCase (cur post : List Nat) (P : Proc V R) : Prop :=
  match P.pc with
  | .idle => (P.err = none ∧ cur = [] ∧ P.todo = post) ∨
      ∃ e i, P.err = some e ∧ P.todo = [] ∧ cur = [i] ∧ (∀ n, fileOf cfg i = some n → fs n = fs0 n ∧ (cfg.overwrite = true ∨ ¬ HasFile fs0 n)) ∧ Called cfg f calls i (.error e)
  | .calling i c n => P.err = none ∧ P.todo = post ∧ cur = [i] ∧ (∃ c0, cfg.plan[i]? = some c0 ∧ c = arguments c0) ∧ fileOf cfg i = some n ∧
      (cfg.overwrite = true ∨ ¬ HasFile fs0 n) ∧ fs n = fs0 n ∧ i ∉ calls
  | .returned i n r => P.err = none ∧ P.todo = post ∧ cur = [i] ∧ fileOf cfg i = some n ∧ (cfg.overwrite = true ∨ ¬ HasFile fs0 n) ∧ fs n = fs0 n ∧
      Called cfg f calls i (.ok r)
  | .saving i n r => P.err = none ∧ P.todo = post ∧ cur = [i] ∧ fileOf cfg i = some n ∧ (cfg.overwrite = true ∨ ¬ HasFile fs0 n) ∧ fs n = fs0 n ∧
      Called cfg f calls i (.ok r)
  | .opened i n r => P.err = none ∧ P.todo = post ∧ cur = [i] ∧ fileOf cfg i = some n ∧ (cfg.overwrite = true ∨ ¬ HasFile fs0 n) ∧ Called cfg f calls i (.ok r)

/-- a process with the calls `T` to make -/
def PInv (T : List Nat) (P : Proc V R) : Prop := ∃ pre cur post, T = pre ++ cur ++ post ∧ (∀ i ∈ pre, Saved cfg f fs0 fs calls i) ∧
  (∀ i ∈ post, NotBegun cfg fs0 fs calls i) ∧ AtCase cfg f fs0 fs calls cur post P
end

section
variable {cfg : SamplerCfg V R} {f : Nat → Case V → Except String R} {fs0 fs fs' : FS R} {calls l : List Nat}

theorem called_frame {i : Nat} {res : Except String R} (h : Called cfg f calls i res) (l : List Nat) : Called cfg f (calls ++ l) i res := by
  obtain ⟨k, c, hk, h1, h2⟩ := h
  obtain ⟨hlt, -⟩ := List.getElem?_eq_some_iff.1 hk
  exact ⟨k, c, by rw [List.getElem?_append_left hlt]; exact hk, h1, h2⟩

theorem called_new {i : Nat} {c : Case V} (hc : cfg.plan[i]? = some c) : Called cfg f (calls ++ [i]) i (f calls.length (arguments c)) :=
  ⟨calls.length, c, by simp, hc, rfl⟩

theorem notMem_frame {i : Nat} (h : i ∉ calls) (hl : i ∉ l) : i ∉ calls ++ l := by
  rw [List.mem_append]; push Not; exact ⟨h, hl⟩

theorem saved_frame {i : Nat} (h : Saved cfg f fs0 fs calls i) (hfs : ∀ n, fileOf cfg i = some n → fs' n = fs n) (hl : i ∉ l) :
    Saved cfg f fs0 fs' (calls ++ l) i := by
  obtain ⟨n, hn, h⟩ := h
  refine ⟨n, hn, ?_⟩
  rw [hfs n hn]
  rcases h with ⟨h1, h2, h3, h4⟩ | ⟨h1, v, h2, h3⟩
  · exact Or.inl ⟨h1, h2, h3, notMem_frame h4 hl⟩
  · exact Or.inr ⟨h1, v, called_frame h2 l, h3⟩

theorem fresh_frame {i : Nat} (h : NotBegun cfg fs0 fs calls i) (hfs : ∀ n, fileOf cfg i = some n → fs' n = fs n) (hl : i ∉ l) :
    NotBegun cfg fs0 fs' (calls ++ l) i := ⟨notMem_frame h.1 hl, fun n hn => by rw [hfs n hn]; exact h.2 n hn⟩

theorem pinv_frame {T : List Nat} {P : Proc V R} (h : PInv cfg f fs0 fs calls T P) (hfs : ∀ i ∈ T, ∀ n, fileOf cfg i = some n → fs' n = fs n)
    (hl : ∀ i ∈ T, i ∉ l) : PInv cfg f fs0 fs' (calls ++ l) T P := by
  obtain ⟨pre, cur, post, rfl, h1, h2, h3⟩ := h
  refine ⟨pre, cur, post, rfl, fun i hi => saved_frame (h1 i hi) (hfs i (by simp [hi])) (hl i (by simp [hi])),
    fun i hi => fresh_frame (h2 i hi) (hfs i (by simp [hi])) (hl i (by simp [hi])), ?_⟩
  have hcur : ∀ i, cur = [i] → (∀ n, fileOf cfg i = some n → fs' n = fs n) ∧ i ∉ l := fun i e => ⟨hfs i (by simp [e]), hl i (by simp [e])⟩
  unfold AtCase at *
  cases hp : P.pc with
  | idle =>
    rw [hp] at h3
    rcases h3 with h3 | ⟨e, i, a, b, c, hd, g⟩
    · exact Or.inl h3
    · exact Or.inr ⟨e, i, a, b, c, fun n hn => by rw [(hcur i c).1 n hn]; exact hd n hn, called_frame g l⟩
  | calling i c n =>
    rw [hp] at h3
    obtain ⟨a, b, c, dd, e, g, hh, j⟩ := h3
    exact ⟨a, b, c, dd, e, g, by rw [(hcur i c).1 n e]; exact hh, notMem_frame j (hcur i c).2⟩
  | returned i n r =>
    rw [hp] at h3
    obtain ⟨a, b, c, e, g, hh, j⟩ := h3
    exact ⟨a, b, c, e, g, by rw [(hcur i c).1 n e]; exact hh, called_frame j l⟩
  | saving i n r =>
    rw [hp] at h3
    obtain ⟨a, b, c, e, g, hh, j⟩ := h3
    exact ⟨a, b, c, e, g, by rw [(hcur i c).1 n e]; exact hh, called_frame j l⟩
  | opened i n r =>
    rw [hp] at h3
    obtain ⟨a, b, c, e, g, j⟩ := h3
    exact ⟨a, b, c, e, g, called_frame j l⟩

/-- a step of a process: it keeps to its cases -/
theorem pinv_step (hN : GoodNames cfg fs0) {T : List Nat} (hT : T.Nodup) {P : Proc V R} (h : PInv cfg f fs0 fs calls T P)
    {s : Proc V R × FS R × List Nat} (hs : PStep cfg f calls.length fs P s) :
    PInv cfg f fs0 s.2.1 (calls ++ s.2.2) T s.1 ∧ (∀ n, (∀ i ∈ T, fileOf cfg i ≠ some n) → s.2.1 n = fs n) ∧ (∀ j ∈ s.2.2, j ∈ T ∧ j ∉ calls) ∧ s.2.2.Nodup := by
  obtain ⟨pre, cur, post, rfl, h1, h2, h3⟩ := h
  -- nothing but the state of the process changes
  have quiet : ∀ P' cur' post', cur ++ post = cur' ++ post' → (∀ i ∈ post', i ∈ post) → AtCase cfg f fs0 fs calls cur' post' P' →
      PInv cfg f fs0 fs (calls ++ []) (pre ++ cur ++ post) P' := by
    intro P' cur' post' e1 e2 e3
    rw [List.append_nil]
    exact ⟨pre, cur', post', by rw [List.append_assoc, e1, List.append_assoc], h1, fun i hi => h2 i (e2 i hi), e3⟩
  -- the sample function has been called
  have call : ∀ i P', cur = [i] → AtCase cfg f fs0 fs (calls ++ [i]) [i] post P' → PInv cfg f fs0 fs (calls ++ [i]) (pre ++ cur ++ post) P' := by
    intro i P' e1 e2
    subst e1
    rw [List.nodup_append, List.nodup_append] at hT
    refine ⟨pre, [i], post, rfl, fun j hj => saved_frame (h1 j hj) (fun _ _ => rfl) ?_, fun j hj => fresh_frame (h2 j hj) (fun _ _ => rfl) ?_, e2⟩
    · exact fun e => hT.1.2.2 j hj i (by simp) (by simpa using e)
    · exact fun e => hT.2.2 i (by simp) j hj (by simpa using e : j = i).symm
  -- a file has been written
  have write : ∀ i n o P' cur' pre', cur = [i] → fileOf cfg i = some n → (∀ j ∈ pre', j = i → Saved cfg f fs0 (fs.put n (.file o)) calls i) →
      pre ++ cur = pre' ++ cur' → (∀ j ∈ pre', j ∈ pre ∨ j = i) → AtCase cfg f fs0 (fs.put n (.file o)) calls cur' post P' →
      PInv cfg f fs0 (fs.put n (.file o)) (calls ++ []) (pre ++ cur ++ post) P' ∧
      ∀ m, (∀ j ∈ pre ++ cur ++ post, fileOf cfg j ≠ some m) → fs.put n (.file o) m = fs m := by
    intro i n o P' cur' pre' e1 e2 e3 e4 e5 e6
    subst e1
    rw [List.nodup_append, List.nodup_append] at hT
    have hne : ∀ j, j ≠ i → ∀ m, fileOf cfg j = some m → fs.put n (.file o) m = fs m := fun j hj m hm => put_other _ _ fun e => hj (fileOf_inj hN (e ▸ hm) e2)
    refine ⟨?_, fun m hm => put_other _ _ fun e => hm i (by simp) (e ▸ e2)⟩
    refine ⟨pre', cur', post, by rw [e4], fun j hj => ?_, fun j hj => ?_, by rw [List.append_nil]; exact e6⟩
    · by_cases hji : j = i
      · subst hji
        rw [List.append_nil]
        exact e3 j hj rfl
      · exact saved_frame (h1 j ((e5 j hj).resolve_right hji)) (hne j hji) (by simp)
    · exact fresh_frame (h2 j hj) (hne j fun e => hT.2.2 i (by simp) j hj e.symm) (by simp)
  unfold AtCase at h3
  cases hs with
  | stay g1 g2 =>
    refine ⟨quiet P cur post rfl (fun _ h => h) ?_, fun _ _ => rfl, fun _ h => (by cases h), List.nodup_nil⟩
    unfold AtCase
    exact h3
  | skip i is n g1 g2 g3 g4 g5 =>
    rw [g1] at h3
    rcases h3 with ⟨a, rfl, b⟩ | ⟨e, j, a, b, c, hd, g⟩
    · rw [g2] at b
      subst b
      have hf := (h2 i (by simp))
      refine ⟨?_, fun _ _ => rfl, fun _ h => (by cases h), List.nodup_nil⟩
      refine ⟨pre ++ [i], [], is, by simp, ?_, fun j hj => ?_, ?_⟩
      · intro j hj
        rw [List.append_nil]
        rcases List.mem_append.1 hj with hj | hj
        · exact h1 j hj
        · obtain rfl := List.mem_singleton.1 hj
          have e := hf.2 n g3
          refine ⟨n, g3, Or.inl ⟨g4, ?_, e, hf.1⟩⟩
          unfold HasFile at g5 ⊢
          rw [← e]; exact g5
      · rw [List.append_nil]; exact h2 j (List.mem_cons_of_mem _ hj)
      · unfold AtCase
        dsimp only
        rw [g1]
        exact Or.inl ⟨a, rfl, rfl⟩
    · rw [b] at g2; cases g2
  | start i is n c g1 g2 g3 g4 g5 =>
    rw [g1] at h3
    rcases h3 with ⟨a, rfl, b⟩ | ⟨e, j, a, b, c, hd, g⟩
    · rw [g2] at b
      subst b
      have hf := (h2 i (by simp))
      refine ⟨quiet _ [i] is rfl (fun j hj => List.mem_cons_of_mem _ hj) ?_, fun _ _ => rfl, fun _ h => (by cases h), List.nodup_nil⟩
      refine ⟨a, rfl, rfl, ⟨c, g4, rfl⟩, g3, ?_, hf.2 n g3, hf.1⟩
      unfold HasFile at g5 ⊢
      rw [← hf.2 n g3]; exact g5
    · rw [b] at g2; cases g2
  | fail i c n e g1 g2 =>
    rw [g1] at h3
    obtain ⟨a1, a2, a3, ⟨c0, a4, rfl⟩, a5, a6, a7, a8⟩ := h3
    refine ⟨call i _ a3 ?_, fun _ _ => rfl, fun j hj => ?_, List.nodup_singleton i⟩
    · exact Or.inr ⟨e, i, rfl, rfl, rfl, fun m hm => by obtain rfl := Option.some.inj (hm.symm.trans a5); exact ⟨a7, a6⟩, by rw [← g2]; exact called_new a4⟩
    · obtain rfl := List.mem_singleton.1 hj
      exact ⟨by simp [a3], a8⟩
  | ret i c n r g1 g2 =>
    rw [g1] at h3
    obtain ⟨a1, a2, a3, ⟨c0, a4, rfl⟩, a5, a6, a7, a8⟩ := h3
    refine ⟨call i _ a3 ?_, fun _ _ => rfl, fun j hj => ?_, List.nodup_singleton i⟩
    · exact ⟨a1, a2, rfl, a5, a6, a7, by rw [← g2]; exact called_new a4⟩
    · obtain rfl := List.mem_singleton.1 hj
      exact ⟨by simp [a3], a8⟩
  | drop i n r g1 g2 g3 =>
    rw [g1] at h3
    obtain ⟨a1, a2, a3, a5, a6, a7, a8⟩ := h3
    rcases a6 with a6 | a6
    · rw [g2] at a6; cases a6
    · exfalso
      apply a6
      unfold HasFile at g3 ⊢
      rw [← a7]; exact g3
  | save i n r g1 g2 =>
    rw [g1] at h3
    exact ⟨quiet _ cur post rfl (fun _ h => h) h3, fun _ _ => rfl, fun _ h => (by cases h), List.nodup_nil⟩
  | opens i n r g1 =>
    rw [g1] at h3
    obtain ⟨a1, a2, a3, a5, a6, a7, a8⟩ := h3
    have hni : i ∉ pre := by
      rw [a3, List.nodup_append, List.nodup_append] at hT
      exact fun hi => hT.1.2.2 i hi i (by simp) rfl
    obtain ⟨w1, w2⟩ := write i n none { P with pc := .opened i n r } cur pre a3 a5 (fun j hj e => absurd (e ▸ hj) hni) rfl (fun j hj => Or.inl hj) ⟨a1, a2, a3, a5, a6, a8⟩
    exact ⟨w1, w2, fun _ h => (by cases h), List.nodup_nil⟩
  | dump i n r g1 =>
    rw [g1] at h3
    obtain ⟨a1, a2, a3, a5, a6, a8⟩ := h3
    obtain ⟨w1, w2⟩ := write i n (some r) { P with pc := .idle } [] (pre ++ [i]) a3 a5 (fun j hj e => ⟨n, a5, Or.inr ⟨a6, r, a8, put_same _ _ _⟩⟩) (by rw [a3]; simp)
      (fun j hj => by simpa using hj) (Or.inl ⟨a1, rfl, a2⟩)
    exact ⟨w1, w2, fun _ h => (by cases h), List.nodup_nil⟩

end

/-! ## all processes -/

/-- what holds at every moment if the processes share out the cases -/
structure GInv (cfg : SamplerCfg V R) (f : Nat → Case V → Except String R) (fs0 : FS R) (todos : List (List Nat)) (σ : Par V R) : Prop where
  loose : LInv cfg fs0 todos.flatten σ
  size : σ.procs.length = todos.length
  procs : ∀ (p : Nat) (t : List Nat) (P : Proc V R), todos[p]? = some t → σ.procs[p]? = some P → PInv cfg f fs0 σ.fs σ.calls t P
  once : σ.calls.Nodup
  given : ∀ i ∈ σ.calls, i ∈ todos.flatten

theorem disjoint_of_flatten {todos : List (List Nat)} (h : todos.flatten.Nodup) {p q : Nat} {t u : List Nat} (hp : todos[p]? = some t) (hq : todos[q]? = some u)
    (hpq : p ≠ q) : ∀ i ∈ t, i ∉ u := by
  obtain ⟨-, h2⟩ := List.nodup_flatten.1 h
  obtain ⟨hpl, rfl⟩ := List.getElem?_eq_some_iff.1 hp
  obtain ⟨hql, rfl⟩ := List.getElem?_eq_some_iff.1 hq
  rcases Nat.lt_or_gt_of_ne hpq with hlt | hlt
  · exact fun i h1 h3 => (List.pairwise_iff_getElem.1 h2 p q hpl hql hlt) h1 h3
  · exact fun i h1 h3 => (List.pairwise_iff_getElem.1 h2 q p hql hpl hlt) h3 h1

theorem ginv_step {cfg : SamplerCfg V R} {fs0 : FS R} (hN : GoodNames cfg fs0) {todos : List (List Nat)} (hall : ∀ t ∈ todos, ∀ i ∈ t, i < cfg.plan.length)
    (hd : todos.flatten.Nodup) (f : Nat → Case V → Except String R) (σ : Par V R) (p : Nat) (h : GInv cfg f fs0 todos σ) : GInv cfg f fs0 todos (cfg.parStep f σ p) := by
  have hall' : ∀ i ∈ todos.flatten, i < cfg.plan.length := fun i hi => by obtain ⟨t, ht, hi⟩ := List.mem_flatten.1 hi; exact hall t ht i hi
  have hl := linv_step hN hall' f σ p h.loose
  cases hp : σ.procs[p]? with
  | none => rw [parStep_none cfg f σ p hp]; exact h
  | some P =>
    have hlt : p < todos.length := by rw [← h.size]; exact (List.getElem?_eq_some_iff.1 hp).1
    have ht : todos[p]? = some todos[p] := List.getElem?_eq_getElem hlt
    have hs := h.loose.cases hN hall' (f := f) (List.mem_of_getElem? hp) σ.calls.length
    rw [parStep_eq cfg f σ p P hp] at hl ⊢
    generalize cfg.procStep f σ.calls.length σ.fs P = s at hs hl
    have hTn : todos[p].Nodup := (List.nodup_flatten.1 hd).1 _ (List.getElem_mem hlt)
    obtain ⟨s1, s2, s3, s4⟩ := pinv_step hN hTn (h.procs p _ P ht hp) hs
    refine ⟨hl, by rw [List.length_set]; exact h.size, fun q u Q hu hQ => ?_, ?_, fun i hi => ?_⟩
    · by_cases hqp : p = q
      · subst hqp
        have hQ : (σ.procs.set p s.1)[p]? = some Q := hQ
        rw [List.getElem?_set_self (by rw [h.size]; exact hlt)] at hQ
        obtain rfl := Option.some.inj hQ
        obtain rfl := Option.some.inj (hu.symm.trans ht)
        exact s1
      · have hQ : (σ.procs.set p s.1)[q]? = some Q := hQ
        rw [List.getElem?_set_ne hqp] at hQ
        refine pinv_frame (h.procs q u Q hu hQ) (fun i hi n hn => s2 n fun j hj e => ?_) fun i hi hj => ?_
        · obtain rfl := fileOf_inj hN hn e
          exact disjoint_of_flatten hd hu ht (Ne.symm hqp) i hi hj
        · exact disjoint_of_flatten hd hu ht (Ne.symm hqp) i hi (s3 i hj).1
    · show (σ.calls ++ s.2.2).Nodup
      rw [List.nodup_append]
      refine ⟨h.once, s4, fun a ha b hb e => ?_⟩
      exact (s3 b hb).2 (e ▸ ha)
    · have hi : i ∈ σ.calls ++ s.2.2 := hi
      rcases List.mem_append.1 hi with hi | hi
      · exact h.given i hi
      · exact List.mem_flatten.2 ⟨_, List.getElem_mem hlt, (s3 i hi).1⟩

theorem ginv_start (cfg : SamplerCfg V R) (f : Nat → Case V → Except String R) (fs0 : FS R) (todos : List (List Nat)) :
    GInv cfg f fs0 todos (Par.start (V := V) fs0 todos) := by
  refine ⟨linv_start cfg fs0 todos, by simp [Par.start], fun p t P ht hP => ?_, List.nodup_nil, fun i hi => by cases hi⟩
  simp only [Par.start, List.getElem?_map, ht, Option.map_some, Option.some.injEq] at hP
  subst hP
  exact ⟨[], [], t, rfl, fun i hi => (by cases hi), fun i hi => ⟨by simp [Par.start], fun _ _ => rfl⟩, Or.inl ⟨rfl, rfl, rfl⟩⟩

theorem ginv_run {cfg : SamplerCfg V R} {fs0 : FS R} (hN : GoodNames cfg fs0) {todos : List (List Nat)} (hall : ∀ t ∈ todos, ∀ i ∈ t, i < cfg.plan.length)
    (hd : todos.flatten.Nodup) (f : Nat → Case V → Except String R) (sched : List Nat) :
    ∀ σ : Par V R, GInv cfg f fs0 todos σ → GInv cfg f fs0 todos (cfg.parRun f σ sched) := by
  induction sched with
  | nil => exact fun _ h => h
  | cons p ps ih => exact fun σ h => ih _ (ginv_step hN hall hd f σ p h)

/-- **C106**: the cases are shared out between the processes.  When a process has made its calls without exception, each of its cases has a file: the one that was
there, if it need not be overwritten (then the sample function was not called for it), and otherwise a file with what the sample function returned when it was called for this
case — whatever the other processes do, fail or are killed at any point. -/
theorem C106_process (cfg : SamplerCfg V R) (fs : FS R) (hN : GoodNames cfg fs) (todos : List (List Nat)) (hall : ∀ t ∈ todos, ∀ i ∈ t, i < cfg.plan.length)
    (hd : todos.flatten.Nodup) (f : Nat → Case V → Except String R) (sched : List Nat) (p : Nat) (t : List Nat) (ht : todos[p]? = some t) (P : Proc V R)
    (hP : (cfg.parRun f (Par.start fs todos) sched).procs[p]? = some P) (hfin : Finished P) (i : Nat) (hi : i ∈ t) :
    let σ := cfg.parRun f (Par.start fs todos) sched
    ∃ n, fileOf cfg i = some n ∧
      (¬ Needed cfg fs i → σ.fs n = fs n ∧ i ∉ σ.calls) ∧
      (Needed cfg fs i → ∃ (k : Nat) (c : Case V) (v : R), σ.calls[k]? = some i ∧ cfg.plan[i]? = some c ∧ f k (arguments c) = .ok v ∧ σ.fs n = some (.file (some v))) := by
  have h := ginv_run hN hall hd f sched _ (ginv_start cfg f fs todos)
  obtain ⟨pre, cur, post, rfl, h1, h2, h3⟩ := h.procs p t P ht hP
  unfold AtCase at h3
  rw [hfin.2.1] at h3
  rcases h3 with ⟨-, rfl, b⟩ | ⟨e, j, a, -⟩
  · rw [hfin.1] at b
    subst b
    rw [List.append_nil, List.append_nil] at hi
    obtain ⟨n, hn, g⟩ := h1 i hi
    have hneed : Needed cfg fs i ↔ (cfg.overwrite = true ∨ ¬ HasFile fs n) := by
      unfold Needed
      refine or_congr_right ⟨fun g => g n hn, fun g m hm => ?_⟩
      obtain rfl := Option.some.inj (hn.symm.trans hm)
      exact g
    refine ⟨n, hn, fun hne => ?_, fun hne => ?_⟩
    · rcases g with g | g
      · exact ⟨g.2.2.1, g.2.2.2⟩
      · exact absurd (hneed.2 g.1) hne
    · rcases g with g | ⟨-, v, ⟨k, c, g1, g2, g3⟩, g4⟩
      · exfalso
        rcases hneed.1 hne with hne | hne
        · rw [g.1] at hne; cases hne
        · exact hne g.2.1
      · exact ⟨k, c, v, g1, g2, g3, g4⟩
  · rw [hfin.2.2] at a; cases a

/-- **C106**: then the sample function is called at most once for each case, and only for the cases the processes were given. -/
theorem C106_calls (cfg : SamplerCfg V R) (fs : FS R) (hN : GoodNames cfg fs) (todos : List (List Nat)) (hall : ∀ t ∈ todos, ∀ i ∈ t, i < cfg.plan.length)
    (hd : todos.flatten.Nodup) (f : Nat → Case V → Except String R) (sched : List Nat) :
    let σ := cfg.parRun f (Par.start fs todos) sched
    σ.calls.Nodup ∧ ∀ i ∈ σ.calls, (∃ t ∈ todos, i ∈ t) ∧ Needed cfg fs i := by
  have h := ginv_run hN hall hd f sched _ (ginv_start cfg f fs todos)
  refine ⟨h.once, fun i hi => ⟨List.mem_flatten.1 (h.given i hi), ?_⟩⟩
  obtain ⟨t, ht, hit⟩ := List.mem_flatten.1 (h.given i hi)
  obtain ⟨p, hp, rfl⟩ := List.mem_iff_getElem.1 ht
  have hpp : p < (cfg.parRun f (Par.start fs todos) sched).procs.length := by rw [h.size]; exact hp
  obtain ⟨pre, cur, post, hT, h1, h2, h3⟩ := h.procs p _ _ (List.getElem?_eq_getElem hp) (List.getElem?_eq_getElem hpp)
  rw [hT, List.mem_append, List.mem_append] at hit
  have one : ∀ n, fileOf cfg i = some n → (cfg.overwrite = true ∨ ¬ HasFile fs n) → Needed cfg fs i := fun n hn g => g.imp_right fun g m hm => by
    obtain rfl := Option.some.inj (hn.symm.trans hm); exact g
  rcases hit with (hit | hit) | hit
  · obtain ⟨n, hn, g⟩ := h1 i hit
    rcases g with g | g
    · exact absurd hi g.2.2.2
    · exact one n hn g.1
  · obtain ⟨n, hn⟩ := fileOf_exists hN (hall _ ht i (by rw [hT]; simp [hit]))
    unfold AtCase at h3
    split at h3
    · rcases h3 with ⟨-, rfl, -⟩ | ⟨e, j, -, -, rfl, g, -⟩
      · cases hit
      · obtain rfl := List.mem_singleton.1 hit
        exact one n hn (g n hn).2
    · obtain ⟨-, -, rfl, -, g, g', -⟩ := h3
      obtain rfl := List.mem_singleton.1 hit
      exact one _ g g'
    · obtain ⟨-, -, rfl, g, g', -⟩ := h3
      obtain rfl := List.mem_singleton.1 hit
      exact one _ g g'
    · obtain ⟨-, -, rfl, g, g', -⟩ := h3
      obtain rfl := List.mem_singleton.1 hit
      exact one _ g g'
    · obtain ⟨-, -, rfl, g, g', -⟩ := h3
      obtain rfl := List.mem_singleton.1 hit
      exact one _ g g'
  · exact absurd hi (h2 i hit).1

/-! ## it ends -/

/-- steps a process has at most still to make -/
def Proc.left (P : Proc V R) : Nat := 5 * P.todo.length + match P.pc with
  | .idle => 0
  | .calling .. => 4
  | .returned .. => 3
  | .saving .. => 2
  | .opened .. => 1

theorem left_step (cfg : SamplerCfg V R) (f : Nat → Case V → Except String R) (k : Nat) (fs : FS R) (P : Proc V R) : (cfg.procStep f k fs P).1.left ≤ P.left - 1 := by
  have hraise : ∀ e, (Proc.raise e : Proc V R).left = 0 := fun _ => rfl
  unfold SamplerCfg.procStep
  cases hp : P.pc with
  | idle =>
    dsimp only
    cases ht : P.todo with
    | nil => simp [Proc.left, hp, ht]
    | cons i is =>
      dsimp only
      split_ifs
      · split
        · rw [hraise]; omega
        · split
          · rw [hraise]; omega
          · split_ifs
            · simp [Proc.left, hp, ht]; omega
            · simp [Proc.left, hp, ht]; omega
      · rw [hraise]; omega
  | calling i c n =>
    dsimp only
    split
    · rw [hraise]; omega
    · simp [Proc.left, hp]
  | returned i n r =>
    dsimp only
    split_ifs
    · simp [Proc.left, hp]
    · simp [Proc.left, hp]
  | saving i n r =>
    dsimp only
    split
    · rw [hraise]; omega
    · simp [Proc.left, hp]
  | opened i n r => simp [Proc.left, hp]

theorem run_left (cfg : SamplerCfg V R) (f : Nat → Case V → Except String R) (p : Nat) (sched : List Nat) : ∀ (σ : Par V R) (P : Proc V R), σ.procs[p]? = some P →
    ∃ P', (cfg.parRun f σ sched).procs[p]? = some P' ∧ P'.left ≤ P.left - sched.count p := by
  induction sched with
  | nil => exact fun σ P h => ⟨P, h, by simp⟩
  | cons q qs ih =>
    intro σ P h
    show ∃ P', (cfg.parRun f (cfg.parStep f σ q) qs).procs[p]? = some P' ∧ _
    cases hq : σ.procs[q]? with
    | none =>
      rw [parStep_none cfg f σ q hq]
      obtain ⟨P', h1, h2⟩ := ih σ P h
      have hne : q ≠ p := by rintro rfl; rw [h] at hq; cases hq
      exact ⟨P', h1, by rw [List.count_cons_of_ne hne]; exact h2⟩
    | some Q =>
      rw [parStep_eq cfg f σ q Q hq]
      by_cases hqp : q = p
      · subst hqp
        obtain rfl := Option.some.inj (hq.symm.trans h)
        obtain ⟨P', h1, h2⟩ := ih { fs := _, procs := σ.procs.set q (cfg.procStep f σ.calls.length σ.fs Q).1, calls := _ } _
          (List.getElem?_set_self (List.getElem?_eq_some_iff.1 hq).1)
        refine ⟨P', h1, ?_⟩
        rw [List.count_cons_self]
        have := left_step cfg f σ.calls.length σ.fs Q
        omega
      · obtain ⟨P', h1, h2⟩ := ih { fs := _, procs := σ.procs.set q (cfg.procStep f σ.calls.length σ.fs Q).1, calls := _ } P
          (by rw [List.getElem?_set_ne hqp]; exact h)
        exact ⟨P', h1, by rw [List.count_cons_of_ne hqp]; exact h2⟩

/-- **C106**: no process waits for another: one that was given `m` calls and is scheduled `5 m` times has made them, or an exception has ended its work. -/
theorem C106_progress (cfg : SamplerCfg V R) (fs : FS R) (todos : List (List Nat)) (f : Nat → Case V → Except String R) (sched : List Nat) (p : Nat) (t : List Nat)
    (ht : todos[p]? = some t) (hs : 5 * t.length ≤ sched.count p) :
    ∃ P, (cfg.parRun f (Par.start fs todos) sched).procs[p]? = some P ∧ (Finished P ∨ ∃ e, P.err = some e) := by
  obtain ⟨P, h1, h2⟩ := run_left cfg f p sched (Par.start fs todos) { todo := t } (by simp [Par.start, ht])
  refine ⟨P, h1, ?_⟩
  have h3 : P.left = 0 := by
    have : ({ todo := t } : Proc V R).left = 5 * t.length := by simp [Proc.left]
    omega
  cases he : P.err with
  | some e => exact Or.inr ⟨e, rfl⟩
  | none =>
    left
    unfold Proc.left at h3
    refine ⟨List.length_eq_zero_iff.1 (by omega), ?_, he⟩
    cases hp : P.pc with
    | idle => rfl
    | calling i c n => rw [hp] at h3; simp at h3
    | returned i n r => rw [hp] at h3; simp at h3
    | saving i n r => rw [hp] at h3; simp at h3
    | opened i n r => rw [hp] at h3; simp at h3

/-! ## one process is `sample_data` -/

theorem alone_step (cfg : SamplerCfg V R) (f : Nat → Case V → Except String R) (fs : FS R) (P : Proc V R) (cs : List Nat) :
    cfg.parStep f { fs := fs, procs := [P], calls := cs } 0 =
      { fs := (cfg.procStep f cs.length fs P).2.1, procs := [(cfg.procStep f cs.length fs P).1], calls := cs ++ (cfg.procStep f cs.length fs P).2.2 } := rfl

theorem parRun_append (cfg : SamplerCfg V R) (f : Nat → Case V → Except String R) (σ : Par V R) (a b : List Nat) :
    cfg.parRun f σ (a ++ b) = cfg.parRun f (cfg.parRun f σ a) b := List.foldl_append

/-- one call of `sample_idx`, alone -/
theorem alone_idx (cfg : SamplerCfg V R) (f : Case V → Except String R) (fs : FS R) (i : Nat) (is : List Nat) (cs : List Nat) :
    ∃ sched, (∀ p ∈ sched, p = 0) ∧ cfg.parRun (fun _ => f) { fs := fs, procs := [{ todo := i :: is }], calls := cs } sched =
      { fs := (cfg.sampleIdx f fs i).final fs, procs := [match (cfg.sampleIdx f fs i).outcome with | none => { todo := is } | some e => .raise e],
        calls := cs ++ (cfg.sampleIdx f fs i).calls } := by
  have zeros : ∀ k, ∀ p ∈ List.replicate k 0, p = 0 := fun k p hp => List.eq_of_mem_replicate hp
  unfold SamplerCfg.sampleIdx
  by_cases hi : i ≤ cfg.plan.length
  · rw [if_pos hi]
    cases hc : cfg.plan[i]? with
    | none =>
      refine ⟨List.replicate 1 0, zeros 1, ?_⟩
      simp only [SamplerCfg.parRun, List.replicate, List.foldl_cons, List.foldl_nil]
      rw [alone_step]
      simp [SamplerCfg.procStep, hi, hc, SampleRun.final]
    | some c =>
      dsimp only
      cases hid : caseId cfg.str c with
      | none =>
        refine ⟨List.replicate 1 0, zeros 1, ?_⟩
        simp only [SamplerCfg.parRun, List.replicate, List.foldl_cons, List.foldl_nil]
        rw [alone_step]
        simp [SamplerCfg.procStep, hi, hc, hid, SampleRun.final]
      | some id =>
        dsimp only
        by_cases hck : (!fs.isFile (sampleFile cfg.dir cfg.sampleName cfg.mat id) || cfg.overwrite) = true
        · rw [if_pos hck]
          -- first check
          have s1 : cfg.parStep (fun _ => f) { fs := fs, procs := [{ todo := i :: is }], calls := cs } 0 =
              { fs := fs, procs := [{ todo := is, pc := .calling i (dictDel c "id") (sampleFile cfg.dir cfg.sampleName cfg.mat id) }], calls := cs } := by
            rw [alone_step]
            simp only [SamplerCfg.procStep, hi, if_true, hc, hid, hck, List.append_nil]
          cases hf : f (dictDel c "id") with
          | error e =>
            refine ⟨List.replicate 2 0, zeros 2, ?_⟩
            simp only [SamplerCfg.parRun, List.replicate, List.foldl_cons, List.foldl_nil]
            rw [s1, alone_step]
            simp [SamplerCfg.procStep, hf, SampleRun.final]
          | ok r =>
            set full := sampleFile cfg.dir cfg.sampleName cfg.mat id with hfull
            have s2 : cfg.parStep (fun _ => f) { fs := fs, procs := [{ todo := is, pc := .calling i (dictDel c "id") full }], calls := cs } 0 =
                { fs := fs, procs := [{ todo := is, pc := .returned i full r }], calls := cs ++ [i] } := by
              rw [alone_step]
              simp only [SamplerCfg.procStep, hf]
            have s3 : cfg.parStep (fun _ => f) { fs := fs, procs := [{ todo := is, pc := .returned i full r }], calls := cs ++ [i] } 0 =
                { fs := fs, procs := [{ todo := is, pc := .saving i full r }], calls := cs ++ [i] } := by
              rw [alone_step]
              simp only [SamplerCfg.procStep, hck, if_true, List.append_nil]
            dsimp only
            set name := if cfg.mat then full else pickleName full with hname
            by_cases hdir : fs name = some .dir
            · refine ⟨List.replicate 4 0, zeros 4, ?_⟩
              simp only [SamplerCfg.parRun, List.replicate, List.foldl_cons, List.foldl_nil]
              rw [s1, s2, s3, alone_step]
              simp only [SamplerCfg.procStep, ← hname, hdir, FS.write, SampleRun.final, List.append_nil, List.getLastD_nil]
            · have s4 : cfg.parStep (fun _ => f) { fs := fs, procs := [{ todo := is, pc := .saving i full r }], calls := cs ++ [i] } 0 =
                  { fs := fs.put name (.file none), procs := [{ todo := is, pc := .opened i name r }], calls := cs ++ [i] } := by
                rw [alone_step]
                simp only [SamplerCfg.procStep, ← hname]
                cases hfs : fs name with
                | none => simp
                | some e =>
                  cases e with
                  | dir => exact absurd hfs hdir
                  | file o => simp
              have hw : fs.write name r = ([fs.put name (.file none), fs.put name (.file (some r))], none) := by
                unfold FS.write
                cases hfs : fs name with
                | none => rfl
                | some e =>
                  cases e with
                  | dir => exact absurd hfs hdir
                  | file o => rfl
              have hput : (fs.put name (.file none)).put name (.file (some r)) = fs.put name (.file (some r)) := by
                funext m
                by_cases hm : m = name
                · subst hm; rw [put_same, put_same]
                · rw [put_other _ _ hm, put_other _ _ hm, put_other _ _ hm]
              refine ⟨List.replicate 5 0, zeros 5, ?_⟩
              simp only [SamplerCfg.parRun, List.replicate, List.foldl_cons, List.foldl_nil]
              rw [s1, s2, s3, s4, alone_step, hw]
              simp [SamplerCfg.procStep, SampleRun.final, hput]
        · rw [if_neg hck]
          refine ⟨List.replicate 1 0, zeros 1, ?_⟩
          simp only [SamplerCfg.parRun, List.replicate, List.foldl_cons, List.foldl_nil]
          rw [alone_step]
          simp only [SamplerCfg.procStep, hi, if_true, hc, hid, if_neg hck, List.append_nil, SampleRun.final]
          rfl
  · rw [if_neg hi]
    refine ⟨List.replicate 1 0, zeros 1, ?_⟩
    simp only [SamplerCfg.parRun, List.replicate, List.foldl_cons, List.foldl_nil]
    rw [alone_step]
    simp [SamplerCfg.procStep, hi, SampleRun.final]

theorem alone_list (cfg : SamplerCfg V R) (f : Case V → Except String R) (is : List Nat) : ∀ (fs : FS R) (cs : List Nat),
    ∃ sched, (∀ p ∈ sched, p = 0) ∧ cfg.parRun (fun _ => f) { fs := fs, procs := [{ todo := is }], calls := cs } sched =
      { fs := (cfg.sampleList f fs is).final fs, procs := [match (cfg.sampleList f fs is).outcome with | none => { todo := [] } | some e => .raise e],
        calls := cs ++ (cfg.sampleList f fs is).calls } := by
  induction is with
  | nil => exact fun fs cs => ⟨[], by simp, by simp [SamplerCfg.parRun, SamplerCfg.sampleList, SampleRun.final]⟩
  | cons i is ih =>
    intro fs cs
    obtain ⟨a, ha, h1⟩ := alone_idx cfg f fs i is cs
    cases ho : (cfg.sampleIdx f fs i).outcome with
    | some e =>
      refine ⟨a, ha, ?_⟩
      have hs : cfg.sampleList f fs (i :: is) = { trace := (cfg.sampleIdx f fs i).trace, calls := (cfg.sampleIdx f fs i).calls, outcome := some e } := by
        simp only [SamplerCfg.sampleList, ho]
      rw [h1, ho, hs]
      rfl
    | none =>
      obtain ⟨b, hb, h2⟩ := ih ((cfg.sampleIdx f fs i).final fs) (cs ++ (cfg.sampleIdx f fs i).calls)
      refine ⟨a ++ b, fun p hp => (List.mem_append.1 hp).elim (ha p) (hb p), ?_⟩
      rw [parRun_append, h1, ho]
      have hs : cfg.sampleList f fs (i :: is) = { trace := (cfg.sampleIdx f fs i).trace ++ (cfg.sampleList f ((cfg.sampleIdx f fs i).final fs) is).trace, calls := (cfg.sampleIdx f fs i).calls ++ (cfg.sampleList f ((cfg.sampleIdx f fs i).final fs) is).calls, outcome := (cfg.sampleList f ((cfg.sampleIdx f fs i).final fs) is).outcome } := by
        simp only [SamplerCfg.sampleList, ho]
      dsimp only
      rw [h2, hs]
      simp only [SampleRun.final, final_append, List.append_assoc]

/-- **C106**: `sample_data` is the run of a single process (the model of this file and that of C42 agree). -/
theorem C106_alone (cfg : SamplerCfg V R) (f : Case V → Except String R) (fs : FS R) :
    ∃ sched P, cfg.parRun (fun _ => f) (Par.start fs [List.range cfg.plan.length]) sched =
        { fs := (cfg.sampleData f fs).trace.getLastD fs, procs := [P], calls := (cfg.sampleData f fs).calls } ∧
      ((cfg.sampleData f fs).outcome = none → Finished P) ∧ ∀ e, (cfg.sampleData f fs).outcome = some e → P.err = some e := by
  obtain ⟨sched, -, h⟩ := alone_list cfg f (List.range cfg.plan.length) fs []
  refine ⟨sched, _, h, fun ho => ?_, fun e ho => ?_⟩
  · have ho : (cfg.sampleList f fs (List.range cfg.plan.length)).outcome = none := ho
    rw [ho]
    exact ⟨rfl, rfl, rfl⟩
  · have ho : (cfg.sampleList f fs (List.range cfg.plan.length)).outcome = some e := ho
    rw [ho]
    rfl

/-- **C106**: if the sample function is not random and the processes have made the calls for all cases without exception, the files are those of `sample_data`. -/
theorem C106_as_sample_data (cfg : SamplerCfg V R) (fs : FS R) (hN : GoodNames cfg fs) (todos : List (List Nat)) (hperm : todos.flatten.Perm (List.range cfg.plan.length))
    (f : Case V → Except String R) (sched : List Nat) (hfin : ∀ P ∈ (cfg.parRun (fun _ => f) (Par.start fs todos) sched).procs, Finished P) :
    (cfg.sampleData f fs).outcome = none ∧ (cfg.parRun (fun _ => f) (Par.start fs todos) sched).fs = (cfg.sampleData f fs).trace.getLastD fs ∧
      (cfg.parRun (fun _ => f) (Par.start fs todos) sched).calls.Perm (cfg.sampleData f fs).calls := by
  have hd : todos.flatten.Nodup := hperm.nodup_iff.2 List.nodup_range
  have hmem : ∀ i, i < cfg.plan.length ↔ ∃ t ∈ todos, i ∈ t := fun i => by rw [← List.mem_flatten, hperm.mem_iff, List.mem_range]
  have hall : ∀ t ∈ todos, ∀ i ∈ t, i < cfg.plan.length := fun t ht i hi => (hmem i).2 ⟨t, ht, hi⟩
  have hall1 : ∀ t ∈ [List.range cfg.plan.length], ∀ i ∈ t, i < cfg.plan.length := by simp
  have hd1 : [List.range cfg.plan.length].flatten.Nodup := by simpa using List.nodup_range
  obtain ⟨s1, P1, hrun, hok, herr⟩ := C106_alone cfg f fs
  set σ := cfg.parRun (fun _ => f) (Par.start fs todos) sched with hσ
  set τ := cfg.parRun (fun _ => f) (Par.start fs [List.range cfg.plan.length]) s1 with hτ
  have hg := ginv_run hN hall hd (fun _ => f) sched _ (ginv_start cfg (fun _ => f) fs todos)
  have hg1 := ginv_run hN hall1 hd1 (fun _ => f) s1 _ (ginv_start cfg (fun _ => f) fs [List.range cfg.plan.length])
  -- the parallel run, case by case
  have hpar : ∀ i < cfg.plan.length, ∃ n, fileOf cfg i = some n ∧ (¬ Needed cfg fs i → σ.fs n = fs n ∧ i ∉ σ.calls) ∧
      (Needed cfg fs i → ∃ (k : Nat) (c : Case V) (v : R), σ.calls[k]? = some i ∧ cfg.plan[i]? = some c ∧ f (arguments c) = .ok v ∧ σ.fs n = some (.file (some v))) := by
    intro i hi
    obtain ⟨t, ht, hit⟩ := (hmem i).1 hi
    obtain ⟨p, hp, rfl⟩ := List.mem_iff_getElem.1 ht
    have hpp : p < σ.procs.length := by rw [hg.size]; exact hp
    exact C106_process cfg fs hN todos hall hd (fun _ => f) sched p _ (List.getElem?_eq_getElem hp) _ (List.getElem?_eq_getElem hpp)
      (hfin _ (List.getElem_mem hpp)) i hit
  have hP1 : τ.procs[0]? = some P1 := by rw [hrun]; rfl
  have hout : (cfg.sampleData f fs).outcome = none := by
    cases ho : (cfg.sampleData f fs).outcome with
    | none => rfl
    | some e =>
      exfalso
      have he := herr e ho
      obtain ⟨pre, cur, post, hT, -, -, h3⟩ := hg1.procs 0 _ P1 rfl hP1
      have bad : ∀ i, cur = [i] → (∀ n, fileOf cfg i = some n → cfg.overwrite = true ∨ ¬ HasFile fs n) → Called cfg (fun _ => f) τ.calls i (.error e) → False := by
        rintro i rfl hn ⟨k, c, -, hc, hf⟩
        have hi : i < cfg.plan.length := by
          have : i ∈ List.range cfg.plan.length := by rw [hT]; simp
          exact List.mem_range.1 this
        obtain ⟨n, hn1, -, g⟩ := hpar i hi
        have hneed : Needed cfg fs i := (hn n hn1).imp_right fun g m hm => by obtain rfl := Option.some.inj (hn1.symm.trans hm); exact g
        obtain ⟨k', c', v, -, hc', hv, -⟩ := g hneed
        obtain rfl := Option.some.inj (hc.symm.trans hc')
        exact absurd (hf.symm.trans hv) (by simp)
      unfold AtCase at h3
      split at h3
      · rcases h3 with ⟨a, -⟩ | ⟨e', i, a, -, b, g, g'⟩
        · rw [he] at a; cases a
        · rw [he] at a
          obtain rfl := Option.some.inj a
          exact bad i b (fun n hn => (g n hn).2) g'
      all_goals
        rw [he] at h3
        exact absurd h3.1 (by simp)
  have hseq : ∀ i < cfg.plan.length, ∃ n, fileOf cfg i = some n ∧ (¬ Needed cfg fs i → τ.fs n = fs n ∧ i ∉ τ.calls) ∧
      (Needed cfg fs i → ∃ (k : Nat) (c : Case V) (v : R), τ.calls[k]? = some i ∧ cfg.plan[i]? = some c ∧ f (arguments c) = .ok v ∧ τ.fs n = some (.file (some v))) := fun i hi =>
    C106_process cfg fs hN [List.range cfg.plan.length] hall1 hd1 (fun _ => f) s1 0 _ rfl P1 hP1 (hok hout) i (List.mem_range.2 hi)
  have hfs : σ.fs = τ.fs := by
    funext n
    by_cases hn : ∃ i < cfg.plan.length, fileOf cfg i = some n
    · obtain ⟨i, hi, hin⟩ := hn
      obtain ⟨n1, e1, a1, b1⟩ := hpar i hi
      obtain ⟨n2, e2, a2, b2⟩ := hseq i hi
      obtain rfl := Option.some.inj (hin.symm.trans e1)
      obtain rfl := Option.some.inj (hin.symm.trans e2)
      by_cases hne : Needed cfg fs i
      · obtain ⟨-, c, v, -, c1, v1, w1⟩ := b1 hne
        obtain ⟨-, c', v', -, c2, v2, w2⟩ := b2 hne
        obtain rfl := Option.some.inj (c1.symm.trans c2)
        rw [v1] at v2
        rw [w1, w2, Except.ok.inj v2]
      · rw [(a1 hne).1, (a2 hne).1]
    · push Not at hn
      rw [hg.loose.others n fun i hi => hn i ((hmem i).2 (List.mem_flatten.1 hi)), hg1.loose.others n fun i hi => hn i (by simpa using hi)]
  refine ⟨hout, ?_, ?_⟩
  · rw [hfs, hrun]
  · have hc : τ.calls = (cfg.sampleData f fs).calls := by rw [hrun]
    rw [← hc, List.perm_ext_iff_of_nodup hg.once hg1.once]
    intro i
    have both : ∀ i, i < cfg.plan.length → (i ∈ σ.calls ↔ i ∈ τ.calls) := by
      intro i hi
      obtain ⟨n1, e1, a1, b1⟩ := hpar i hi
      obtain ⟨n2, e2, a2, b2⟩ := hseq i hi
      by_cases hne : Needed cfg fs i
      · obtain ⟨k1, -, -, h1, -⟩ := b1 hne
        obtain ⟨k2, -, -, h2, -⟩ := b2 hne
        exact ⟨fun _ => List.mem_of_getElem? h2, fun _ => List.mem_of_getElem? h1⟩
      · exact ⟨fun h => absurd h (a1 hne).2, fun h => absurd h (a2 hne).2⟩
    exact ⟨fun h => (both i ((hmem i).2 (List.mem_flatten.1 (hg.given i h)))).1 h, fun h => (both i (by simpa using hg1.given i h)).2 h⟩

/-! ## where it fails -/

/-- **C106 fails if two processes are given the same case** (two samplers started on one plan): both find no file, both call the sample function, and the second
replaces the complete result of the first although `overwrite` is off. -/
theorem C106_fails_same_case : ∃ (f : Nat → Case Nat → Except String Nat) (s1 s2 : List Nat),
    let σ := smCfg.parRun f (Par.start (fun _ => none) [[0], [0]]) s1
    let τ := smCfg.parRun f σ s2
    smCfg.overwrite = false ∧ σ.fs "./sample_000.pkl" = some (.file (some 0)) ∧ τ.fs "./sample_000.pkl" = some (.file (some 1)) ∧ τ.calls = [0, 0] := by
  refine ⟨fun k _ => .ok k, [0, 1, 0, 0, 1, 1, 0, 0], [1, 1], rfl, ?_⟩
  decide +kernel

/-! ## the conditions can be met -/

namespace ParEx
/-- three cases -/
def cfg : SamplerCfg Nat Nat := { plan := [[("alpha", .val 3), ("id", .id "000")], [("alpha", .val 4), ("id", .id "001")], [("alpha", .val 5), ("id", .id "002")]], str := toString }

theorem names : GoodNames cfg (fun _ => none) where
  hasId := by simp [cfg, idText, List.lookup]
  distinct := by
    intro i j hi hj h
    have hi : i < 3 := hi
    have hj : j < 3 := hj
    interval_cases i <;> interval_cases j <;> first | rfl | (simp [cfg, idText, List.lookup] at h)
  clean := by
    right
    intro c hc id hid
    simp only [cfg, List.mem_cons, List.not_mem_nil, or_false] at hc
    rcases hc with rfl | rfl | rfl <;> (simp [idText, List.lookup] at hid; subst hid; simp only [cfg, SamplerCfg.dir, SamplerCfg.sampleName]; decide)
  noDir := by simp

/-- the function fails for `alpha = 5` -/
def f : Nat → Case Nat → Except String Nat := fun _ c => match c.lookup "alpha" with
  | some (.val 5) => .error "ValueError"
  | some (.val v) => .ok (2 * v)
  | _ => .error "TypeError"

-- the second process fails at the last case, the first one and the second case are complete
example : let σ := cfg.parRun f (Par.start (fun _ => none) [[0], [1, 2]]) [0, 1, 1, 0, 0, 1, 1, 0, 0, 1, 1, 1, 0, 1]
    σ.fs "./sample_000.pkl" = some (.file (some 6)) ∧ σ.fs "./sample_001.pkl" = some (.file (some 8)) ∧ σ.fs "./sample_002.pkl" = none ∧
    σ.procs.map (·.err) = [none, some "ValueError"] := by decide +kernel
end ParEx

end DoMpc
