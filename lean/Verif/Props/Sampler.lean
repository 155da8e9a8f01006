import Verif.Props.SamplingPlan

set_option linter.unusedSectionVars false
set_option linter.unusedSimpArgs false

/-! # C42: sampling can be interrupted and resumed -/
namespace DoMpc
variable {V R : Type}

namespace Spec
/-- The text of the entry `id` of a case. -/
def idText (str : V → String) (c : Case V) : Option String :=
  (c.lookup "id").map fun
    | .id s => s
    | .val v => str v

/-- The keyword arguments of the sample function: the entries of the case other than `id`. -/
def arguments (c : Case V) : Case V := c.filter fun e => !(e.1 == "id")

/-- There is a file (complete or not) of this name. -/
def HasFile (fs : FS R) (n : String) : Prop := ∃ content, fs n = some (.file content)

/-- The file in which the result of case `c` belongs. -/
def resultFile (cfg : SamplerCfg V R) (c : Case V) : Option String :=
  (idText cfg.str c).map fun id => cfg.dir ++ cfg.sampleName ++ "_" ++ id ++ (if cfg.mat then ".mat" else ".pkl")

/-- The file systems that can be found after any number of runs, each interrupted at any point: killed between two effects, or ended by
an exception (also one from the sample function, which may fail differently every time but computes `g` when it does not fail). -/
inductive Interrupted (cfg : SamplerCfg V R) (g : Case V → R) (fs : FS R) : FS R → Prop
  | start : Interrupted cfg g fs fs
  | run (s s' : FS R) (f : Case V → Except String R) (hf : ∀ c r, f c = .ok r → r = g c) :
      Interrupted cfg g fs s → s' ∈ (cfg.sampleData f s).trace → Interrupted cfg g fs s'
end Spec
open Spec

/-- What the user has to provide for: every case has its own file (distinct ids), names are not changed by `save_pickle` (no `.pkl`
inside), and no directory is in the way. -/
structure SamplerCfg.Ok (cfg : SamplerCfg V R) (fs : FS R) : Prop where
  noOverwrite : cfg.overwrite = false
  hasId : ∀ c ∈ cfg.plan, ∃ id, idText cfg.str c = some id
  distinct : ∀ i j (hi : i < cfg.plan.length) (hj : j < cfg.plan.length),
    idText cfg.str cfg.plan[i] = idText cfg.str cfg.plan[j] → i = j
  clean : cfg.mat = true ∨ ∀ c ∈ cfg.plan, ∀ id, idText cfg.str c = some id →
    ¬ ".pkl".toList <:+: (cfg.dir ++ cfg.sampleName ++ "_" ++ id).toList
  noDir : ∀ c ∈ cfg.plan, ∀ n, resultFile cfg c = some n → fs n ≠ some .dir

theorem caseId_eq (str : V → String) (c : Case V) : caseId str c = idText str c := by
  unfold caseId idText
  cases c.lookup "id" with
  | none => rfl
  | some v => cases v <;> rfl

theorem dictDel_id (c : Case V) : dictDel c "id" = arguments c := by
  unfold dictDel arguments
  congr 1
  funext e
  by_cases h : e.1 = "id" <;> simp [h]

theorem isFile_iff (fs : FS R) (n : String) : fs.isFile n = true ↔ HasFile fs n := by
  unfold FS.isFile HasFile
  cases h : fs n with
  | none => simp
  | some e => cases e <;> simp

theorem isFile_false (fs : FS R) (n : String) : fs.isFile n = false ↔ ¬ HasFile fs n := by
  rw [← isFile_iff]; simp

/-- state of the file of a case relative to the start -/
def fileOk (cfg : SamplerCfg V R) (g : Case V → R) (fs s : FS R) : Prop :=
  (∀ n, (∀ c ∈ cfg.plan, resultFile cfg c ≠ some n) → s n = fs n) ∧
  ∀ c ∈ cfg.plan, ∀ n, resultFile cfg c = some n →
    s n = fs n ∨ (fs.isFile n = false ∧ (s n = some (.file none) ∨ s n = some (.file (some (g (dictDel c "id"))))))

theorem sampleFile_eq (cfg : SamplerCfg V R) (c : Case V) (id : String) (h : idText cfg.str c = some id) :
    resultFile cfg c = some (sampleFile cfg.dir cfg.sampleName cfg.mat id) := by
  simp [resultFile, h, sampleFile, String.append_assoc]

theorem resultFile_inj {cfg : SamplerCfg V R} {fs : FS R} (hok : cfg.Ok fs) {i j : Nat} (hi : i < cfg.plan.length)
    (hj : j < cfg.plan.length) {n : String} (h1 : resultFile cfg cfg.plan[i] = some n) (h2 : resultFile cfg cfg.plan[j] = some n) :
    i = j := by
  obtain ⟨id1, hid1⟩ := hok.hasId _ (List.getElem_mem hi)
  obtain ⟨id2, hid2⟩ := hok.hasId _ (List.getElem_mem hj)
  simp only [resultFile, hid1, hid2, Option.map_some, Option.some.injEq] at h1 h2
  have h := h1.trans h2.symm
  have h' := congrArg String.toList h
  simp only [String.toList_append, List.append_assoc, List.append_cancel_left_eq, List.append_cancel_right_eq] at h'
  apply hok.distinct i j hi hj
  rw [hid1, hid2, String.toList_inj.1 h']

theorem saved_name (cfg : SamplerCfg V R) {fs : FS R} (hok : cfg.Ok fs) (c : Case V) (hc : c ∈ cfg.plan) (id : String)
    (hid : idText cfg.str c = some id) :
    (if cfg.mat then sampleFile cfg.dir cfg.sampleName cfg.mat id else pickleName (sampleFile cfg.dir cfg.sampleName cfg.mat id)) =
      sampleFile cfg.dir cfg.sampleName cfg.mat id := by
  cases hm : cfg.mat with
  | true => simp
  | false =>
    rcases hok.clean with h | h
    · rw [hm] at h; cases h
    · have := pickleName_of_clean _ (h c hc id hid)
      simp only [sampleFile, Bool.false_eq_true, if_false]
      rw [← String.append_assoc, ← String.append_assoc, ← String.append_assoc]
      exact this

/-- One call of `sample_idx` in a state that may be found after interruptions. -/
theorem sampleIdx_spec (cfg : SamplerCfg V R) (g : Case V → R) (fs s : FS R) (hok : cfg.Ok fs) (hs : fileOk cfg g fs s)
    (f : Case V → Except String R) (hf : ∀ c r, f c = .ok r → r = g c) (i : Nat) (hi : i < cfg.plan.length) :
    (∀ s' ∈ (cfg.sampleIdx f s i).trace, fileOk cfg g fs s') ∧
    ∀ n, resultFile cfg cfg.plan[i] = some n →
      (cfg.sampleIdx f s i).calls = (if s.isFile n then [] else [i]) ∧
      ((∀ c, ∃ r, f c = .ok r) → (cfg.sampleIdx f s i).outcome = none) ∧
      ((cfg.sampleIdx f s i).outcome = none →
        (cfg.sampleIdx f s i).final s n = (if s.isFile n then s n else some (.file (some (g (dictDel cfg.plan[i] "id"))))) ∧
        ∀ m, m ≠ n → (cfg.sampleIdx f s i).final s m = s m) := by
  have hc := List.getElem_mem hi
  obtain ⟨id, hid⟩ := hok.hasId _ hc
  have hres := sampleFile_eq cfg _ id hid
  have hname := saved_name cfg hok _ hc id hid
  set n := sampleFile cfg.dir cfg.sampleName cfg.mat id with hn
  have hnodir : s n ≠ some .dir := by
    rcases hs.2 _ hc n hres with h | ⟨-, h | h⟩
    · rw [h]; exact hok.noDir _ hc n hres
    · rw [h]; simp
    · rw [h]; simp
  have hstep : ∀ e : Option R, s.isFile n = false → (e = none ∨ e = some (g (dictDel cfg.plan[i] "id"))) →
      fileOk cfg g fs (s.put n (.file e)) := by
    intro e hfree he
    have hfs : fs.isFile n = false := by
      rcases hs.2 _ hc n hres with h | ⟨h, -⟩
      · simpa [FS.isFile, h] using hfree
      · exact h
    constructor
    · intro m hm
      have hmn : m ≠ n := fun h' => hm _ hc (h' ▸ hres)
      simp only [FS.put, if_neg hmn]
      exact hs.1 m hm
    · intro c' hc' m hm
      by_cases hmn : m = n
      · subst hmn
        obtain ⟨j, hj, rfl⟩ := List.getElem_of_mem hc'
        have hij := resultFile_inj hok hi hj hres hm
        subst hij
        right
        refine ⟨hfs, ?_⟩
        simp only [FS.put, if_pos]
        rcases he with rfl | rfl
        · exact Or.inl rfl
        · exact Or.inr rfl
      · simp only [FS.put, if_neg hmn]
        exact hs.2 c' hc' m hm
  have hw : s.isFile n = false → ∀ r, s.write n r = ([s.put n (.file none), s.put n (.file (some r))], none) := by
    intro hfree r
    cases h : s n with
    | none => simp [FS.write, h]
    | some e =>
      cases e with
      | dir => exact absurd h hnodir
      | file v => simp [FS.isFile, h] at hfree
  have hmain : cfg.sampleIdx f s i =
      if s.isFile n then ⟨[], [], none⟩ else
        match f (dictDel cfg.plan[i] "id") with
        | .error e => ⟨[], [i], some e⟩
        | .ok r => ⟨(s.write n r).1, [i], (s.write n r).2⟩ := by
    have hid' : caseId cfg.str cfg.plan[i] = some id := (caseId_eq ..).trans hid
    unfold SamplerCfg.sampleIdx
    simp only [if_pos hi.le, List.getElem?_eq_getElem hi, hid', ← hn, hname, hok.noOverwrite, Bool.or_false]
    cases s.isFile n
    · simp only [Bool.false_eq_true, if_false]
      cases f (dictDel cfg.plan[i] "id") <;> rfl
    · simp
  rw [hmain]
  cases hfree : s.isFile n with
  | true =>
    refine ⟨by simp, fun n' hn' => ?_⟩
    rw [hres] at hn'; cases hn'
    simp [hfree, SampleRun.final]
  | false =>
    simp only [Bool.false_eq_true, if_false]
    cases hfc : f (dictDel cfg.plan[i] "id") with
    | error e =>
      refine ⟨by simp, fun n' hn' => ?_⟩
      rw [hres] at hn'; cases hn'
      refine ⟨by simp [hfree], fun h => ?_, by simp⟩
      obtain ⟨r, hr⟩ := h (dictDel cfg.plan[i] "id")
      rw [hfc] at hr; cases hr
    | ok r =>
      have hr := hf _ r hfc
      dsimp only
      rw [hw hfree r]
      refine ⟨?_, fun n' hn' => ?_⟩
      · intro s' hs'
        simp only [List.mem_cons, List.not_mem_nil, or_false] at hs'
        rcases hs' with rfl | rfl
        · exact hstep none hfree (Or.inl rfl)
        · exact hstep (some r) hfree (Or.inr (by rw [hr]))
      · rw [hres] at hn'; cases hn'
        refine ⟨by simp [hfree], fun _ => rfl, fun _ => ⟨?_, ?_⟩⟩
        · simp [SampleRun.final, FS.put, hfree, hr]
        · intro m hm
          simp [SampleRun.final, FS.put, hm]

theorem fileOk_final (cfg : SamplerCfg V R) (g : Case V → R) (fs s : FS R) (hs : fileOk cfg g fs s) (r : SampleRun R)
    (h : ∀ s' ∈ r.trace, fileOk cfg g fs s') : fileOk cfg g fs (r.final s) := by
  unfold SampleRun.final
  rcases getLastD_mem_or r.trace s with h' | ⟨h', -⟩
  · exact h _ h'
  · rw [h']; exact hs

theorem final_append (s : FS R) (a b : List (FS R)) : (a ++ b).getLastD s = b.getLastD (a.getLastD s) := by
  rw [List.getLastD_eq_getLast?, List.getLastD_eq_getLast?, List.getLastD_eq_getLast?, List.getLast?_append]
  cases b.getLast? <;> simp

theorem sampleList_trace (cfg : SamplerCfg V R) (g : Case V → R) (fs : FS R) (hok : cfg.Ok fs)
    (f : Case V → Except String R) (hf : ∀ c r, f c = .ok r → r = g c) (is : List Nat) (his : ∀ i ∈ is, i < cfg.plan.length) (s : FS R)
    (hs : fileOk cfg g fs s) : ∀ s' ∈ (cfg.sampleList f s is).trace, fileOk cfg g fs s' := by
  induction is generalizing s with
  | nil => simp [SamplerCfg.sampleList]
  | cons i is ih =>
    have h1 := (sampleIdx_spec cfg g fs s hok hs f hf i (his i (by simp))).1
    unfold SamplerCfg.sampleList
    dsimp only
    split
    · exact h1
    · intro s' hs'
      rcases List.mem_append.1 hs' with h | h
      · exact h1 s' h
      · exact ih (fun j hj => his j (by simp [hj])) _ (fileOk_final cfg g fs s hs _ h1) s' h

theorem sampleList_done (cfg : SamplerCfg V R) (g : Case V → R) (fs : FS R) (hok : cfg.Ok fs)
    (f : Case V → Except String R) (hf : ∀ c, f c = .ok (g c)) (is : List Nat) (his : ∀ i ∈ is, i < cfg.plan.length)
    (hnd : is.Nodup) (s : FS R) (hs : fileOk cfg g fs s) :
    (cfg.sampleList f s is).outcome = none ∧
    (∀ i (hi : i < cfg.plan.length) n, resultFile cfg cfg.plan[i] = some n →
      (cfg.sampleList f s is).final s n =
        if i ∈ is ∧ s.isFile n = false then some (.file (some (g (dictDel cfg.plan[i] "id")))) else s n) ∧
    (∀ n, (∀ c ∈ cfg.plan, resultFile cfg c ≠ some n) → (cfg.sampleList f s is).final s n = s n) ∧
    (∀ i, i ∈ (cfg.sampleList f s is).calls ↔ i ∈ is ∧ ∃ (hi : i < cfg.plan.length), ∃ n, resultFile cfg cfg.plan[i] = some n ∧ s.isFile n = false) ∧
    (cfg.sampleList f s is).calls.Nodup := by
  induction is generalizing s with
  | nil => simp [SamplerCfg.sampleList, SampleRun.final]
  | cons i is ih =>
    have hi := his i (by simp)
    have hfr : ∀ c r, f c = .ok r → r = g c := by intro c r h; rw [hf c] at h; cases h; rfl
    obtain ⟨h1, h2⟩ := sampleIdx_spec cfg g fs s hok hs f hfr i hi
    obtain ⟨id, hid⟩ := hok.hasId _ (List.getElem_mem hi)
    have hn := sampleFile_eq cfg _ id hid
    set n := sampleFile cfg.dir cfg.sampleName cfg.mat id
    obtain ⟨h3, h4, h5⟩ := h2 n hn
    have hout := h4 fun c => ⟨_, hf c⟩
    obtain ⟨h6, h7⟩ := h5 hout
    rw [List.nodup_cons] at hnd
    have hs1 := fileOk_final cfg g fs s hs _ h1
    obtain ⟨k1, k2, k3, k4, k5⟩ := ih (fun j hj => his j (by simp [hj])) hnd.2 _ hs1
    set r := cfg.sampleIdx f s i with hr
    have heq : cfg.sampleList f s (i :: is) =
        ⟨r.trace ++ (cfg.sampleList f (r.final s) is).trace, r.calls ++ (cfg.sampleList f (r.final s) is).calls,
          (cfg.sampleList f (r.final s) is).outcome⟩ := by
      conv_lhs => unfold SamplerCfg.sampleList
      dsimp only
      rw [← hr, hout]
    have hfin : (cfg.sampleList f s (i :: is)).final s = (cfg.sampleList f (r.final s) is).final (r.final s) := by
      rw [heq]; simp only [SampleRun.final]; exact final_append _ _ _
    have hother : ∀ j (hj : j < cfg.plan.length) m, resultFile cfg cfg.plan[j] = some m → j ≠ i → m ≠ n := by
      intro j hj m hm hji hmn
      subst hmn
      exact hji (resultFile_inj hok hj hi hm hn)
    refine ⟨by rw [heq]; exact k1, ?_, ?_, ?_, ?_⟩
    · intro j hj m hm
      rw [hfin, k2 j hj m hm]
      by_cases hji : j = i
      · subst hji
        rw [hn] at hm; cases hm
        rw [if_neg (fun h => hnd.1 h.1), h6]
        cases hfree : s.isFile n <;> simp
      · have hmn := hother j hj m hm hji
        have : (r.final s).isFile m = s.isFile m := by simp only [FS.isFile, h7 m hmn]
        rw [this, h7 m hmn]
        simp [hji]
    · intro m hm
      rw [hfin, k3 m hm, h7 m (fun h' => hm _ (List.getElem_mem hi) (h' ▸ hn))]
    · intro j
      rw [heq]
      simp only [List.mem_append, h3, k4 j, List.mem_cons]
      have hfile : ∀ (hj : j < cfg.plan.length), j ≠ i → ((∃ m, resultFile cfg cfg.plan[j] = some m ∧ (r.final s).isFile m = false) ↔
          ∃ m, resultFile cfg cfg.plan[j] = some m ∧ s.isFile m = false) := by
        intro hj hji
        constructor
        · rintro ⟨m, hm, hf'⟩
          exact ⟨m, hm, by simpa only [FS.isFile, h7 m (hother j hj m hm hji)] using hf'⟩
        · rintro ⟨m, hm, hf'⟩
          exact ⟨m, hm, by simpa only [FS.isFile, h7 m (hother j hj m hm hji)] using hf'⟩
      constructor
      · rintro (h | ⟨h, hj, hm⟩)
        · split at h
          · simp at h
          · rw [List.mem_singleton] at h
            subst h
            exact ⟨Or.inl rfl, hi, n, hn, by simpa using ‹¬ s.isFile n = true›⟩
        · have hji : j ≠ i := fun h' => hnd.1 (h' ▸ h)
          exact ⟨Or.inr h, hj, (hfile hj hji).1 hm⟩
      · rintro ⟨h | h, hj, hm⟩
        · subst h
          left
          obtain ⟨m, hm, hf'⟩ := hm
          rw [hn] at hm; cases hm
          simp [hf']
        · have hji : j ≠ i := fun h' => hnd.1 (h' ▸ h)
          exact Or.inr ⟨h, hj, (hfile hj hji).2 hm⟩
    · rw [heq]
      rw [List.nodup_append]
      refine ⟨by rw [h3]; split <;> simp, k5, ?_⟩
      intro a ha b hb hab
      subst hab
      rw [h3] at ha
      split at ha
      · simp at ha
      · rw [List.mem_singleton] at ha
        subst ha
        exact hnd.1 ((k4 a).1 hb).1

theorem interrupted_ok (cfg : SamplerCfg V R) (g : Case V → R) (fs s : FS R) (hok : cfg.Ok fs)
    (h : Interrupted cfg g fs s) : fileOk cfg g fs s := by
  induction h with
  | start => exact ⟨fun _ _ => rfl, fun _ _ _ _ => Or.inl rfl⟩
  | run s s' f hf _ hmem ih =>
    exact sampleList_trace cfg g fs hok f hf _ (fun i hi => List.mem_range.1 hi) s ih s' hmem

/-- **C42, partial.**  Start `sample_data`, interrupt it anywhere, restart, interrupt again, any number of times.  If no interruption
fell into the writing of a result file (leaving it incomplete), then one more uninterrupted run succeeds, and afterwards the file of
every case that had no file at the very beginning holds the sample function's result for that case; all other files are as they were at
the beginning; the last run calls the sample function exactly once for the cases without a file.
Missing: interruptions while a file is being written (`C42_fails_torn_file`). -/
theorem C42_resume_partial (cfg : SamplerCfg V R) (g : Case V → R) (fs s : FS R) (hok : cfg.Ok fs)
    (h : Interrupted cfg g fs s)
    (hwhole : ∀ c ∈ cfg.plan, ∀ n, resultFile cfg c = some n → s n = some (.file none) → fs n = some (.file none)) :
    let r := cfg.sampleData (fun c => .ok (g c)) s
    r.outcome = none ∧
    (∀ i (hi : i < cfg.plan.length) n, resultFile cfg cfg.plan[i] = some n →
      (HasFile fs n → r.trace.getLastD s n = fs n) ∧ (¬ HasFile fs n → r.trace.getLastD s n = some (.file (some (g (arguments cfg.plan[i])))))) ∧
    (∀ n, (∀ c ∈ cfg.plan, resultFile cfg c ≠ some n) → r.trace.getLastD s n = fs n) ∧
    (∀ i, i ∈ r.calls ↔ ∃ (hi : i < cfg.plan.length), ∃ n, resultFile cfg cfg.plan[i] = some n ∧ ¬ HasFile s n) ∧
    r.calls.Nodup := by
  suffices H : let r := cfg.sampleData (fun c => .ok (g c)) s
      r.outcome = none ∧
      (∀ i (hi : i < cfg.plan.length) n, resultFile cfg cfg.plan[i] = some n →
        r.final s n = if fs.isFile n then fs n else some (.file (some (g (dictDel cfg.plan[i] "id"))))) ∧
      (∀ n, (∀ c ∈ cfg.plan, resultFile cfg c ≠ some n) → r.final s n = fs n) ∧
      (∀ i, i ∈ r.calls ↔ ∃ (hi : i < cfg.plan.length), ∃ n, resultFile cfg cfg.plan[i] = some n ∧ s.isFile n = false) ∧
      r.calls.Nodup by
    obtain ⟨k1, k2, k3, k4, k5⟩ := H
    refine ⟨k1, fun i hi n hn => ⟨fun hf => ?_, fun hf => ?_⟩, k3, fun i => (k4 i).trans ?_, k5⟩
    · have := k2 i hi n hn
      rw [if_pos ((isFile_iff fs n).2 hf)] at this
      exact this
    · have := k2 i hi n hn
      rw [if_neg (by rw [isFile_iff]; exact hf), dictDel_id] at this
      exact this
    · simp only [isFile_false]
  have hs := interrupted_ok cfg g fs s hok h
  obtain ⟨h1, h2, h3, h4, h5⟩ := sampleList_done cfg g fs hok (fun c => .ok (g c)) (fun _ => rfl) (List.range cfg.plan.length)
    (fun i hi => List.mem_range.1 hi) List.nodup_range s hs
  refine ⟨h1, ?_, ?_, ?_, h5⟩
  · intro i hi n hn
    refine (h2 i hi n hn).trans ?_
    rcases hs.2 _ (List.getElem_mem hi) n hn with hsn | ⟨hfree, hsn | hsn⟩
    · have : s.isFile n = fs.isFile n := by simp only [FS.isFile, hsn]
      rw [this, hsn]
      cases fs.isFile n <;> simp [hi]
    · have := hwhole _ (List.getElem_mem hi) n hn hsn
      simp [FS.isFile, this] at hfree
    · rw [hfree, hsn]
      simp [FS.isFile, hsn]
  · intro n hn
    exact (h3 n hn).trans (hs.1 n hn)
  · intro i
    refine (h4 i).trans ?_
    constructor
    · exact fun h => h.2
    · exact fun h => ⟨List.mem_range.2 h.1, h⟩

/-- **C42: interruptions never damage other files.**  At every point of every interrupted run, the files that existed at the beginning
are unchanged. -/
theorem C42_existing_files_kept (cfg : SamplerCfg V R) (g : Case V → R) (fs s : FS R) (hok : cfg.Ok fs) (h : Interrupted cfg g fs s)
    (n : String) (hn : HasFile fs n) : s n = fs n := by
  have hn := (isFile_iff fs n).2 hn
  have hs := interrupted_ok cfg g fs s hok h
  by_cases hc : ∃ c ∈ cfg.plan, resultFile cfg c = some n
  · obtain ⟨c, hc, hcn⟩ := hc
    rcases hs.2 c hc n hcn with h' | ⟨h', -⟩
    · exact h'
    · rw [hn] at h'; cases h'
  · push Not at hc
    exact hs.1 n hc

theorem sampleList_calls_ok (cfg : SamplerCfg V R) (f : Case V → Except String R) (is : List Nat) (s : FS R)
    (h : (cfg.sampleList f s is).outcome = none) :
    ∀ i ∈ (cfg.sampleList f s is).calls, ∃ c r, cfg.plan[i]? = some c ∧ f (dictDel c "id") = .ok r := by
  induction is generalizing s with
  | nil => simp [SamplerCfg.sampleList]
  | cons i is ih =>
    unfold SamplerCfg.sampleList at h ⊢
    dsimp only at h ⊢
    cases ho : (cfg.sampleIdx f s i).outcome with
    | some e => simp [ho] at h
    | none =>
      simp only [ho] at h ⊢
      intro j hj
      rcases List.mem_append.1 hj with hj | hj
      · unfold SamplerCfg.sampleIdx at hj ho
        split at hj
        · rename_i hle
          rw [if_pos hle] at ho
          cases hc : cfg.plan[i]? with
          | none => simp [hc] at hj
          | some c =>
            cases hid : caseId cfg.str c with
            | none => simp [hc, hid] at hj
            | some id =>
              simp only [hc, hid] at hj ho
              split at hj
              · rename_i hfree
                rw [if_pos hfree] at ho
                cases hf : f (dictDel c "id") with
                | error e => simp [hf] at ho
                | ok r =>
                  simp only [hf, List.mem_singleton] at hj
                  subst hj
                  exact ⟨c, r, hc, hf⟩
              · simp at hj
        · simp at hj
      · exact ih _ h j hj

theorem sampleList_complete (cfg : SamplerCfg V R) (g : Case V → R) (fs : FS R) (hok : cfg.Ok fs)
    (f : Case V → Except String R) (hf : ∀ c r, f c = .ok r → r = g c) (is : List Nat) (his : ∀ i ∈ is, i < cfg.plan.length) (s : FS R)
    (hs : fileOk cfg g fs s) (h : (cfg.sampleList f s is).outcome = none) :
    (∀ m, s.isFile m = true → (cfg.sampleList f s is).final s m = s m) ∧
    ∀ i ∈ is, ∀ (hi : i < cfg.plan.length) n, resultFile cfg cfg.plan[i] = some n →
      (cfg.sampleList f s is).final s n = if s.isFile n then s n else some (.file (some (g (dictDel cfg.plan[i] "id")))) := by
  induction is generalizing s with
  | nil => simp [SamplerCfg.sampleList, SampleRun.final]
  | cons i is ih =>
    have hi := his i (by simp)
    obtain ⟨h1, h2⟩ := sampleIdx_spec cfg g fs s hok hs f hf i hi
    obtain ⟨id, hid⟩ := hok.hasId _ (List.getElem_mem hi)
    have hn := sampleFile_eq cfg _ id hid
    set n := sampleFile cfg.dir cfg.sampleName cfg.mat id
    obtain ⟨h3, h4, h5⟩ := h2 n hn
    set r := cfg.sampleIdx f s i with hr
    have hs1 := fileOk_final cfg g fs s hs _ h1
    cases hout : r.outcome with
    | some e =>
      unfold SamplerCfg.sampleList at h
      dsimp only at h
      rw [← hr, hout] at h
      simp at h
    | none =>
      have heq : cfg.sampleList f s (i :: is) =
          ⟨r.trace ++ (cfg.sampleList f (r.final s) is).trace, r.calls ++ (cfg.sampleList f (r.final s) is).calls,
            (cfg.sampleList f (r.final s) is).outcome⟩ := by
        conv_lhs => unfold SamplerCfg.sampleList
        dsimp only
        rw [← hr, hout]
      have hfin : (cfg.sampleList f s (i :: is)).final s = (cfg.sampleList f (r.final s) is).final (r.final s) := by
        rw [heq]; simp only [SampleRun.final]; exact final_append _ _ _
      rw [heq] at h
      obtain ⟨k1, k2⟩ := ih (fun j hj => his j (by simp [hj])) _ hs1 h
      obtain ⟨h6, h7⟩ := h5 hout
      have hkeep : ∀ m, s.isFile m = true → r.final s m = s m := by
        intro m hm
        by_cases hmn : m = n
        · subst hmn; rw [h6, if_pos hm]
        · exact h7 m hmn
      refine ⟨?_, ?_⟩
      · intro m hm
        have hk := hkeep m hm
        rw [hfin, k1 m (by simpa only [FS.isFile, hk] using hm), hk]
      · intro j hj hjl m hm
        rw [hfin]
        by_cases hji : j = i
        · subst hji
          rw [hn] at hm; cases hm
          have hfile : (r.final s).isFile n = true := by
            cases hfr : s.isFile n with
            | true => rw [← hfr]; simp only [FS.isFile, h6, FS.isFile] at *; simp [hfr]
            | false => simp only [FS.isFile, h6]; simp [FS.isFile] at hfr ⊢; simp [hfr]
          rw [k1 n hfile, h6]
        · have hmn : m ≠ n := fun h' => hji (resultFile_inj hok hjl hi hm (h' ▸ hn))
          rw [k2 j (by simpa [hji] using hj) hjl m hm]
          have : (r.final s).isFile m = s.isFile m := by simp only [FS.isFile, h7 m hmn]
          rw [this, h7 m hmn]

/-- **C42: success is reported only for a complete sampling.**  If `sample_data` returns without an exception — after any history of
interrupted runs, with a sample function that may fail — then the sample function has returned for every case for which it was called,
and every case has its file: the one found at the start of this run, or one with the result computed in this run. -/
theorem C42_success_is_complete (cfg : SamplerCfg V R) (g : Case V → R) (fs s : FS R) (hok : cfg.Ok fs) (h : Interrupted cfg g fs s)
    (f : Case V → Except String R) (hf : ∀ c r, f c = .ok r → r = g c) (hout : (cfg.sampleData f s).outcome = none) :
    (∀ i ∈ (cfg.sampleData f s).calls, ∃ c r, cfg.plan[i]? = some c ∧ f (arguments c) = .ok r) ∧
    ∀ i (hi : i < cfg.plan.length), ∃ n, resultFile cfg cfg.plan[i] = some n ∧
      (HasFile s n → (cfg.sampleData f s).trace.getLastD s n = s n) ∧
      (¬ HasFile s n → (cfg.sampleData f s).trace.getLastD s n = some (.file (some (g (arguments cfg.plan[i]))))) := by
  suffices H : (∀ i ∈ (cfg.sampleData f s).calls, ∃ c r, cfg.plan[i]? = some c ∧ f (dictDel c "id") = .ok r) ∧
      ∀ i (hi : i < cfg.plan.length), ∃ n, resultFile cfg cfg.plan[i] = some n ∧
        (cfg.sampleData f s).final s n = if s.isFile n then s n else some (.file (some (g (dictDel cfg.plan[i] "id")))) by
    refine ⟨fun i hi => ?_, fun i hi => ?_⟩
    · obtain ⟨c, r, h1, h2⟩ := H.1 i hi
      exact ⟨c, r, h1, by rw [← dictDel_id]; exact h2⟩
    · obtain ⟨n, h1, h2⟩ := H.2 i hi
      refine ⟨n, h1, fun hf => ?_, fun hf => ?_⟩
      · rw [if_pos ((isFile_iff s n).2 hf)] at h2; exact h2
      · rw [if_neg (by rw [isFile_iff]; exact hf), dictDel_id] at h2; exact h2
  refine ⟨sampleList_calls_ok cfg f _ s hout, fun i hi => ?_⟩
  obtain ⟨id, hid⟩ := hok.hasId _ (List.getElem_mem hi)
  refine ⟨_, sampleFile_eq cfg _ id hid, ?_⟩
  exact (sampleList_complete cfg g fs hok f hf _ (fun i hi => List.mem_range.1 hi) s (interrupted_ok cfg g fs s hok h) hout).2 i
    (List.mem_range.2 hi) hi _ (sampleFile_eq cfg _ id hid)

/-! ### Where it fails -/

/-- one case, result 7 -/
def smCfg : SamplerCfg Nat Nat := { plan := [[("alpha", .val 3), ("id", .id "000")]], str := toString }

theorem smCfg_ok : smCfg.Ok (fun _ => none) where
  noOverwrite := rfl
  hasId := by simp [smCfg, idText, List.lookup]
  distinct := by
    intro i j hi hj _
    simp [smCfg] at hi hj
    omega
  clean := by
    right
    intro c hc id hid
    simp only [smCfg, List.mem_singleton] at hc
    subst hc
    simp [idText, List.lookup] at hid
    subst hid
    simp only [smCfg, SamplerCfg.dir, SamplerCfg.sampleName]
    decide
  noDir := by simp

/-- **C42 fails if the process is killed while a result is written**: the incomplete file is taken for a finished sample, the restarted
run does not compute it again, reports success, and the sample cannot be loaded. -/
theorem C42_fails_torn_file : ∃ s, Interrupted smCfg (fun _ => 7) (fun _ => none) s ∧
    (smCfg.sampleData (fun _ => .ok 7) s).outcome = none ∧ (smCfg.sampleData (fun _ => .ok 7) s).calls = [] ∧
    (((smCfg.sampleData (fun _ => .ok 7) s).trace.getLastD s).load "./sample_000.pkl").toOption = none := by
  refine ⟨FS.put (fun _ => none) "./sample_000.pkl" (.file none), ?_, ?_, ?_, ?_⟩
  · refine .run _ _ (fun _ => .ok 7) (by intro c r h; cases h; rfl) .start ?_
    have : (smCfg.sampleData (fun _ => .ok 7) (fun _ => none)).trace =
        [FS.put (fun _ => none) "./sample_000.pkl" (.file none), FS.put (fun _ => none) "./sample_000.pkl" (.file (some 7))] := by
      have hp : pickleName "./sample_000.pkl" = "./sample_000.pkl" := by decide +kernel
      have hfull : sampleFile "./" "sample" false "000" = "./sample_000.pkl" := by decide +kernel
      simp [SamplerCfg.sampleData, SamplerCfg.sampleList, SamplerCfg.sampleIdx, smCfg, caseId, List.lookup, hfull, hp, FS.isFile, FS.write,
        SampleRun.final]
    rw [this]; simp
  · decide +kernel
  · decide +kernel
  · decide +kernel

/-- **C42 fails for names containing `.pkl`**: the result is stored under another name, so that a second run computes everything again
and the `DataHandler` does not find it. -/
theorem C42_fails_pkl_in_name : ∃ (cfg : SamplerCfg Nat Nat), cfg.sampleName = "run.pkl.a" ∧
    (cfg.sampleData (fun _ => .ok 7) (fun _ => none)).outcome = none ∧
    ¬ HasFile ((cfg.sampleData (fun _ => .ok 7) (fun _ => none)).trace.getLastD (fun _ => none)) "./run.pkl.a_000.pkl" ∧
    HasFile ((cfg.sampleData (fun _ => .ok 7) (fun _ => none)).trace.getLastD (fun _ => none)) "./run.a_000.pkl" := by
  refine ⟨{ smCfg with sampleName := "run.pkl.a" }, rfl, ?_, ?_, ?_⟩
  · decide +kernel
  · rw [← isFile_false]; decide +kernel
  · rw [← isFile_iff]; decide +kernel

/-- Invalid indices are refused without effect. -/
theorem C42_index_refused (cfg : SamplerCfg V R) (f : Case V → Except String R) (fs : FS R) (i : Nat) (hi : cfg.plan.length ≤ i) :
    (cfg.sampleIdx f fs i).outcome ≠ none ∧ (cfg.sampleIdx f fs i).trace = [] ∧ (cfg.sampleIdx f fs i).calls = [] := by
  unfold SamplerCfg.sampleIdx
  split
  · rw [List.getElem?_eq_none hi]; simp
  · simp

/-- Non-vacuity: an interrupted run of `smCfg` that satisfies the hypotheses of `C42_resume_partial`. -/
example : smCfg.Ok (fun _ => none) ∧ Interrupted smCfg (fun _ => 7) (fun _ => none) (fun _ => none) ∧
    (smCfg.sampleData (fun _ => .ok 7) (fun _ => none)).calls = [0] := ⟨smCfg_ok, .start, by decide +kernel⟩

end DoMpc
