import Verif.Props.SamplingPipeline

/-!
# Property C92: which files a configured sampler writes

For every configuration: both formats, any sample name (also numbers and truth values), any value of `overwrite`.
-/
set_option linter.unusedSectionVars false
namespace DoMpc
open Spec
variable {V R O : Type}

namespace Spec
/-- how a value looks like in a file name -/
inductive Text : ConfVal → String → Prop
  | str (s : String) : Text (.str s) s
  | yes : Text (.bool true) "True"
  | no : Text (.bool false) "False"
  | int (n : Nat) : Text (.int n) (toString n)

/-- what Python takes for false -/
def Falsy (v : ConfVal) : Prop := v = .bool false ∨ v = .str "" ∨ v = .int 0

/-- the endings of the two formats -/
inductive Ending : String → String → Prop
  | pickle : Ending "pickle" ".pkl"
  | mat : Ending "mat" ".mat"
end Spec
open Spec

theorem format_text {v : ConfVal} {s : String} (h : Text v s) : v.format = s := by
  cases h <;> rfl

theorem truthy_iff (v : ConfVal) : v.truthy = true ↔ ¬ Falsy v := by
  unfold ConfVal.truthy Falsy
  cases v <;> simp

/-- One call of `sample_idx`: only the file of the case changes; if it is there it changes only if it shall be overwritten; a call without exception leaves
a file, with the function's value if it was called. -/
theorem sampleIdx_files (cfg : SamplerCfg V R)
    (hname : ∀ c ∈ cfg.plan, ∀ id, idText cfg.str c = some id →
      (if cfg.mat then sampleFile cfg.dir cfg.sampleName cfg.mat id else pickleName (sampleFile cfg.dir cfg.sampleName cfg.mat id)) =
        sampleFile cfg.dir cfg.sampleName cfg.mat id)
    (f : Case V → Except String R) (s : FS R) (i : Nat) :
    (∀ t ∈ (cfg.sampleIdx f s i).trace, ∀ n, (∀ c, cfg.plan[i]? = some c → resultFile cfg c ≠ some n) → t n = s n) ∧
    (cfg.overwrite = false → ∀ n, HasFile s n → ∀ t ∈ (cfg.sampleIdx f s i).trace, t n = s n) ∧
    (∀ n, HasFile s n → ∀ t ∈ (cfg.sampleIdx f s i).trace, HasFile t n) ∧
    ((cfg.sampleIdx f s i).outcome = none → ∃ c n, cfg.plan[i]? = some c ∧ resultFile cfg c = some n ∧ HasFile ((cfg.sampleIdx f s i).final s) n ∧
      (cfg.overwrite = true ∨ ¬ HasFile s n → (cfg.sampleIdx f s i).calls = [i] ∧
        ∃ v, f (arguments c) = .ok v ∧ (cfg.sampleIdx f s i).final s n = some (.file (some v))) ∧
      (cfg.overwrite = false → HasFile s n → (cfg.sampleIdx f s i).calls = [])) := by
  have htrace : (cfg.sampleIdx f s i).trace = [] ∨ ∃ c id v, cfg.plan[i]? = some c ∧ idText cfg.str c = some id ∧ f (arguments c) = .ok v ∧
      (HasFile s (sampleFile cfg.dir cfg.sampleName cfg.mat id) → cfg.overwrite = true) ∧
      (cfg.sampleIdx f s i).trace = [s.put (sampleFile cfg.dir cfg.sampleName cfg.mat id) (.file none),
        s.put (sampleFile cfg.dir cfg.sampleName cfg.mat id) (.file (some v))] := by
    unfold SamplerCfg.sampleIdx
    split
    · cases hc : cfg.plan[i]? with
      | none => exact Or.inl rfl
      | some c =>
        dsimp only
        rw [caseId_eq]
        cases hid : idText cfg.str c with
        | none => exact Or.inl rfl
        | some id =>
          dsimp only
          split
          · rename_i hw
            rw [dictDel_id]
            cases hf : f (arguments c) with
            | error e => exact Or.inl rfl
            | ok v =>
              dsimp only
              rw [hname c (List.mem_of_getElem? hc) id hid]
              unfold FS.write
              split
              · exact Or.inl rfl
              · refine Or.inr ⟨c, id, v, rfl, hid, hf, fun h => ?_, rfl⟩
                rw [← isFile_iff] at h
                rw [h] at hw
                simpa using hw
          · exact Or.inl rfl
    · exact Or.inl rfl
  have hres : ∀ c id, idText cfg.str c = some id → resultFile cfg c = some (sampleFile cfg.dir cfg.sampleName cfg.mat id) :=
    fun c id h => sampleFile_eq cfg c id h
  refine ⟨?_, ?_, ?_, ?_⟩
  · intro t ht n hn
    rcases htrace with h | ⟨c, id, v, hc, hid, -, -, h⟩
    · rw [h] at ht; cases ht
    · have hne : n ≠ sampleFile cfg.dir cfg.sampleName cfg.mat id := fun e => hn c hc (by rw [e]; exact hres c id hid)
      rw [h] at ht
      rcases List.mem_cons.1 ht with rfl | ht
      · exact if_neg hne
      · rw [List.mem_singleton.1 ht]; exact if_neg hne
  · intro ho n hn t ht
    rcases htrace with h | ⟨c, id, v, hc, hid, -, hov, h⟩
    · rw [h] at ht; cases ht
    · have hne : n ≠ sampleFile cfg.dir cfg.sampleName cfg.mat id := fun e => by
        have := hov (by rw [← e]; exact hn)
        rw [ho] at this; cases this
      rw [h] at ht
      rcases List.mem_cons.1 ht with rfl | ht
      · exact if_neg hne
      · rw [List.mem_singleton.1 ht]; exact if_neg hne
  · intro n hn t ht
    rcases htrace with h | ⟨c, id, v, hc, hid, -, hov, h⟩
    · rw [h] at ht; cases ht
    · rw [h] at ht
      have key : ∀ e : Option R, HasFile (s.put (sampleFile cfg.dir cfg.sampleName cfg.mat id) (.file e)) n := by
        intro e
        unfold HasFile FS.put
        split_ifs
        · exact ⟨e, rfl⟩
        · exact hn
      rcases List.mem_cons.1 ht with rfl | ht
      · exact key _
      · rw [List.mem_singleton.1 ht]; exact key _
  · intro hout
    unfold SamplerCfg.sampleIdx at hout ⊢
    split at hout
    · rename_i hle
      rw [if_pos hle]
      cases hc : cfg.plan[i]? with
      | none => rw [hc] at hout; cases hout
      | some c =>
        rw [hc] at hout
        dsimp only at hout ⊢
        rw [caseId_eq] at hout ⊢
        cases hid : idText cfg.str c with
        | none => rw [hid] at hout; cases hout
        | some id =>
          rw [hid] at hout
          dsimp only at hout ⊢
          refine ⟨c, _, rfl, hres c id hid, ?_⟩
          split at hout
          · rename_i hw
            rw [if_pos hw]
            rw [dictDel_id] at hout ⊢
            cases hf : f (arguments c) with
            | error e => rw [hf] at hout; cases hout
            | ok v =>
              rw [hf] at hout
              dsimp only at hout ⊢
              rw [hname c (List.mem_of_getElem? hc) id hid] at hout ⊢
              unfold FS.write at hout ⊢
              split at hout
              · cases hout
              · rename_i hnd
                have hfin : (SampleRun.final s ⟨[s.put (sampleFile cfg.dir cfg.sampleName cfg.mat id) (.file none),
                    s.put (sampleFile cfg.dir cfg.sampleName cfg.mat id) (.file (some v))], [i], none⟩)
                    (sampleFile cfg.dir cfg.sampleName cfg.mat id) = some (.file (some v)) := if_pos rfl
                refine ⟨⟨some v, hfin⟩, fun _ => ⟨rfl, v, rfl, hfin⟩, fun ho hh => ?_⟩
                rw [← isFile_iff] at hh
                rw [hh, ho] at hw
                simp at hw
          · rename_i hw
            rw [if_neg hw]
            simp only [Bool.not_eq_true, Bool.or_eq_false_iff, Bool.not_eq_false'] at hw
            have hh := (isFile_iff _ _).1 hw.1
            refine ⟨hh, fun h => ?_, fun _ _ => rfl⟩
            rcases h with h | h
            · rw [hw.2] at h; cases h
            · exact absurd hh h
    · cases hout

/-- the loop over cases -/
theorem sampleList_files (cfg : SamplerCfg V R)
    (hname : ∀ c ∈ cfg.plan, ∀ id, idText cfg.str c = some id →
      (if cfg.mat then sampleFile cfg.dir cfg.sampleName cfg.mat id else pickleName (sampleFile cfg.dir cfg.sampleName cfg.mat id)) =
        sampleFile cfg.dir cfg.sampleName cfg.mat id)
    (f : Case V → Except String R) (is : List Nat) (s : FS R) :
    (∀ t ∈ (cfg.sampleList f s is).trace, ∀ n, (∀ i ∈ is, ∀ c, cfg.plan[i]? = some c → resultFile cfg c ≠ some n) → t n = s n) ∧
    (cfg.overwrite = false → ∀ n, HasFile s n → ∀ t ∈ (cfg.sampleList f s is).trace, t n = s n) ∧
    (∀ n, HasFile s n → ∀ t ∈ (cfg.sampleList f s is).trace, HasFile t n) ∧
    ((cfg.sampleList f s is).outcome = none →
      (∀ i ∈ is, ∃ c n, cfg.plan[i]? = some c ∧ resultFile cfg c = some n ∧ HasFile ((cfg.sampleList f s is).final s) n) ∧
      (cfg.overwrite = true → (cfg.sampleList f s is).calls = is) ∧
      (∀ l1 l2 i, is = l1 ++ i :: l2 → ∀ c n, cfg.plan[i]? = some c → resultFile cfg c = some n →
        (∀ j ∈ l2, ∀ c', cfg.plan[j]? = some c' → resultFile cfg c' ≠ some n) → cfg.overwrite = true →
        ∃ v, f (arguments c) = .ok v ∧ (cfg.sampleList f s is).final s n = some (.file (some v)))) := by
  induction is generalizing s with
  | nil => simp [SamplerCfg.sampleList]
  | cons i is ih =>
    obtain ⟨a1, a2, a3, a4⟩ := sampleIdx_files cfg hname f s i
    cases hr : (cfg.sampleIdx f s i).outcome with
    | some e =>
      have heq : cfg.sampleList f s (i :: is) = ⟨(cfg.sampleIdx f s i).trace, (cfg.sampleIdx f s i).calls, some e⟩ := by
        rw [SamplerCfg.sampleList]; simp only [hr]
      rw [heq]
      refine ⟨fun t ht n hn => a1 t ht n fun c hc => hn i (by simp) c hc, a2, a3, fun h => by cases h⟩
    | none =>
      have heq : cfg.sampleList f s (i :: is) = ⟨(cfg.sampleIdx f s i).trace ++ (cfg.sampleList f ((cfg.sampleIdx f s i).final s) is).trace,
          (cfg.sampleIdx f s i).calls ++ (cfg.sampleList f ((cfg.sampleIdx f s i).final s) is).calls,
          (cfg.sampleList f ((cfg.sampleIdx f s i).final s) is).outcome⟩ := by
        rw [SamplerCfg.sampleList]; simp only [hr]
      rw [heq]
      have hmem : (cfg.sampleIdx f s i).final s = s ∨ (cfg.sampleIdx f s i).final s ∈ (cfg.sampleIdx f s i).trace := by
        unfold SampleRun.final
        cases ht : (cfg.sampleIdx f s i).trace with
        | nil => exact Or.inl rfl
        | cons a l =>
          right
          rw [List.getLastD_cons]
          cases l with
          | nil => simp
          | cons b l => rw [List.getLastD_eq_getLast?, List.getLast?_eq_some_getLast (by simp)]; exact List.mem_cons_of_mem _ (List.getLast_mem _)
      set s1 := (cfg.sampleIdx f s i).final s with hs1
      obtain ⟨b1, b2, b3, b4⟩ := ih s1
      have k1 : ∀ n, (∀ c, cfg.plan[i]? = some c → resultFile cfg c ≠ some n) → s1 n = s n := fun n hn => by
        rcases hmem with h | h
        · rw [h]
        · exact a1 _ h n hn
      have k2 : cfg.overwrite = false → ∀ n, HasFile s n → s1 n = s n := fun ho n hn => by
        rcases hmem with h | h
        · rw [h]
        · exact a2 ho n hn _ h
      have k3 : ∀ n, HasFile s n → HasFile s1 n := fun n hn => by
        rcases hmem with h | h
        · rw [h]; exact hn
        · exact a3 n hn _ h
      have hfin : SampleRun.final s ⟨(cfg.sampleIdx f s i).trace ++ (cfg.sampleList f s1 is).trace,
          (cfg.sampleIdx f s i).calls ++ (cfg.sampleList f s1 is).calls, (cfg.sampleList f s1 is).outcome⟩ = (cfg.sampleList f s1 is).final s1 := by
        unfold SampleRun.final
        rw [final_append]
        rfl
      have hmem2 : (cfg.sampleList f s1 is).final s1 = s1 ∨ (cfg.sampleList f s1 is).final s1 ∈ (cfg.sampleList f s1 is).trace := by
        unfold SampleRun.final
        cases ht : (cfg.sampleList f s1 is).trace with
        | nil => exact Or.inl rfl
        | cons a l =>
          right
          rw [List.getLastD_cons]
          cases l with
          | nil => simp
          | cons b l => rw [List.getLastD_eq_getLast?, List.getLast?_eq_some_getLast (by simp)]; exact List.mem_cons_of_mem _ (List.getLast_mem _)
      refine ⟨?_, ?_, ?_, ?_⟩
      · intro t ht n hn
        rcases List.mem_append.1 ht with h | h
        · exact a1 t h n fun c hc => hn i (by simp) c hc
        · rw [b1 t h n fun j hj c hc => hn j (by simp [hj]) c hc]
          exact k1 n fun c hc => hn i (by simp) c hc
      · intro ho n hn t ht
        rcases List.mem_append.1 ht with h | h
        · exact a2 ho n hn t h
        · have e := k2 ho n hn
          rw [b2 ho n (by unfold HasFile; rw [e]; exact hn) t h, e]
      · intro n hn t ht
        rcases List.mem_append.1 ht with h | h
        · exact a3 n hn t h
        · exact b3 n (k3 n hn) t h
      · intro hout
        obtain ⟨c1, c2, c3⟩ := b4 hout
        obtain ⟨c, n, hc, hn, hh, hv, -⟩ := a4 hr
        rw [hfin]
        refine ⟨?_, ?_, ?_⟩
        · intro j hj
          rcases List.mem_cons.1 hj with rfl | hj
          · refine ⟨c, n, hc, hn, ?_⟩
            rcases hmem2 with h | h
            · rw [h]; exact hh
            · exact b3 n hh _ h
          · exact c1 j hj
        · intro ho
          show (cfg.sampleIdx f s i).calls ++ _ = _
          rw [(hv (Or.inl ho)).1, c2 ho]
          rfl
        · intro l1 l2 j hsplit c' n' hc' hn' hlast ho
          cases l1 with
          | nil =>
            simp only [List.nil_append, List.cons.injEq] at hsplit
            obtain ⟨rfl, rfl⟩ := hsplit
            rw [hc] at hc'
            cases hc'
            rw [hn] at hn'
            cases hn'
            obtain ⟨-, v, hf, hval⟩ := hv (Or.inl ho)
            refine ⟨v, hf, ?_⟩
            rcases hmem2 with h | h
            · rw [h]; exact hval
            · rw [b1 _ h n hlast]; exact hval
          | cons a l1 =>
            simp only [List.cons_append, List.cons.injEq] at hsplit
            exact c3 l1 l2 j hsplit.2 c' n' hc' hn' hlast ho

/-- **C94: the files of a run.**  Take any sampler, with any text, number or truth value as sample name, any of the two formats, and any value for `overwrite`, any sample function
(which may raise) and any file system.  Let `<dir><sample_name>_<id>.pkl` or `.mat` be the file of a case.  Then, at every moment of `sample_data`, no other path has changed;
files are never lost; if `overwrite` is something Python takes for false, existing files have not changed; and if `sample_data` returns, every case has its file; if in addition
`overwrite` is something Python takes for true, the function was called for every case, in order, and a case whose id is not repeated later has the value of the function in its file. -/
theorem C94_files (S : SamplerObj V R) (f : PyFun V R) (hf : S.fn = some f) (dir fmt ending name : String) (vName vOver : ConfVal)
    (hdir : S.conf.get "data_dir" = some (.str dir)) (hname : S.conf.get "sample_name" = some vName) (htext : Text vName name)
    (hfmt : S.conf.get "save_format" = some (.str fmt)) (hend : Ending fmt ending) (hover : S.conf.get "overwrite" = some vOver)
    (str : V → String) (hclean : fmt = "pickle" → ∀ c ∈ S.plan, ∀ id, idText str c = some id → ¬ ".pkl".toList <:+: (dir ++ name ++ "_" ++ id).toList)
    (fs : FS R) :
    let r := S.sampleData str fs
    let file := fun c => (idText str c).map fun id => dir ++ name ++ "_" ++ id ++ ending
    (∀ t ∈ r.trace, (∀ n, (∀ c ∈ S.plan, file c ≠ some n) → t n = fs n) ∧ (∀ n, HasFile fs n → HasFile t n) ∧
      (Falsy vOver → ∀ n, HasFile fs n → t n = fs n)) ∧
    (r.outcome = none → (∀ c ∈ S.plan, ∃ n, file c = some n ∧ HasFile (r.trace.getLastD fs) n) ∧
      (¬ Falsy vOver → r.calls = List.range S.plan.length ∧
        ∀ i (hi : i < S.plan.length), (∀ j (hj : j < S.plan.length), i < j → idText str S.plan[i] ≠ idText str S.plan[j]) →
          ∃ n v, file S.plan[i] = some n ∧ f.call (arguments S.plan[i]) = .ok v ∧ r.trace.getLastD fs n = some (.file (some v)))) := by
  intro r file
  cases hplan : S.plan with
  | nil =>
    have hr : r = ⟨[], [], none⟩ := by show S.sampleData str fs = _; unfold SamplerObj.sampleData; rw [hplan]
    rw [hr]
    simp
  | cons c0 cs =>
    set cfg : SamplerCfg V R := { plan := S.plan, dir := dir, sampleName := name, mat := decide (fmt = "mat"), overwrite := vOver.truthy, str := str } with hcfg
    have hr : r = cfg.sampleData f.call fs := by
      show S.sampleData str fs = _
      unfold SamplerObj.sampleData
      have h1 : S.conf.mat = .ok (decide (fmt = "mat")) := by
        unfold ConfObj.mat
        rw [hfmt]
        cases hend <;> rfl
      have h2 : S.conf.dir = .ok dir := by
        unfold ConfObj.dir
        rw [hdir]
      have h3 : S.conf.sampleName = name := by
        unfold ConfObj.sampleName
        rw [hname]
        exact format_text htext
      rw [h1, h2, h3, hf, hover, hcfg, hplan]
      rfl
    have hfile : ∀ c, resultFile cfg c = file c := by
      intro c
      show (idText str c).map _ = (idText str c).map _
      congr 1
      funext id
      cases hend <;> rfl
    have hnm : ∀ c ∈ cfg.plan, ∀ id, idText cfg.str c = some id →
        (if cfg.mat then sampleFile cfg.dir cfg.sampleName cfg.mat id else pickleName (sampleFile cfg.dir cfg.sampleName cfg.mat id)) =
          sampleFile cfg.dir cfg.sampleName cfg.mat id := by
      intro c hc id hid
      cases hend with
      | mat => rfl
      | pickle =>
        have := pickleName_of_clean _ (hclean rfl c hc id hid)
        have hm : cfg.mat = false := rfl
        rw [hm]
        simp only [sampleFile, Bool.false_eq_true, if_false]
        rw [← String.append_assoc, ← String.append_assoc, ← String.append_assoc]
        exact this
    obtain ⟨k1, k2, k3, k4⟩ := sampleList_files cfg hnm f.call (List.range cfg.plan.length) fs
    have hover' : ∀ b, cfg.overwrite = b ↔ vOver.truthy = b := fun b => Iff.rfl
    rw [← hplan, hr]
    refine ⟨fun t ht => ⟨fun n hn => ?_, fun n hn => k3 n hn t ht, fun hfal n hn => ?_⟩, fun hout => ?_⟩
    · refine k1 t ht n fun i hi c hc => ?_
      rw [hfile]
      exact hn c (List.mem_of_getElem? hc)
    · refine k2 ?_ n hn t ht
      rw [hover']
      by_contra h
      exact (truthy_iff vOver).1 (by simpa using h) hfal
    · obtain ⟨m1, m2, m3⟩ := k4 hout
      refine ⟨fun c hc => ?_, fun htr => ?_⟩
      · obtain ⟨i, hi, rfl⟩ := List.getElem_of_mem hc
        obtain ⟨c', n, h1, h2, h3⟩ := m1 i (List.mem_range.2 hi)
        rw [List.getElem?_eq_getElem hi] at h1
        cases h1
        exact ⟨n, by rw [← hfile]; exact h2, h3⟩
      · have ho := (hover' true).2 ((truthy_iff vOver).2 htr)
        refine ⟨m2 ho, fun i hi hlast => ?_⟩
        obtain ⟨c', n, h1, h2, -⟩ := m1 i (List.mem_range.2 hi)
        have h1' : S.plan[i]? = some c' := h1
        rw [List.getElem?_eq_getElem hi] at h1'
        cases h1'
        have hsplit : List.range cfg.plan.length = List.range i ++ i :: (List.range (cfg.plan.length - (i + 1))).map (i + 1 + ·) := by
          have hi' : i < cfg.plan.length := hi
          have e1 : cfg.plan.length = (i + 1) + (cfg.plan.length - (i + 1)) := by omega
          conv_lhs => rw [e1, List.range_add, List.range_succ]
          simp
        obtain ⟨v, h3, h4⟩ := m3 _ _ i hsplit _ n h1 h2 (by
          intro j hj c2 hc2 he
          obtain ⟨m, hm, rfl⟩ := List.mem_map.1 hj
          have hm' : m < S.plan.length - (i + 1) := List.mem_range.1 hm
          have hj' : i + 1 + m < S.plan.length := by omega
          have hc2' : S.plan[i + 1 + m]? = some c2 := hc2
          rw [List.getElem?_eq_getElem hj'] at hc2'
          cases hc2'
          refine hlast (i + 1 + m) hj' (by omega) ?_
          rw [hfile] at h2 he
          simp only [file, Option.map_eq_some_iff] at h2 he
          obtain ⟨id1, g1, g2⟩ := h2
          obtain ⟨id2, g3, g4⟩ := he
          have g5 := congrArg String.toList (g2.trans g4.symm)
          simp only [String.toList_append, List.append_assoc, List.append_cancel_left_eq, List.append_cancel_right_eq] at g5
          rw [g1, g3, String.toList_inj.1 g5]) ho
        exact ⟨n, v, by rw [← hfile]; exact h2, h3, h4⟩

/-- Non-vacuity: `Sampler(plan, sample_name=True, save_format='mat', overwrite=1)` on top of an old result: all hypotheses hold, the run succeeds and replaces it. -/
example : let S := pipeSampler [("sample_name", .bool true), ("save_format", .str "mat"), ("overwrite", .int 1)] pipeFun
    let fs : FS Nat := fun n => if n = "./True_000.mat" then some (.file (some 77)) else none
    S.fn.isSome ∧ S.conf.get "data_dir" = some (.str "./") ∧ S.conf.get "sample_name" = some (.bool true) ∧ Text (.bool true) "True" ∧
    S.conf.get "save_format" = some (.str "mat") ∧ Ending "mat" ".mat" ∧ S.conf.get "overwrite" = some (.int 1) ∧ ¬ Falsy (.int 1) ∧
    (S.sampleData toString fs).outcome = none ∧ HasFile fs "./True_000.mat" ∧ (S.sampleData toString fs).calls.length = 2 := by
  refine ⟨rfl, rfl, rfl, .yes, rfl, .mat, rfl, by simp [Falsy], by decide +kernel, ⟨some 77, rfl⟩, by decide +kernel⟩

end DoMpc
