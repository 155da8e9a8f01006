import Verif.Model.SamplingConf
import Verif.Props.DataHandler

set_option linter.unusedSectionVars false
set_option linter.unusedSimpArgs false

/-! # C92: plan, sample, load — the sampling tools together -/
namespace DoMpc
variable {V R O : Type}

/-- a configuration call -/
inductive ConfOp where
  | param (kw : List (String × ConfVal))
  | dir (val : String)

/-- the object after a call -/
def ConfObj.step (o : ConfObj) : ConfOp → ConfObj
  | .param kw => o.setParam kw
  | .dir val => o.setDir val

namespace Spec
/-- the documented parameters of the three classes -/
def samplingParams : SKindOf → List String
  | .planner => ["overwrite", "id_precision"]
  | .sampler => ["overwrite", "sample_name", "save_format", "print_progress"]
  | .handler => ["data_dir", "sample_name", "save_format"]

/-- the documented default values -/
def samplingDefaults : SKindOf → List (String × ConfVal)
  | .planner => [("data_dir", .str "./"), ("overwrite", .bool false), ("id_precision", .int 3)]
  | .sampler => [("data_dir", .str "./"), ("sample_name", .str "sample"), ("save_format", .str "pickle"), ("overwrite", .bool false),
      ("print_progress", .bool true), ("n_processes", .int 1)]
  | .handler => [("data_dir", .str "./"), ("sample_name", .str "sample"), ("save_format", .str "pickle")]

/-- the assignments a call stands for -/
def assignments (k : SKindOf) : ConfOp → List (String × ConfVal)
  | .param kw => kw.filter fun e => e.1 ∈ samplingParams k
  | .dir val => [("data_dir", .str val)]

/-- the value assigned last -/
def lastValue (l : List (String × ConfVal)) (key : String) : Option ConfVal := l.reverse.lookup key

/-- A call with the keyword arguments `names` fits the signature: every parameter without default value is given, and there is no other name. -/
def Fits (f : PyFun V R) (names : List String) : Prop :=
  (∀ k ∈ names, k ∈ f.args ∨ k ∈ f.kwonly ∨ f.varkw = true) ∧
  (∀ i (h : i < f.args.length), i + f.defaults < f.args.length → f.args[i] ∈ names) ∧ ∀ k ∈ f.kwonly, k ∈ names
end Spec
open Spec

/-! ### Configuration -/

theorem lastValue_append_singleton (l : List (String × ConfVal)) (e : String × ConfVal) (key : String) :
    lastValue (l ++ [e]) key = if key = e.1 then some e.2 else lastValue l key := by
  unfold lastValue
  rw [List.reverse_append]
  show List.lookup key (e :: l.reverse) = _
  rw [List.lookup_cons]
  by_cases h : key = e.1
  · simp [h]
  · have : (key == e.1) = false := by simpa using h
    rw [this, if_neg h]

theorem step_kind (o : ConfObj) (op : ConfOp) : (o.step op).kind = o.kind := by
  cases op with
  | dir v => rfl
  | param kw =>
    show (o.setParam kw).kind = _
    unfold ConfObj.setParam
    induction kw generalizing o with
    | nil => rfl
    | cons e kw ih =>
      rw [List.foldl_cons, ih]
      split <;> rfl

theorem step_get (o : ConfObj) (l : List (String × ConfVal)) (h : ∀ key, o.get key = lastValue l key) (op : ConfOp) (key : String) :
    (o.step op).get key = lastValue (l ++ assignments o.kind op) key := by
  cases op with
  | dir v =>
    show (dictSet o.attrs "data_dir" (.str v)).lookup key = lastValue (l ++ [("data_dir", .str v)]) key
    rw [lookup_dictSet, lastValue_append_singleton]
    have := h key
    unfold ConfObj.get at this
    rw [this]
  | param kw =>
    show (o.setParam kw).get key = lastValue (l ++ kw.filter _) key
    have hd : o.kind.dataFields = samplingParams o.kind := by cases o.kind <;> rfl
    unfold ConfObj.setParam
    induction kw generalizing o l with
    | nil => simpa using h key
    | cons e kw ih =>
      rw [List.foldl_cons]
      by_cases he : e.1 ∈ samplingParams o.kind
      · rw [if_pos (hd ▸ he), List.filter_cons_of_pos (by simpa using he), List.append_cons]
        refine ih { o with attrs := dictSet o.attrs e.1 e.2 } (l ++ [e]) ?_ hd
        intro k
        show (dictSet o.attrs e.1 e.2).lookup k = _
        rw [lookup_dictSet, lastValue_append_singleton]
        have := h k
        unfold ConfObj.get at this
        rw [this]
      · rw [if_neg (by rw [hd]; exact he), List.filter_cons_of_neg (by simpa using he)]
        exact ih o l h hd

/-- **C92: configuration.**  After any history of calls, every attribute of a planner, a sampler or a data handler has the value given last — by
`set_param`, by the constructor, or by assignment to `data_dir` — for one of the documented parameters of that class, and the documented default value if
there is none; other keywords have no effect. -/
theorem C92_configuration (k : SKindOf) (kw : List (String × ConfVal)) (ops : List ConfOp) (key : String) :
    (ops.foldl ConfObj.step (ConfObj.new k kw)).get key =
      lastValue (samplingDefaults k ++ assignments k (.param kw) ++ ops.flatMap (assignments k)) key := by
  have h0 : ∀ key, (ConfObj.mk k k.defaults).get key = lastValue (samplingDefaults k) key := by
    intro key
    show k.defaults.lookup key = _
    have hn : k.defaults = samplingDefaults k := by cases k <;> rfl
    rw [hn]
    unfold lastValue
    cases k <;> simp only [samplingDefaults, List.reverse_cons, List.reverse_nil, List.nil_append, List.cons_append] <;>
      simp only [lookup_cons_ite, List.lookup_nil] <;> split_ifs <;> simp_all
  have h1 := step_get (ConfObj.mk k k.defaults) (samplingDefaults k) h0 (.param kw)
  have : ∀ (ops : List ConfOp) (o : ConfObj) (l : List (String × ConfVal)), o.kind = k → (∀ key, o.get key = lastValue l key) →
      (ops.foldl ConfObj.step o).get key = lastValue (l ++ ops.flatMap (assignments k)) key := by
    intro ops
    induction ops with
    | nil => intro o l _ h; simpa using h key
    | cons op ops ih =>
      intro o l hk h
      rw [List.foldl_cons, List.flatMap_cons, ← List.append_assoc]
      refine ih _ _ ((step_kind o op).trans hk) fun key => ?_
      rw [← hk]
      exact step_get o l h op key
  exact this ops _ _ (step_kind ⟨k, k.defaults⟩ (.param kw)) h1

/-! ### Sample functions -/

/-- **C92: a call succeeds exactly if it fits the signature** (and the function itself does not raise). -/
theorem call_eq (f : PyFun V R) (kw : Case V) :
    (Fits f (kw.map (·.1)) → f.call kw = f.body kw) ∧ (¬ Fits f (kw.map (·.1)) → f.call kw = .error "TypeError") := by
  have hreq : (∃ a ∈ f.args.take (f.args.length - f.defaults) ++ f.kwonly, a ∉ kw.map (·.1)) ↔
      ¬ ((∀ i (h : i < f.args.length), i + f.defaults < f.args.length → f.args[i] ∈ kw.map (·.1)) ∧ ∀ k ∈ f.kwonly, k ∈ kw.map (·.1)) := by
    constructor
    · rintro ⟨a, ha, hn⟩ ⟨h1, h2⟩
      rcases List.mem_append.1 ha with h | h
      · obtain ⟨i, hi, rfl⟩ := List.getElem_of_mem h
        rw [List.getElem_take] at hn
        rw [List.length_take] at hi
        exact hn (h1 i (by omega) (by omega))
      · exact hn (h2 a h)
    · intro h
      by_contra hc
      push Not at hc
      refine h ⟨fun i hi hd => hc _ (List.mem_append_left _ ?_), fun k hk => hc k (List.mem_append_right _ hk)⟩
      rw [List.mem_take_iff_getElem]
      exact ⟨i, by omega, rfl⟩
  have hunk : ((∃ k ∈ kw.map (·.1), k ∉ f.args ∧ k ∉ f.kwonly) ∧ f.varkw = false) ↔
      ¬ ∀ k ∈ kw.map (·.1), k ∈ f.args ∨ k ∈ f.kwonly ∨ f.varkw = true := by
    constructor
    · rintro ⟨⟨k, hk, h1, h2⟩, h3⟩ h
      rcases h k hk with h | h | h
      · exact h1 h
      · exact h2 h
      · rw [h3] at h; cases h
    · intro h
      push Not at h
      obtain ⟨k, hk, h1, h2, h3⟩ := h
      exact ⟨⟨k, hk, h1, h2⟩, by simpa using h3⟩
  unfold PyFun.call Fits
  constructor
  · rintro ⟨h1, h2⟩
    rw [if_neg (by rw [hunk]; exact not_not_intro h1), if_neg (by rw [hreq]; exact not_not_intro h2)]
  · intro h
    by_cases h1 : ∀ k ∈ kw.map (·.1), k ∈ f.args ∨ k ∈ f.kwonly ∨ f.varkw = true
    · rw [if_neg (by rw [hunk]; exact not_not_intro h1), if_pos (hreq.2 fun h2 => h ⟨h1, h2⟩)]
    · rw [if_pos (hunk.2 h1)]

/-! ### The whole pipeline -/

theorem sampleIdx_congr (cfg : SamplerCfg V R) (f f' : Case V → Except String R) (h : ∀ c ∈ cfg.plan, f (arguments c) = f' (arguments c))
    (fs : FS R) (i : Nat) : cfg.sampleIdx f fs i = cfg.sampleIdx f' fs i := by
  unfold SamplerCfg.sampleIdx
  split
  · cases hc : cfg.plan[i]? with
    | none => rfl
    | some c =>
      dsimp only
      have := h c (List.mem_of_getElem? hc)
      rw [← dictDel_id] at this
      cases caseId cfg.str c with
      | none => rfl
      | some id => dsimp only; rw [this]
  · rfl

theorem sampleData_congr (cfg : SamplerCfg V R) (f f' : Case V → Except String R) (h : ∀ c ∈ cfg.plan, f (arguments c) = f' (arguments c))
    (fs : FS R) : cfg.sampleData f fs = cfg.sampleData f' fs := by
  unfold SamplerCfg.sampleData
  generalize List.range cfg.plan.length = is
  induction is generalizing fs with
  | nil => rfl
  | cons i is ih =>
    unfold SamplerCfg.sampleList
    rw [sampleIdx_congr cfg f f' h]
    simp only [ih]

theorem infix_of_append_disjoint {pat a b : List Char} (hp : pat ≠ []) (hb : ∀ x ∈ b, x ∉ pat) (h : pat <:+: a ++ b) : pat <:+: a := by
  induction b using List.reverseRecOn with
  | nil => simpa using h
  | append_singleton b x ih =>
    rw [← List.append_assoc, List.infix_concat_iff] at h
    rcases h with h | h
    · exfalso
      obtain ⟨t, ht⟩ := h
      obtain ⟨p', y, rfl⟩ : ∃ p' y, pat = p' ++ [y] := ⟨pat.dropLast, pat.getLast hp, (List.dropLast_append_getLast hp).symm⟩
      rw [← List.append_assoc] at ht
      have := List.append_inj_right' ht rfl
      obtain rfl : y = x := by simpa using this
      exact hb y (by simp) (by simp)
    · exact ih (fun x hx => hb x (by simp [hx])) h

theorem zfill_digits (p n : Nat) : ∀ c ∈ (zfill p n).toList, c ∉ ".pkl".toList := by
  intro c hc
  unfold zfill at hc
  rw [String.toList_ofList, List.mem_append] at hc
  have hd : c.isDigit = true := by
    rcases hc with h | h
    · rw [List.mem_replicate] at h; rw [h.2]; decide
    · exact Nat.isDigit_of_mem_toDigits (by omega) (by omega) h
  intro hm
  have : ∀ c ∈ ".pkl".toList, c.isDigit = false := by decide
  rw [this c hm] at hd
  cases hd

/-- **C92 (partial): plan, sample, load.**  Take any plan made by a `SamplingPlanner`, a `Sampler` and a `DataHandler` for it, configured by any calls
that leave them with the same directory, the same sample name and the format `pickle`, and a sample function that was accepted, fits every case
of the plan and returns `g c`.  If the files of the samples do not exist yet, or hold these results already, then `sample_data` succeeds, and then `dh[:]`
returns, in the order of the plan, for each case its variables together with the value of the sample function.
Missing: functions that are accepted but do not fit (`C92_fails_id_argument`, `C92_fails_missing_argument`), `data_dir` as a parameter of the sampler
(`C92_fails_data_dir_param`), names with `.pkl` inside (`C42_fails_pkl_in_name`), `overwrite` and the format `mat` (for which `loadmat` does not return
what was saved). -/
theorem C92_pipeline_partial (planOps : List (PlanOp V)) (plan : List (Case V)) (hplan : plan = (planOps.foldl PlanOp.run {}).plan)
    (kwS kwH : List (String × ConfVal)) (opsS opsH : List ConfOp) (S0 : SamplerObj V R) (hS0 : SamplerObj.new plan kwS = .ok S0)
    (f : PyFun V R) (S : SamplerObj V R) (hf : ({ S0 with conf := opsS.foldl ConfObj.step S0.conf } : SamplerObj V R).setFunction f = (S, none))
    (H : ConfObj) (hH : H = opsH.foldl ConfObj.step (ConfObj.new .handler kwH)) (dir name : String)
    (hdirS : S.conf.get "data_dir" = some (.str dir)) (hdirH : H.get "data_dir" = some (.str dir))
    (hnameS : S.conf.get "sample_name" = some (.str name)) (hnameH : H.get "sample_name" = some (.str name))
    (hfmtS : S.conf.get "save_format" = some (.str "pickle")) (hfmtH : H.get "save_format" = some (.str "pickle"))
    (hover : S.conf.get "overwrite" = some (.bool false)) (hclean : ¬ ".pkl".toList <:+: (dir ++ name ++ "_").toList)
    (g : Case V → R) (hfit : ∀ c ∈ plan, Fits f ((arguments c).map (·.1))) (hg : ∀ c ∈ plan, f.body (arguments c) = .ok (g c))
    (str : V → String) (matView : R → R) (fs : FS R)
    (hfs : ∀ c ∈ plan, ∀ id, c.lookup "id" = some (.id id) →
      fs (dir ++ name ++ "_" ++ id ++ ".pkl") = none ∨ fs (dir ++ name ++ "_" ++ id ++ ".pkl") = some (.file (some (g c)))) :
    (S.sampleData str fs).outcome = none ∧
    ∃ (D : DHandler V R O) (ds : List (List (String × DVal V R O))), H.handler plan matView str = .ok D ∧
      (D.get ((S.sampleData str fs).trace.getLastD fs) (.slice none none)).2 = .ok ds ∧
      List.Forall₂ (fun c d => d.lookup "res" = some (.raw (some (g c))) ∧ ∀ k, k ≠ "res" → d.lookup k = (c.lookup k).map .inp) plan ds := by
  obtain ⟨hid, hdist, -⟩ := C41_ids_distinct planOps ([] : List (PlanOp V))
  have hinv : PlanInv (planOps.foldl PlanOp.run ({} : Planner V)) := by
    have : ∀ (ops : List (PlanOp V)) (P : Planner V), PlanInv P → PlanInv (ops.foldl PlanOp.run P) := by
      intro ops
      induction ops with
      | nil => exact fun P h => h
      | cons op ops ih => exact fun P h => ih _ (planOp_inv P op h).1
    exact this _ _ (by intro i h; simp at h)
  rw [← hplan] at hid hdist
  -- the sampler
  have hS : S.plan = plan ∧ S.fn = some f ∧ plan ≠ [] := by
    unfold SamplerObj.new at hS0
    cases plan with
    | nil => cases hS0
    | cons c cs =>
      cases hS0
      unfold SamplerObj.setFunction at hf
      split at hf
      · cases hf; exact ⟨rfl, rfl, by simp⟩
      · simp at hf
  obtain ⟨hSp, hSf, hne⟩ := hS
  set cfg : SamplerCfg V R := { plan := plan, dir := dir, sampleName := name, mat := false, overwrite := false, str := str } with hcfg
  have hrun : S.sampleData str fs = cfg.sampleData f.call fs := by
    unfold SamplerObj.sampleData
    rw [hSp, hSf]
    cases plan with
    | nil => exact absurd rfl hne
    | cons c cs =>
      simp only [ConfObj.mat, ConfObj.dir, ConfObj.sampleName, hdirS, hnameS, hfmtS, hover, ConfVal.format, ConfVal.truthy, Option.map_some,
        Option.getD_some]
      rfl
  -- inputs determine results: `g` as a function of the arguments
  have hcall : ∀ c ∈ plan, f.call (arguments c) = .ok (g c) := fun c hc => ((call_eq f _).1 (hfit c hc)).trans (hg c hc)
  let g' : Case V → R := fun a => match f.call a with
    | .ok r => r
    | .error _ => g a
  have hg' : ∀ c ∈ plan, g' (arguments c) = g c := by
    intro c hc
    show (match f.call (arguments c) with | .ok r => r | .error _ => g (arguments c)) = _
    rw [hcall c hc]
  have hrun' : S.sampleData str fs = cfg.sampleData (fun c => .ok (g' c)) fs := by
    rw [hrun]
    refine sampleData_congr cfg _ _ (fun c hc => ?_) fs
    rw [hg' c hc, hcall c hc]
  have hidt : ∀ c ∈ plan, ∀ id, c.lookup "id" = some (.id id) → idText str c = some id := by
    intro c _ id h
    simp [idText, h]
  have hfile : ∀ c ∈ plan, ∀ id, c.lookup "id" = some (.id id) → resultFile cfg c = some (dir ++ name ++ "_" ++ id ++ ".pkl") := by
    intro c hc id h
    unfold resultFile
    have := hidt c hc id h
    rw [show cfg.str = str from rfl, this]
    rfl
  have hok : cfg.Ok fs := by
    refine ⟨rfl, fun c hc => ?_, fun i j hi hj he => ?_, Or.inr fun c hc id hidc => ?_, fun c hc n hn => ?_⟩
    · obtain ⟨s, hs⟩ := hid c hc
      exact ⟨s, hidt c hc s hs⟩
    · by_contra hij
      obtain ⟨s, hs⟩ := hid _ (List.getElem_mem hi)
      obtain ⟨t, ht⟩ := hid _ (List.getElem_mem hj)
      have hst : s = t := by
        have h1 := hidt _ (List.getElem_mem hi) s hs
        have h2 := hidt _ (List.getElem_mem hj) t ht
        have := (h1.symm.trans he).trans h2
        simpa using this
      have hp := List.pairwise_iff_getElem.1 hdist
      rcases Nat.lt_or_gt_of_ne hij with h | h
      · exact hp i j hi hj h (by rw [hs, hst]; exact ht.symm)
      · exact hp j i hj hi h (by rw [ht, ← hst]; exact hs.symm)
    · obtain ⟨i, hi, rfl⟩ := List.getElem_of_mem hc
      have hi' : i < (planOps.foldl PlanOp.run ({} : Planner V)).plan.length := by rw [← hplan]; exact hi
      obtain ⟨p, hp⟩ := hinv i hi'
      have hp' : (cfg.plan[i]).lookup "id" = some (.id (zfill p i)) := by
        rw [← hp]
        congr 1
        simp only [hcfg]
        exact List.getElem_of_eq hplan _
      have h2 := hidt _ hc _ hp'
      rw [show cfg.str = str from rfl, h2] at hidc
      obtain rfl : zfill p i = id := by simpa using hidc
      intro hcon
      rw [String.toList_append] at hcon
      exact hclean (infix_of_append_disjoint (by decide) (zfill_digits p i) hcon)
    · obtain ⟨s, hs⟩ := hid c hc
      rw [hfile c hc s hs] at hn
      cases hn
      rcases hfs c hc s hs with h | h <;> rw [h] <;> simp
  obtain ⟨h1, h2, -⟩ := C42_resume_partial cfg g' fs fs hok .start (fun _ _ _ _ h => h)
  rw [hrun']
  refine ⟨h1, ?_⟩
  set fs' := (cfg.sampleData (fun c => .ok (g' c)) fs).trace.getLastD fs with hfs'
  have hstored : ∀ c ∈ plan, ∀ id, c.lookup "id" = some (.id id) → fs' (dir ++ name ++ "_" ++ id ++ ".pkl") = some (.file (some (g c))) := by
    intro c hc id h
    obtain ⟨i, hi, rfl⟩ := List.getElem_of_mem hc
    have := h2 i hi _ (hfile _ hc id h)
    by_cases hh : HasFile fs (dir ++ name ++ "_" ++ id ++ ".pkl")
    · rw [this.1 hh]
      rcases hfs _ hc id h with h' | h'
      · obtain ⟨x, hx⟩ := hh; rw [h'] at hx; cases hx
      · exact h'
    · rw [this.2 hh]
      show some (Entry.file (some (g' (arguments plan[i])))) = _
      rw [hg' _ hc]
  let D : DHandler V R O := { plan := plan, dir := dir, sampleName := name, mat := false, matView := matView, str := str }
  have hD : H.handler plan matView str = .ok D := by
    simp only [ConfObj.handler, ConfObj.mat, ConfObj.dir, ConfObj.sampleName, hdirH, hnameH, hfmtH, ConfVal.format, Option.map_some, Option.getD_some]
    rfl
  have hst : ∀ c ∈ plan, storedSample D fs' c = some (some (g c)) := by
    intro c hc
    obtain ⟨id, h⟩ := hid c hc
    unfold storedSample
    rw [caseId_eq, show D.str = str from rfl, hidt c hc id h]
    dsimp only
    have := hstored c hc id h
    show (match fs' (dir ++ name ++ "_" ++ id ++ ".pkl") with | none => _ | some (.file (some r)) => _ | _ => _) = _
    rw [this]
    rfl
  obtain ⟨k1, -⟩ := C43_get_partial D ⟨rfl, rfl⟩ [] fs' (by simp) (by simp) (.slice none none)
  have hsel : selected D.plan.length (.slice none none) = some (List.range plan.length) := by
    simp only [selected]
    congr 1
    rw [List.filter_eq_self]
    simp
  obtain ⟨ds, hds, hall⟩ := k1 _ hsel (fun j hj c hc => ⟨_, hst c (List.mem_of_getElem? hc)⟩)
  refine ⟨D, ds, hD, hds, ?_⟩
  rw [List.forall₂_iff_get] at hall ⊢
  obtain ⟨hl, hall⟩ := hall
  rw [List.length_range] at hl
  refine ⟨hl, fun i h1 h2 => ?_⟩
  obtain ⟨c, hc, r, hr, hlk⟩ := hall i (by simpa using h1) h2
  simp only [List.get_eq_getElem, List.getElem_range] at hc hlk ⊢
  have hc' : D.plan[i]? = some plan[i] := List.getElem?_eq_getElem h1
  rw [hc'] at hc
  obtain rfl := Option.some.inj hc
  rw [hst _ (List.getElem_mem h1)] at hr
  obtain rfl := Option.some.inj hr
  have hexp : ∀ k, expected ([] : List (FS R × DOp V R O)) plan[i] (some (g plan[i])) k =
      if k = "res" then some (.raw (some (g plan[i]))) else (plan[i].lookup k).map .inp := by
    intro k
    unfold expected
    exact if_pos (fun _ => rfl)
  exact ⟨by rw [hlk, hexp, if_pos rfl], fun k hk => by rw [hlk, hexp, if_neg hk]⟩

/-! ### Directories -/

theorem mkdirs_spec (ps : List String) (fs : FS R) :
    ((fs.mkdirs ps).2 = none ↔ ∀ p ∈ ps, ¬ HasFile fs p) ∧
    ((fs.mkdirs ps).2 = none → ∀ n, (fs.mkdirs ps).1.getLastD fs n = if n ∈ ps then some .dir else fs n) := by
  induction ps generalizing fs with
  | nil => simp [FS.mkdirs]
  | cons p ps ih =>
    unfold FS.mkdirs
    cases hp : fs p with
    | none =>
      dsimp only
      obtain ⟨h1, h2⟩ := ih (fs.put p .dir)
      have hput : ∀ q, HasFile (fs.put p .dir) q ↔ HasFile fs q := by
        intro q
        unfold HasFile FS.put
        by_cases h : q = p
        · subst h; simp [hp]
        · simp [h]
      constructor
      · rw [h1]
        simp only [hput, List.mem_cons, forall_eq_or_imp]
        constructor
        · intro h
          refine ⟨?_, h⟩
          rintro ⟨c, hc⟩
          rw [hp] at hc; cases hc
        · exact fun h => h.2
      · intro h n
        have hl : ((fs.put p .dir) :: ((fs.put p .dir).mkdirs ps).1).getLastD fs = ((fs.put p .dir).mkdirs ps).1.getLastD (fs.put p .dir) := by
          cases ((fs.put p .dir).mkdirs ps).1 <;> rfl
        rw [hl, h2 h]
        by_cases hn : n ∈ ps
        · simp [hn]
        · by_cases hnp : n = p
          · subst hnp; simp [FS.put]
          · simp [hn, hnp, FS.put]
    | some e =>
      cases e with
      | dir =>
        dsimp only
        obtain ⟨h1, h2⟩ := ih fs
        constructor
        · rw [h1]
          simp only [List.mem_cons, forall_eq_or_imp]
          constructor
          · intro h
            refine ⟨?_, h⟩
            rintro ⟨c, hc⟩
            rw [hp] at hc; cases hc
          · exact fun h => h.2
        · intro h n
          rw [h2 h]
          by_cases hnp : n = p
          · subst hnp; simp [hp]
          · simp [hnp]
      | file c =>
        dsimp only
        constructor
        · constructor
          · intro h; cases h
          · intro h
            exact absurd ⟨c, hp⟩ (h p List.mem_cons_self)
        · intro h; cases h

/-- The directories that belong to a path. -/
theorem pathParents_eq (cs : List (List Char)) (h : ∀ c ∈ cs, '/' ∉ c ∧ c ≠ [] ∧ c ≠ ['.']) :
    pathParents ("./" ++ String.ofList (List.intercalate ['/'] (cs ++ [[]]))) =
      (List.range cs.length).map fun i => String.ofList (List.intercalate ['/'] (cs.take (i + 1))) := by
  have hsplit : ("./" ++ String.ofList (List.intercalate ['/'] (cs ++ [[]]))).toList.splitOn '/' = ['.'] :: (cs ++ [[]]) := by
    have : ("./" ++ String.ofList (List.intercalate ['/'] (cs ++ [[]]))).toList = List.intercalate ['/'] (['.'] :: (cs ++ [[]])) := by
      rw [String.toList_append, String.toList_ofList]
      cases cs with
      | nil => rfl
      | cons c cs => simp [List.intercalate, List.intersperse]
    rw [this]
    refine List.splitOn_intercalate _ (fun l hl => ?_) (by simp)
    rcases List.mem_cons.1 hl with rfl | hl
    · decide
    · rcases List.mem_append.1 hl with hl | hl
      · exact (h l hl).1
      · simp only [List.mem_singleton] at hl; subst hl; simp
  have hroot : ("./" ++ String.ofList (List.intercalate ['/'] (cs ++ [[]]))).toList.head? ≠ some '/' := by
    rw [String.toList_append]
    show some '.' ≠ some '/'
    decide
  unfold pathParents
  dsimp only
  rw [hsplit, if_neg hroot]
  have hf : (['.'] :: (cs ++ [[]])).filter (fun c => decide (c ≠ [] ∧ c ≠ ['.'])) = cs := by
    rw [List.filter_cons_of_neg (by decide), List.filter_append]
    have : cs.filter (fun c => decide (c ≠ [] ∧ c ≠ ['.'])) = cs := by
      rw [List.filter_eq_self]
      intro c hc
      simpa using (h c hc).2
    rw [this]
    simp
  rw [hf]
  rfl

/-- **C92: `data_dir` creates the directories.**  `sampler.data_dir = './a/b/…/'` (the same for the planner) makes the directories `a`, `a/b`, … and
changes nothing else; it raises exactly if one of them is a file. -/
theorem C92_data_dir (o : ConfObj) (hk : o.kind ≠ .handler) (cs : List (List Char)) (h : ∀ c ∈ cs, '/' ∉ c ∧ c ≠ [] ∧ c ≠ ['.']) (fs : FS R)
    (val : String) (hval : val = "./" ++ String.ofList (List.intercalate ['/'] (cs ++ [[]]))) :
    (o.setDir val).get "data_dir" = some (.str val) ∧
    ((o.mkdir fs val).2 = none ↔ ∀ i < cs.length, ¬ HasFile fs (String.ofList (List.intercalate ['/'] (cs.take (i + 1))))) ∧
    ((o.mkdir fs val).2 = none → ∀ n, ((o.mkdir fs val).1.getLastD fs n = some .dir ∧ ∃ i < cs.length, n = String.ofList (List.intercalate ['/'] (cs.take (i + 1)))) ∨
      ((o.mkdir fs val).1.getLastD fs n = fs n ∧ ¬ ∃ i < cs.length, n = String.ofList (List.intercalate ['/'] (cs.take (i + 1))))) := by
  have hm : o.mkdir fs val = fs.mkdirs (pathParents val) := by
    unfold ConfObj.mkdir
    cases hkk : o.kind with
    | handler => exact absurd hkk hk
    | planner => rfl
    | sampler => rfl
  subst hval
  rw [hm, pathParents_eq cs h]
  obtain ⟨h1, h2⟩ := mkdirs_spec ((List.range cs.length).map fun i => String.ofList (List.intercalate ['/'] (cs.take (i + 1)))) fs
  have hmem : ∀ n, n ∈ ((List.range cs.length).map fun i => String.ofList (List.intercalate ['/'] (cs.take (i + 1)))) ↔
      ∃ i < cs.length, n = String.ofList (List.intercalate ['/'] (cs.take (i + 1))) := by
    intro n
    simp only [List.mem_map, List.mem_range]
    constructor
    · rintro ⟨i, hi, rfl⟩; exact ⟨i, hi, rfl⟩
    · rintro ⟨i, hi, rfl⟩; exact ⟨i, hi, rfl⟩
  refine ⟨?_, ?_, fun hn n => ?_⟩
  · show (dictSet o.attrs "data_dir" _).lookup "data_dir" = _
    rw [lookup_dictSet, if_pos rfl]
  · rw [h1]
    constructor
    · exact fun hh i hi => hh _ ((hmem _).2 ⟨i, hi, rfl⟩)
    · intro hh p hp
      obtain ⟨i, hi, rfl⟩ := (hmem p).1 hp
      exact hh i hi
  · rw [h2 hn n]
    by_cases hc : n ∈ ((List.range cs.length).map fun i => String.ofList (List.intercalate ['/'] (cs.take (i + 1))))
    · left; rw [if_pos hc]; exact ⟨rfl, (hmem n).1 hc⟩
    · right; rw [if_neg hc]; exact ⟨rfl, fun h' => hc ((hmem n).2 h')⟩

/-- **C92: `data_dir` of the handler.**  `handler.data_dir = …` stores the value, creates no directory and raises nothing. -/
theorem C92_data_dir_handler (o : ConfObj) (hk : o.kind = .handler) (fs : FS R) (val : String) :
    (o.setDir val).get "data_dir" = some (.str val) ∧ o.mkdir fs val = ([], none) := by
  refine ⟨?_, ?_⟩
  · show (dictSet o.attrs "data_dir" _).lookup "data_dir" = _
    rw [lookup_dictSet, if_pos rfl]
  · unfold ConfObj.mkdir
    rw [hk]
example : (ConfObj.new .handler []).kind = .handler := rfl

example : (pathParents "./samples/experiment_1/") = ["samples", "samples/experiment_1"] := by decide +kernel
example : (pathParents "/data/x") = ["/data", "/data/x"] := by decide +kernel

/-! ### Non-vacuity and failures -/

/-- a plan with two variables -/
def pipePlan : List (Case Nat) :=
  [[("alpha", .val 1), ("beta", .val 0), ("id", .id "000")], [("alpha", .val 2), ("beta", .val 10), ("id", .id "001")]]

/-- `def f(alpha, beta): return alpha + beta` -/
def pipeFun : PyFun Nat Nat where
  args := ["alpha", "beta"]
  body := fun c => match c.lookup "alpha", c.lookup "beta" with
    | some (.val a), some (.val b) => .ok (a + b)
    | _, _ => .error "TypeError"

/-- the sampler of the example -/
def pipeSampler (kw : List (String × ConfVal)) (f : PyFun Nat Nat) : SamplerObj Nat Nat :=
  ⟨ConfObj.new .sampler kw, pipePlan, ["alpha", "beta", "id"], some f⟩

/-- The premises of `C92_pipeline_partial` hold for a planner with two variables, a sampler and a handler for `./s/` and `run`. -/
example : ∃ (D : DHandler Nat Nat Nat) (ds : List (List (String × DVal Nat Nat Nat))),
    ((ConfObj.new .handler [("sample_name", .str "run"), ("data_dir", .str "./s/")]).handler pipePlan id toString) = .ok D ∧
    List.Forall₂ (fun c d => d.lookup "res" = some (.raw (some (match c.lookup "alpha", c.lookup "beta" with
      | some (.val a), some (.val b) => a + b
      | _, _ => 0))) ∧ ∀ k, k ≠ "res" → d.lookup k = (c.lookup k).map .inp) pipePlan ds := by
  obtain ⟨-, D, ds, h1, -, h3⟩ := C92_pipeline_partial (O := Nat)
    [.setVar "alpha" none, .setVar "beta" (some fun n => 10 * n), .product [("alpha", [1, 2])]] pipePlan (by decide +kernel)
    [("sample_name", .str "run")] [("sample_name", .str "run"), ("data_dir", .str "./s/")] [.dir "./s/"] []
    ⟨ConfObj.new .sampler [("sample_name", .str "run")], pipePlan, ["alpha", "beta", "id"], none⟩ rfl pipeFun
    ⟨(ConfObj.new .sampler [("sample_name", .str "run")]).setDir "./s/", pipePlan, ["alpha", "beta", "id"], some pipeFun⟩
    (by unfold SamplerObj.setFunction; rw [if_pos (by decide)]; rfl) _ rfl "./s/" "run" (by decide +kernel) (by decide +kernel) (by decide +kernel)
    (by decide +kernel) (by decide +kernel) (by decide +kernel) (by decide +kernel) (by decide +kernel)
    (fun c => match c.lookup "alpha", c.lookup "beta" with
      | some (.val a), some (.val b) => a + b
      | _, _ => 0)
    (by
      intro c hc
      simp only [pipePlan, List.mem_cons, List.not_mem_nil, or_false] at hc
      rcases hc with rfl | rfl <;>
      · refine ⟨by decide, ?_, by decide⟩
        intro i hi _
        have : ∀ a ∈ pipeFun.args, a ∈ ["alpha", "beta"] := by decide
        exact this _ (List.getElem_mem hi))
    (by
      intro c hc
      simp only [pipePlan, List.mem_cons, List.not_mem_nil, or_false] at hc
      rcases hc with rfl | rfl <;> rfl)
    toString id (fun _ => none) (fun _ _ _ _ => Or.inl rfl)
  exact ⟨D, ds, h1, h3⟩

/-- **C92 fails for `data_dir` as a parameter**: `Sampler(plan, data_dir=d)` stores in `./` (there is only a message), while `DataHandler(plan, data_dir=d)`
looks in `d`: nothing is found. -/
theorem C92_fails_data_dir_param :
    (∀ (plan : List (Case V)) (d : String) (S : SamplerObj V R), SamplerObj.new plan [("data_dir", .str d)] = .ok S →
      S.conf.get "data_dir" = some (.str "./")) ∧
    (∀ d : String, (ConfObj.new .handler [("data_dir", .str d)]).get "data_dir" = some (.str d)) ∧
    ((pipeSampler [("data_dir", .str "./s/")] pipeFun).sampleData toString (fun _ => none)).outcome = none ∧
    ∀ D : DHandler Nat Nat Nat, (ConfObj.new .handler [("data_dir", .str "./s/")]).handler pipePlan id toString = .ok D →
      (D.get (((pipeSampler [("data_dir", .str "./s/")] pipeFun).sampleData toString (fun _ => none)).trace.getLastD fun _ => none) (.int 0)).2.toOption =
        some [[("alpha", .inp (.val 1)), ("beta", .inp (.val 0)), ("id", .inp (.id "000")), ("res", .raw none)]] := by
  refine ⟨?_, ?_, by decide +kernel, ?_⟩
  · intro plan d S hS
    unfold SamplerObj.new at hS
    cases plan with
    | nil => cases hS
    | cons c cs => cases hS; rfl
  · intro d
    have := C92_configuration .handler [("data_dir", .str d)] [] "data_dir"
    rw [List.foldl_nil] at this
    rw [this]
    simp [lastValue, assignments, samplingParams, samplingDefaults, List.lookup_cons]
  · intro D hD
    have : D = { plan := pipePlan, dir := "./s/", sampleName := "sample", mat := false, matView := id, str := toString } := by
      have h : (ConfObj.new .handler [("data_dir", .str "./s/")]).handler (R := Nat) (O := Nat) pipePlan id toString =
        .ok { plan := pipePlan, dir := "./s/", sampleName := "sample", mat := false, matView := id, str := toString } := rfl
      rw [h] at hD
      exact (Except.ok.inj hD).symm
    subst this
    decide +kernel

/-- **C92: which functions are accepted.**  `set_sample_function` accepts a function exactly if each of its named parameters is an entry of the first
case; a function that is refused is not stored. -/
theorem C92_accepted_iff (c : Case V) (cs : List (Case V)) (kw : List (String × ConfVal)) (S : SamplerObj V R)
    (hS : SamplerObj.new (c :: cs) kw = .ok S) (f : PyFun V R) :
    ((S.setFunction f).2 = none ↔ ∀ a ∈ f.args, (c.lookup a).isSome) ∧
    ((S.setFunction f).2 ≠ none → (S.setFunction f).1.fn = none) ∧ ((S.setFunction f).2 = none → (S.setFunction f).1.fn = some f) := by
  cases hS
  have hm : ∀ a, a ∈ c.map (·.1) ↔ (c.lookup a).isSome = true := by
    intro a
    induction c with
    | nil => simp
    | cons e c ih =>
      rw [List.map_cons, List.mem_cons, lookup_cons_ite]
      split_ifs with h
      · simp [h]
      · simp [h, ih]
  unfold SamplerObj.setFunction
  split_ifs with h
  · refine ⟨⟨fun _ a ha => (hm a).1 (h a ha), fun _ => rfl⟩, fun h' => absurd rfl h', fun _ => rfl⟩
  · refine ⟨⟨fun h' => (by cases h'), fun h' => absurd (fun a ha => (hm a).2 (h' a ha)) h⟩, fun _ => rfl, fun h' => (by cases h')⟩

/-- **C92 fails for a parameter named `id`**, which is accepted, because `id` is an entry of the cases: every call raises, because the id is not passed. -/
theorem C92_fails_id_argument (f : PyFun V R) (hid : "id" ∈ f.args) (hd : f.defaults = 0) (c : Case V) :
    f.call (arguments c) = .error "TypeError" := by
  refine (call_eq f _).2 fun h => ?_
  obtain ⟨i, hi, he⟩ := List.getElem_of_mem hid
  have := h.2.1 i hi (by omega)
  rw [he, List.mem_map] at this
  obtain ⟨e, he, hn⟩ := this
  have := (List.mem_filter.1 he).2
  rw [hn] at this
  simp at this

/-- an accepted function with a parameter `id`: nothing is sampled -/
example : ((pipeSampler [] pipeFun).setFunction { pipeFun with args := ["alpha", "id"] }).2 = none ∧
    (((pipeSampler [] pipeFun).setFunction { pipeFun with args := ["alpha", "id"] }).1.sampleData toString (fun _ => none)).outcome =
      some "TypeError" := by
  constructor <;> decide +kernel

/-- **C92 fails for functions that do not use every variable** of the plan: they are accepted, and every call raises. -/
theorem C92_fails_missing_argument (f : PyFun V R) (hv : f.varkw = false) (c : Case V) (k : String) (hk : (c.lookup k).isSome) (hid : k ≠ "id")
    (h1 : k ∉ f.args) (h2 : k ∉ f.kwonly) : f.call (arguments c) = .error "TypeError" := by
  refine (call_eq f _).2 ?_
  have hm : k ∈ (arguments c).map (·.1) := by
    unfold arguments
    induction c with
    | nil => simp at hk
    | cons e c ih =>
      rw [lookup_cons_ite] at hk
      split_ifs at hk with hke
      · subst hke
        rw [List.filter_cons_of_pos (by simpa using hid)]
        exact List.mem_cons_self
      · have := ih hk
        rw [List.filter_cons]
        split_ifs
        · exact List.mem_cons_of_mem _ this
        · exact this
  intro h
  rcases h.1 k hm with h | h | h
  · exact h1 h
  · exact h2 h
  · rw [hv] at h; cases h

example : ((pipeSampler [] pipeFun).setFunction { pipeFun with args := ["alpha"] }).2 = none ∧
    (((pipeSampler [] pipeFun).setFunction { pipeFun with args := ["alpha"] }).1.sampleData toString (fun _ => none)).outcome = some "TypeError" := by
  constructor <;> decide +kernel

/-- **C92: what is refused.**  Without a sample function, or with a format other than `pickle` and `mat` (which `set_param` accepts), `sample_data` raises and
writes nothing; an empty plan is refused by the constructor. -/
theorem C92_refused (S : SamplerObj V R) (str : V → String) (fs : FS R) (hp : S.plan ≠ []) :
    (S.fn = none → (S.sampleData str fs).outcome = some "AssertionError" ∧ (S.sampleData str fs).trace = []) ∧
    (S.fn ≠ none → S.conf.get "save_format" ≠ some (.str "pickle") → S.conf.get "save_format" ≠ some (.str "mat") →
      (S.sampleData str fs).outcome = some "UnboundLocalError" ∧ (S.sampleData str fs).trace = []) ∧
    ∀ kw, (SamplerObj.new ([] : List (Case V)) kw : Except String (SamplerObj V R)) = .error "IndexError" := by
  obtain ⟨conf, plan, vars, fn⟩ := S
  cases plan with
  | nil => exact absurd rfl hp
  | cons c cs =>
    refine ⟨?_, ?_, fun kw => rfl⟩
    · rintro rfl
      exact ⟨rfl, rfl⟩
    · intro hf h1 h2
      cases fn with
      | none => exact absurd rfl hf
      | some f =>
        have : conf.mat = .error "UnboundLocalError" := by
          unfold ConfObj.mat
          split
          · exact absurd (by assumption) h1
          · exact absurd (by assumption) h2
          · rfl
        simp only [SamplerObj.sampleData, this]
        exact ⟨trivial, trivial⟩

end DoMpc
