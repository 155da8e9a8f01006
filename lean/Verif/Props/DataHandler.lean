import Verif.Props.Sampler

set_option linter.unusedSectionVars false
set_option linter.unusedSimpArgs false

/-! # C43: the `DataHandler` returns the stored samples -/
namespace DoMpc
variable {V R O : Type}

namespace Spec
/-- The content of the file of case `c`: `some none` if there is no file, `none` if it cannot be read. -/
def storedSample (H : DHandler V R O) (fs : FS R) (c : Case V) : Option (Option R) :=
  match caseId H.str c with
  | none => none
  | some id =>
    match fs (H.dir ++ H.sampleName ++ "_" ++ id ++ (if H.mat then ".mat" else ".pkl")) with
    | none => some none
    | some (.file (some r)) => some (some (if H.mat then H.matView r else r))
    | _ => none

/-- The post-processing function set last under name `k`. -/
def postOf (h : List (FS R × DOp V R O)) (k : String) : Option (PostFn V R O) :=
  (h.reverse.findSome? fun e => match e.2 with
    | .setPost k' f => if k' = k then some f else none
    | _ => none)

open Classical in
/-- Entry `k` of the dictionary expected for case `c` with stored result `r`. -/
noncomputable def expected (h : List (FS R × DOp V R O)) (c : Case V) (r : Option R) (k : String) : Option (DVal V R O) :=
  if ∀ k', postOf h k' = none then
    if k = "res" then some (.raw r) else (c.lookup k).map .inp
  else
    match postOf h k, r with
    | some _, none => some .none
    | some (.one f), some x => some (.post (f x))
    | some (.two f), some x => some (.post (f c x))
    | some .other, some _ => (c.lookup k).map .inp
    | none, _ => (c.lookup k).map .inp

/-- Position meant by an index bound: negative ones count from the end. -/
def fromEnd (n : Nat) (i : Int) : Int := if i < 0 then n + i else i

/-- Positions of the plan meant by an index. -/
def selected (n : Nat) : DInd → Option (List Nat)
  | .int i => if 0 ≤ fromEnd n i ∧ fromEnd n i < n then some [(fromEnd n i).toNat] else none
  | .slice lo hi => some ((List.range n).filter fun j =>
      (∀ l, lo = some l → fromEnd n l ≤ j) ∧ (∀ u, hi = some u → (j : Int) < fromEnd n u))
  | .seq => none

/-- `d` is the right answer for case `c`. -/
def Describes (H : DHandler V R O) (h : List (FS R × DOp V R O)) (fs : FS R) (c : Case V) (d : List (String × DVal V R O)) : Prop :=
  ∃ r, storedSample H fs c = some r ∧ ∀ k, d.lookup k = expected h c r k

/-- The filter accepts the dictionary `d`: called with the entries named like its parameters. -/
def Accepts {X : Type} (f : Option (FilterFn X)) (d : List (String × X)) : Bool :=
  match f with
  | none => true
  | some f => f.body (f.args.filterMap fun a => (d.lookup a).map fun x => (a, x))
end Spec
open Spec

/-! ### Invariant -/

/-- The cache holds what is stored, and settings are as in the beginning. -/
structure DInv (H0 H : DHandler V R O) (h : List (FS R × DOp V R O)) (fs : FS R) : Prop where
  plan : H.plan = H0.plan
  dir : H.dir = H0.dir
  name : H.sampleName = H0.sampleName
  mat : H.mat = H0.mat
  view : H.matView = H0.matView
  str : H.str = H0.str
  cache : ∀ c ∈ H0.plan, ∀ id, caseId H0.str c = some id → ∀ r, H.cache.lookup id = some r → storedSample H0 fs c = some r
  post : ∀ k, H.post.lookup k = postOf h k
  nodup : (H.post.map (·.1)).Nodup

theorem storedSample_congr {H H0 : DHandler V R O} {h : List (FS R × DOp V R O)} {fs : FS R} (hi : DInv H0 H h fs) (c : Case V) :
    storedSample H fs c = storedSample H0 fs c := by
  simp only [storedSample, hi.dir, hi.name, hi.mat, hi.view, hi.str]

theorem load_stored (H : DHandler V R O) (fs : FS R) (c : Case V) (id : String) (hid : caseId H.str c = some id) :
    (∀ r, storedSample H fs c = some r → H.load fs id = .ok r) ∧
    (∀ r, H.load fs id = .ok r → storedSample H fs c = some r) := by
  have hn : sampleFile H.dir H.sampleName H.mat id = H.dir ++ H.sampleName ++ "_" ++ id ++ (if H.mat then ".mat" else ".pkl") := by
    simp [sampleFile, String.append_assoc]
  simp only [storedSample, hid, DHandler.load, hn, FS.load]
  cases hfs : fs (H.dir ++ H.sampleName ++ "_" ++ id ++ (if H.mat then ".mat" else ".pkl")) with
  | none => simp
  | some e =>
    cases e with
    | dir => simp
    | file v => cases v <;> simp

theorem lookup_append_new {α β : Type} [DecidableEq α] (l : List (α × β)) (k : α) (v : β) (k' : α) :
    (l ++ [(k, v)]).lookup k' = match l.lookup k' with | some x => some x | none => if k' = k then some v else none := by
  induction l with
  | nil => rw [List.nil_append, lookup_cons_ite]; rfl
  | cons e es ih =>
    obtain ⟨a, b⟩ := e
    rw [List.cons_append, lookup_cons_ite, lookup_cons_ite, ih]
    split <;> rfl

/-- what `lazyLoad` does -/
theorem lazyLoad_spec {H0 H : DHandler V R O} {h : List (FS R × DOp V R O)} {fs : FS R} (hi : DInv H0 H h fs) (c : Case V)
    (hc : c ∈ H0.plan) :
    DInv H0 (H.lazyLoad fs c).1 h fs ∧ (H.lazyLoad fs c).1.post = H.post ∧
    (∀ r, storedSample H0 fs c = some r → (H.lazyLoad fs c).2 = .ok r) ∧
    (∀ r, (H.lazyLoad fs c).2 = .ok r → storedSample H0 fs c = some r) := by
  unfold DHandler.lazyLoad
  cases hid : caseId H.str c with
  | none =>
    refine ⟨hi, rfl, ?_, by simp⟩
    intro r hr
    rw [hi.str] at hid
    simp [storedSample, hid] at hr
  | some id =>
    have hid0 : caseId H0.str c = some id := by rw [← hi.str]; exact hid
    dsimp only
    cases hcache : H.cache.lookup id with
    | some r =>
      have := hi.cache c hc id hid0 r hcache
      refine ⟨hi, rfl, ?_, ?_⟩
      · intro r' hr'
        rw [this] at hr'; cases hr'; rfl
      · intro r' hr'
        cases hr'; exact this
    | none =>
      dsimp only
      obtain ⟨h1, h2⟩ := load_stored H fs c id hid
      rw [storedSample_congr hi c] at h1 h2
      cases hl : H.load fs id with
      | error e =>
        refine ⟨hi, rfl, ?_, by simp⟩
        intro r hr
        rw [h1 r hr] at hl; cases hl
      | ok r =>
        have hst := h2 r hl
        refine ⟨?_, rfl, ?_, ?_⟩
        · refine ⟨hi.plan, hi.dir, hi.name, hi.mat, hi.view, hi.str, ?_, hi.post, hi.nodup⟩
          intro c' hc' id' hid' r' hr'
          rw [lookup_append_new] at hr'
          cases hl' : H.cache.lookup id' with
          | some x =>
            rw [hl'] at hr'
            cases hr'
            exact hi.cache c' hc' id' hid' _ hl'
          | none =>
            rw [hl'] at hr'
            dsimp only at hr'
            split at hr'
            · rename_i heq
              subst heq
              cases hr'
              rw [← hst]
              simp only [storedSample, hid', hid0]
            · cases hr'
        · intro r' hr'
          rw [hst] at hr'; cases hr'; rfl
        · intro r' hr'
          cases hr'; exact hst

theorem collect_inv {H0 H : DHandler V R O} {h : List (FS R × DOp V R O)} {fs : FS R} (hi : DInv H0 H h fs) (cs : List (Case V))
    (hcs : ∀ c ∈ cs, c ∈ H0.plan) : DInv H0 (H.collect fs cs).1 h fs := by
  induction cs generalizing H with
  | nil => exact hi
  | cons c cs ih =>
    obtain ⟨h1, -, -, -⟩ := lazyLoad_spec hi c (hcs c (by simp))
    unfold DHandler.collect
    split
    · rename_i H' e he; rw [he] at h1; exact h1
    · rename_i H' r he
      rw [he] at h1
      have h2 := ih h1 (fun c hc => hcs c (by simp [hc]))
      split
      · rename_i H'' e he'; rw [he'] at h2; exact h2
      · rename_i H'' e he'; rw [he'] at h2; exact h2

theorem filterLoop_inv {H0 H : DHandler V R O} {h : List (FS R × DOp V R O)} {fs : FS R} (hi : DInv H0 H h fs)
    (inF : Option (FilterFn (PVal V))) (outF : Option (FilterFn (DVal V R O))) (cs : List (Case V))
    (hcs : ∀ c ∈ cs, c ∈ H0.plan) : DInv H0 (H.filterLoop fs inF outF cs).1 h fs := by
  induction cs generalizing H with
  | nil => exact hi
  | cons c cs ih =>
    obtain ⟨h1, -, -, -⟩ := lazyLoad_spec hi c (hcs c (by simp))
    have hcs' : ∀ c ∈ cs, c ∈ H0.plan := fun c hc => hcs c (by simp [hc])
    unfold DHandler.filterLoop
    split
    · exact hi
    · exact ih hi hcs'
    · split
      · rename_i H' e he; rw [he] at h1; exact h1
      · rename_i H' r he
        rw [he] at h1
        have h2 := ih h1 hcs'
        dsimp only
        split
        · exact h1
        · split
          · rename_i H'' e he'; rw [he'] at h2; exact h2
          · rename_i H'' e he'; rw [he'] at h2; exact h2

theorem get_inv {H0 H : DHandler V R O} {h : List (FS R × DOp V R O)} {fs : FS R} (hi : DInv H0 H h fs) (ind : DInd) :
    DInv H0 (H.get fs ind).1 h fs := by
  cases ind with
  | seq => exact hi
  | slice lo hi' =>
    apply collect_inv hi
    intro c hc
    rw [← hi.plan]
    exact List.mem_of_mem_take (List.mem_of_mem_drop hc)
  | int i =>
    unfold DHandler.get
    dsimp only
    generalize (if 0 ≤ i then i else (H.plan.length : Int) + i) = j
    by_cases hj : j < 0
    · rw [if_pos hj]; exact hi
    · rw [if_neg hj]
      cases hc : H.plan[j.toNat]? with
      | none => exact hi
      | some c =>
        apply collect_inv hi
        intro c' hc'
        rw [List.mem_singleton] at hc'
        subst hc'
        rw [← hi.plan]
        exact List.mem_of_getElem? hc

theorem dictSet_nodup {α β : Type} [DecidableEq α] (d : List (α × β)) (k : α) (v : β) (h : (d.map (·.1)).Nodup) :
    ((dictSet d k v).map (·.1)).Nodup := by
  unfold dictSet
  split
  · have : (d.map fun e => if e.1 = k then (k, v) else e).map (·.1) = d.map (·.1) := by
      rw [List.map_map]
      apply List.map_congr_left
      intro e _
      simp only [Function.comp]
      split
      · rename_i h; exact h.symm
      · rfl
    rw [this]; exact h
  · rename_i hk
    rw [List.map_append, List.nodup_append]
    refine ⟨h, by simp, ?_⟩
    intro a ha b hb hab
    simp only [List.map_cons, List.map_nil, List.mem_singleton] at hb
    subst hab hb
    apply hk
    obtain ⟨e, he, hek⟩ := List.mem_map.1 ha
    exact List.any_eq_true.2 ⟨e, he, by simpa using hek⟩

theorem postOf_append (h : List (FS R × DOp V R O)) (e : FS R × DOp V R O) (k : String) :
    postOf (h ++ [e]) k = match e.2 with
      | .setPost k' f => if k' = k then some f else postOf h k
      | _ => postOf h k := by
  unfold postOf
  rw [List.reverse_append]
  obtain ⟨fs, op⟩ := e
  cases op with
  | setPost k' f =>
    simp only [List.reverse_cons, List.reverse_nil, List.nil_append, List.singleton_append, List.findSome?_cons]
    by_cases hk : k' = k <;> simp [hk]
  | _ => rfl

theorem step_inv {H0 H : DHandler V R O} {h : List (FS R × DOp V R O)} {fs : FS R} (hi : DInv H0 H h fs) (op : DOp V R O)
    (hop : ∀ d, op ≠ .setDir d) : DInv H0 (H.step fs op) (h ++ [(fs, op)]) fs := by
  have lift : ∀ H' : DHandler V R O, DInv H0 H' h fs → (∀ k f, op ≠ .setPost k f) → DInv H0 H' (h ++ [(fs, op)]) fs := by
    intro H' hi' hne
    refine ⟨hi'.plan, hi'.dir, hi'.name, hi'.mat, hi'.view, hi'.str, hi'.cache, ?_, hi'.nodup⟩
    intro k
    rw [postOf_append, hi'.post]
    cases op with
    | setPost k' f => exact absurd rfl (hne k' f)
    | _ => rfl
  cases op with
  | get ind => exact lift _ (get_inv hi ind) (by simp)
  | filter inF outF =>
    exact lift _ (filterLoop_inv hi inF outF H.plan (fun c hc => hi.plan ▸ hc)) (by simp)
  | setDir d => exact absurd rfl (hop d)
  | setPost name f =>
    refine ⟨hi.plan, hi.dir, hi.name, hi.mat, hi.view, hi.str, hi.cache, ?_, dictSet_nodup _ _ _ hi.nodup⟩
    intro k
    simp only [DHandler.step, DHandler.setPost]
    rw [postOf_append, lookup_dictSet, hi.post]
    by_cases hk : name = k
    · simp [hk]
    · simp [hk, Ne.symm hk]

theorem DInv.change {H0 H : DHandler V R O} {h : List (FS R × DOp V R O)} {fs fs' : FS R} (hi : DInv H0 H h fs)
    (hf : ∀ c ∈ H0.plan, storedSample H0 fs c = storedSample H0 fs' c) : DInv H0 H h fs' :=
  ⟨hi.plan, hi.dir, hi.name, hi.mat, hi.view, hi.str, fun c hc id hid r hr => hf c hc ▸ hi.cache c hc id hid r hr, hi.post, hi.nodup⟩

theorem run_append (H : DHandler V R O) (h : List (FS R × DOp V R O)) (e : FS R × DOp V R O) :
    H.run (h ++ [e]) = (H.run h).step e.1 e.2 := by
  induction h generalizing H with
  | nil => rfl
  | cons a as ih => exact ih _

/-- a `DataHandler` just created -/
def Fresh (H : DHandler V R O) : Prop := H.cache = [] ∧ H.post = []

theorem run_inv (H0 : DHandler V R O) (hnew : Fresh H0) (h : List (FS R × DOp V R O)) (fs : FS R)
    (hfiles : ∀ e ∈ h, ∀ c ∈ H0.plan, storedSample H0 e.1 c = storedSample H0 fs c)
    (hdir : ∀ e ∈ h, ∀ d, e.2 ≠ .setDir d) : DInv H0 (H0.run h) h fs := by
  induction h using List.reverseRecOn with
  | nil =>
    refine ⟨rfl, rfl, rfl, rfl, rfl, rfl, ?_, ?_, ?_⟩
    · intro c _ id _ r hr
      simp [DHandler.run, hnew.1] at hr
    · simp [DHandler.run, hnew.2, postOf]
    · simp [DHandler.run, hnew.2]
  | append_singleton h e ih =>
    have h1 := ih (fun e' he' => hfiles e' (by simp [he'])) (fun e' he' => hdir e' (by simp [he']))
    rw [run_append]
    have h2 := h1.change (fs' := e.1) (fun c hc => (hfiles e (by simp) c hc).symm)
    exact (step_inv h2 e.2 (hdir e (by simp))).change (hfiles e (by simp))

/-! ### Answers -/

theorem foldl_post_lookup (c : Case V) (r : Option R) (post : List (String × PostFn V R O)) (hn : (post.map (·.1)).Nodup)
    (d : List (String × DVal V R O)) (k : String) :
    (post.foldl (postStep c r) d).lookup k =
    match post.lookup k, r with
    | some _, none => some .none
    | some (.one f), some x => some (.post (f x))
    | some (.two f), some x => some (.post (f c x))
    | some .other, some _ => d.lookup k
    | none, _ => d.lookup k := by
  induction post generalizing d with
  | nil => rfl
  | cons e es ih =>
    obtain ⟨k', f⟩ := e
    rw [List.map_cons, List.nodup_cons] at hn
    rw [List.foldl_cons, ih hn.2, lookup_cons_ite]
    by_cases hk : k = k'
    · subst hk
      have : es.lookup k = none := by
        rw [List.lookup_eq_none_iff]
        intro p hp
        rw [bne_iff_ne]
        intro h
        exact hn.1 (List.mem_map.2 ⟨p, hp, h.symm⟩)
      rw [this, if_pos rfl]
      cases r with
      | none => simp [postStep, lookup_dictSet]
      | some x => cases f <;> simp [postStep, lookup_dictSet]
    · rw [if_neg hk]
      have hd : ∀ x, (dictSet d k' x).lookup k = d.lookup k := by intro x; rw [lookup_dictSet, if_neg hk]
      cases r with
      | none => simp only [postStep, hd]
      | some x => cases f <;> simp [postStep, hd]

theorem lookup_map_inp (c : Case V) (k : String) :
    (c.map fun e => (e.1, (DVal.inp e.2 : DVal V R O))).lookup k = (c.lookup k).map .inp := by
  induction c with
  | nil => rfl
  | cons e es ih =>
    obtain ⟨a, b⟩ := e
    rw [List.map_cons, lookup_cons_ite, lookup_cons_ite, ih]
    split <;> rfl

theorem postProcess_spec {H0 H : DHandler V R O} {h : List (FS R × DOp V R O)} {fs : FS R} (hi : DInv H0 H h fs) (c : Case V)
    (r : Option R) (k : String) : (H.postProcess c r).lookup k = expected h c r k := by
  unfold DHandler.postProcess expected
  dsimp only
  have hemp : H.post.isEmpty = true ↔ ∀ k', postOf h k' = none := by
    constructor
    · intro he k'
      rw [← hi.post, List.isEmpty_iff.1 he]; rfl
    · intro hall
      cases hp : H.post with
      | nil => rfl
      | cons e es =>
        exfalso
        have := hall e.1
        rw [← hi.post, hp] at this
        obtain ⟨a, b⟩ := e
        rw [lookup_cons_ite, if_pos rfl] at this
        cases this
  by_cases he : H.post.isEmpty = true
  · rw [if_pos he, if_pos (hemp.1 he), lookup_dictSet, lookup_map_inp]
  · rw [if_neg he, if_neg (fun h' => he (hemp.2 h')), foldl_post_lookup c r H.post hi.nodup, hi.post, lookup_map_inp]

theorem collect_spec {H0 H : DHandler V R O} {h : List (FS R × DOp V R O)} {fs : FS R} (hi : DInv H0 H h fs) (cs : List (Case V))
    (hcs : ∀ c ∈ cs, c ∈ H0.plan) :
    ((∀ c ∈ cs, ∃ r, storedSample H0 fs c = some r) → ∃ ds, (H.collect fs cs).2 = .ok ds ∧ List.Forall₂ (Describes H0 h fs) cs ds) ∧
    (∀ ds, (H.collect fs cs).2 = .ok ds → ∀ c ∈ cs, ∃ r, storedSample H0 fs c = some r) := by
  induction cs generalizing H with
  | nil => exact ⟨fun _ => ⟨[], rfl, .nil⟩, by simp⟩
  | cons c cs ih =>
    obtain ⟨h1, h1p, h2, h3⟩ := lazyLoad_spec hi c (hcs c (by simp))
    have hcs' : ∀ c ∈ cs, c ∈ H0.plan := fun c hc => hcs c (by simp [hc])
    obtain ⟨k1, k2⟩ := ih h1 hcs'
    constructor
    · intro hr
      obtain ⟨r, hr0⟩ := hr c (by simp)
      obtain ⟨ds, hds, hall⟩ := k1 (fun c hc => hr c (by simp [hc]))
      have h4 := h2 r hr0
      refine ⟨(H.lazyLoad fs c).1.postProcess c r :: ds, ?_, .cons ⟨r, hr0, fun k => postProcess_spec h1 c r k⟩ hall⟩
      unfold DHandler.collect
      split
      · rename_i H' e he; rw [he] at h4; cases h4
      · rename_i H' r' he
        rw [he] at h4 hds ⊢
        cases h4
        split
        · rename_i H'' e he'; rw [he'] at hds; cases hds
        · rename_i H'' ds' he'; rw [he'] at hds; cases hds; rfl
    · intro ds hds
      unfold DHandler.collect at hds
      split at hds
      · cases hds
      · rename_i H' r' he
        rw [he] at h3 k2
        split at hds
        · cases hds
        · rename_i H'' ds' he'
          rw [he'] at k2
          intro c' hc'
          rcases List.mem_cons.1 hc' with rfl | hc'
          · exact ⟨r', h3 r' rfl⟩
          · exact k2 ds' rfl c' hc'

theorem slice_positions (n : Nat) (lo hi : Option Int) :
    ((List.range n).take (pySliceBound n n hi)).drop (pySliceBound n 0 lo) =
      (List.range n).filter fun (j : Nat) => (∀ l, lo = some l → fromEnd n l ≤ j) ∧ (∀ u, hi = some u → (j : Int) < fromEnd n u) := by
  have key : ∀ a b m : Nat, ((List.range m).take b).drop a = (List.range m).filter fun j => a ≤ j ∧ j < b := by
    intro a b m
    induction m with
    | zero => simp
    | succ m ih =>
      rw [List.range_succ, List.filter_append, ← ih, List.take_append, List.drop_append]
      congr 1
      simp only [List.length_range, List.length_take]
      by_cases hb : m < b
      · have : b - m = (b - m - 1) + 1 := by omega
        rw [this, List.take_succ_cons, List.take_nil]
        by_cases ha : a ≤ m
        · have h0 : a - min b m = 0 := by omega
          rw [h0]
          simp [ha, hb]
        · have h0 : a - min b m = (a - min b m - 1) + 1 := by omega
          rw [h0]
          simp [ha, hb]
      · have : b - m = 0 := by omega
        rw [this]
        simp [hb]
  rw [key]
  apply List.filter_congr
  intro j hj
  rw [List.mem_range] at hj
  apply decide_eq_decide.2
  apply and_congr
  · cases lo with
    | none => simp [pySliceBound]
    | some l =>
      simp only [pySliceBound, fromEnd, Option.some.injEq, forall_eq']
      split <;> split <;> omega
  · cases hi with
    | none => simp [pySliceBound, hj]
    | some l =>
      simp only [pySliceBound, fromEnd, Option.some.injEq, forall_eq']
      split <;> split <;> omega

theorem map_plan_positions (l : List (Case V)) (a b : Nat) :
    List.Forall₂ (fun j c => l[j]? = some c) (((List.range l.length).take b).drop a) ((l.take b).drop a) := by
  rw [List.forall₂_iff_get]
  refine ⟨by simp, ?_⟩
  intro i h1 h2
  simp only [List.get_eq_getElem, List.getElem_drop, List.getElem_take, List.getElem_range]
  rw [List.length_drop, List.length_take] at h2
  rw [List.getElem?_eq_getElem (by omega)]

theorem get_of_inv {H0 H : DHandler V R O} {h : List (FS R × DOp V R O)} {fs : FS R} (hi : DInv H0 H h fs) (ind : DInd) :
    (∀ js, selected H0.plan.length ind = some js →
      (∀ j ∈ js, ∀ c, H0.plan[j]? = some c → ∃ r, storedSample H0 fs c = some r) →
      ∃ ds, (H.get fs ind).2 = .ok ds ∧
        List.Forall₂ (fun j d => ∃ c, H0.plan[j]? = some c ∧ Describes H0 h fs c d) js ds) ∧
    (∀ ds, (H.get fs ind).2 = .ok ds →
      ∃ js, selected H0.plan.length ind = some js ∧ ∀ j ∈ js, ∃ c, H0.plan[j]? = some c ∧ ∃ r, storedSample H0 fs c = some r) := by
  cases ind with
  | seq => simp [selected, DHandler.get]
  | slice lo hi' =>
    have hpos := map_plan_positions H0.plan (pySliceBound H0.plan.length 0 lo) (pySliceBound H0.plan.length H0.plan.length hi')
    rw [slice_positions] at hpos
    have hmem : ∀ c ∈ (H0.plan.take (pySliceBound H0.plan.length H0.plan.length hi')).drop (pySliceBound H0.plan.length 0 lo), c ∈ H0.plan :=
      fun c hc => List.mem_of_mem_take (List.mem_of_mem_drop hc)
    obtain ⟨k1, k2⟩ := collect_spec hi _ hmem
    have hget : H.get fs (.slice lo hi') =
        H.collect fs ((H0.plan.take (pySliceBound H0.plan.length H0.plan.length hi')).drop (pySliceBound H0.plan.length 0 lo)) := by
      simp only [DHandler.get, hi.plan]
    rw [hget]
    constructor
    · intro js hjs hr
      simp only [selected, Option.some.injEq] at hjs
      subst hjs
      obtain ⟨ds, hds, hall⟩ := k1 (by
        intro c hc
        obtain ⟨i, hi1, rfl⟩ := List.getElem_of_mem hc
        have hl := List.forall₂_iff_get.1 hpos
        have := hl.2 i (by rw [hl.1]; exact hi1) hi1
        exact hr _ (List.get_mem _ _) _ this)
      refine ⟨ds, hds, ?_⟩
      have hl := List.forall₂_iff_get.1 hpos
      have hl' := List.forall₂_iff_get.1 hall
      rw [List.forall₂_iff_get]
      refine ⟨hl.1.trans hl'.1, ?_⟩
      intro i h1 h2
      have h3 := hl.1 ▸ h1
      exact ⟨_, hl.2 i h1 h3, hl'.2 i h3 h2⟩
    · intro ds hds
      refine ⟨_, rfl, ?_⟩
      intro j hj
      obtain ⟨i, hi1, rfl⟩ := List.getElem_of_mem hj
      have hl := List.forall₂_iff_get.1 hpos
      have h3 := hl.1 ▸ hi1
      exact ⟨_, hl.2 i hi1 h3, k2 ds hds _ (List.getElem_mem h3)⟩
  | int i =>
    have hplan := hi.plan
    by_cases hr : 0 ≤ fromEnd H0.plan.length i ∧ fromEnd H0.plan.length i < H0.plan.length
    · have hj : (fromEnd H0.plan.length i).toNat < H0.plan.length := by omega
      have hget : H.get fs (.int i) = H.collect fs [H0.plan[(fromEnd H0.plan.length i).toNat]] := by
        have heq : (if 0 ≤ i then i else (H0.plan.length : Int) + i) = fromEnd H0.plan.length i := by
          unfold fromEnd; split <;> split <;> omega
        simp only [DHandler.get, hplan, heq, if_neg (not_lt.2 hr.1), List.getElem?_eq_getElem hj]
      obtain ⟨k1, k2⟩ := collect_spec hi [H0.plan[(fromEnd H0.plan.length i).toNat]] (by
        intro c hc; rw [List.mem_singleton] at hc; subst hc; exact List.getElem_mem hj)
      rw [hget]
      simp only [selected, if_pos hr]
      constructor
      · intro js hjs hr'
        cases hjs
        obtain ⟨ds, hds, hall⟩ := k1 (by
          intro c hc
          rw [List.mem_singleton] at hc
          subst hc
          exact hr' _ (by simp) _ (List.getElem?_eq_getElem hj))
        refine ⟨ds, hds, ?_⟩
        cases hall with
        | cons hd hnil =>
          cases hnil
          exact .cons ⟨_, List.getElem?_eq_getElem hj, hd⟩ .nil
      · intro ds hds
        refine ⟨_, rfl, ?_⟩
        intro j hj'
        rw [List.mem_singleton] at hj'
        subst hj'
        exact ⟨_, List.getElem?_eq_getElem hj, k2 ds hds _ (by simp)⟩
    · have hget : ∃ e, (H.get fs (.int i)).2 = .error e := by
        unfold DHandler.get
        have heq : (if 0 ≤ i then i else (H.plan.length : Int) + i) = fromEnd H0.plan.length i := by
          rw [hplan]; unfold fromEnd; split <;> split <;> omega
        simp only [heq]
        by_cases hneg : fromEnd H0.plan.length i < 0
        · exact ⟨_, by rw [if_pos hneg]⟩
        · rw [if_neg hneg, hplan, List.getElem?_eq_none (by omega)]
          exact ⟨_, rfl⟩
      obtain ⟨e, he⟩ := hget
      simp only [selected, if_neg hr]
      constructor
      · intro js hjs; cases hjs
      · intro ds hds; rw [he] at hds; cases hds

/-- The directory assigned last. -/
def Spec.dirAfter (dir : String) : List (FS R × DOp V R O) → String
  | [] => dir
  | (_, .setDir d) :: es => dirAfter d es
  | _ :: es => dirAfter dir es

theorem dirAfter_snoc (dir : String) (h : List (FS R × DOp V R O)) (e : FS R × DOp V R O) :
    dirAfter dir (h ++ [e]) = match e.2 with
      | .setDir d => d
      | _ => dirAfter dir h := by
  induction h generalizing dir with
  | nil => obtain ⟨fs, op⟩ := e; cases op <;> rfl
  | cons a as ih =>
    obtain ⟨fs, op⟩ := a
    cases op <;> simp only [List.cons_append, dirAfter, ih]

/-- Before the first query: nothing is cached, the directory is the one assigned last. -/
theorem configured_inv (H0 : DHandler V R O) (hnew : Fresh H0) (pre : List (FS R × DOp V R O))
    (hpre : ∀ e ∈ pre, (∃ d, e.2 = .setDir d) ∨ ∃ k f, e.2 = .setPost k f) (fs : FS R) :
    DInv { H0 with dir := dirAfter H0.dir pre } (H0.run pre) pre fs ∧ (H0.run pre).cache = [] := by
  induction pre using List.reverseRecOn with
  | nil =>
    refine ⟨⟨rfl, rfl, rfl, rfl, rfl, rfl, ?_, ?_, ?_⟩, hnew.1⟩
    · intro c _ id _ r hr
      simp [DHandler.run, hnew.1] at hr
    · simp [DHandler.run, hnew.2, postOf]
    · simp [DHandler.run, hnew.2]
  | append_singleton h e ih =>
    obtain ⟨hi, hc⟩ := ih (fun e' he' => hpre e' (by simp [he']))
    rw [run_append, dirAfter_snoc]
    obtain ⟨fs', op⟩ := e
    rcases hpre (fs', op) (by simp) with ⟨d, hd⟩ | ⟨k', f, hf⟩
    · dsimp only at hd
      subst hd
      refine ⟨⟨hi.plan, rfl, hi.name, hi.mat, hi.view, hi.str, ?_, ?_, hi.nodup⟩, hc⟩
      · intro c _ id _ r hr
        simp [DHandler.step, hc] at hr
      · intro k
        rw [postOf_append]
        exact hi.post k
    · dsimp only at hf
      subst hf
      refine ⟨⟨hi.plan, hi.dir, hi.name, hi.mat, hi.view, hi.str, ?_, ?_, dictSet_nodup _ _ _ hi.nodup⟩, hc⟩
      · intro c _ id _ r hr
        simp [DHandler.step, DHandler.setPost, hc] at hr
      · intro k
        simp only [DHandler.step, DHandler.setPost]
        rw [postOf_append, lookup_dictSet, hi.post]
        by_cases hk : k' = k
        · simp [hk]
        · simp [hk, Ne.symm hk]

theorem run_configured (H0 : DHandler V R O) (hnew : Fresh H0) (pre h : List (FS R × DOp V R O))
    (hpre : ∀ e ∈ pre, (∃ d, e.2 = .setDir d) ∨ ∃ k f, e.2 = .setPost k f) (fs : FS R)
    (hfiles : ∀ e ∈ h, ∀ c ∈ H0.plan, storedSample { H0 with dir := dirAfter H0.dir pre } e.1 c = storedSample { H0 with dir := dirAfter H0.dir pre } fs c)
    (hdir : ∀ e ∈ h, ∀ d, e.2 ≠ .setDir d) : DInv { H0 with dir := dirAfter H0.dir pre } (H0.run (pre ++ h)) (pre ++ h) fs := by
  induction h using List.reverseRecOn with
  | nil => rw [List.append_nil]; exact (configured_inv H0 hnew pre hpre fs).1
  | append_singleton h e ih =>
    have h1 := ih (fun e' he' => hfiles e' (by simp [he'])) (fun e' he' => hdir e' (by simp [he']))
    rw [← List.append_assoc, run_append]
    have h2 := h1.change (fs' := e.1) (fun c hc => (hfiles e (by simp) c hc).symm)
    exact (step_inv h2 e.2 (hdir e (by simp))).change (hfiles e (by simp))

/-- **C43 for indexing, with configuration, partial.**  As `C43_get_partial`, for a `DataHandler` whose directory and post-processing functions are set first, in any order and any number of times, and which then
answers any queries: the samples are those of the directory that was assigned last. -/
theorem C43_get_configured_partial (H0 : DHandler V R O) (hnew : Fresh H0) (pre h : List (FS R × DOp V R O)) (fs : FS R)
    (hpre : ∀ e ∈ pre, (∃ d, e.2 = .setDir d) ∨ ∃ k f, e.2 = .setPost k f)
    (hfiles : ∀ e ∈ h, ∀ c ∈ H0.plan, storedSample { H0 with dir := dirAfter H0.dir pre } e.1 c = storedSample { H0 with dir := dirAfter H0.dir pre } fs c)
    (hdir : ∀ e ∈ h, ∀ d, e.2 ≠ .setDir d) (ind : DInd) :
    (∀ js, selected H0.plan.length ind = some js →
      (∀ j ∈ js, ∀ c, H0.plan[j]? = some c → ∃ r, storedSample { H0 with dir := dirAfter H0.dir pre } fs c = some r) →
      ∃ ds, ((H0.run (pre ++ h)).get fs ind).2 = .ok ds ∧
        List.Forall₂ (fun j d => ∃ c, H0.plan[j]? = some c ∧ Describes { H0 with dir := dirAfter H0.dir pre } (pre ++ h) fs c d) js ds) ∧
    (∀ ds, ((H0.run (pre ++ h)).get fs ind).2 = .ok ds →
      ∃ js, selected H0.plan.length ind = some js ∧ ∀ j ∈ js, ∃ c, H0.plan[j]? = some c ∧ ∃ r, storedSample { H0 with dir := dirAfter H0.dir pre } fs c = some r) :=
  get_of_inv (run_configured H0 hnew pre h hpre fs hfiles hdir) ind

/-- **C43 for indexing, partial.**  Take any history of calls on a new `DataHandler` during which the sample files did not change and
`data_dir` was not reassigned.  `dh[ind]` with an integer or slice raises exactly if the index is out of range or a selected file cannot
be read; otherwise it returns for the selected cases, in plan order, the inputs with the stored result or the values of the
post-processing functions set last (`None` if the sample does not exist).
Missing: changes of the files (`C43_fails_cached_missing`), of the directory (`C43_fails_dir_change`), lists and tuples as indices
(`C43_fails_sequence_index`). -/
theorem C43_get_partial (H0 : DHandler V R O) (hnew : Fresh H0) (h : List (FS R × DOp V R O)) (fs : FS R)
    (hfiles : ∀ e ∈ h, ∀ c ∈ H0.plan, storedSample H0 e.1 c = storedSample H0 fs c)
    (hdir : ∀ e ∈ h, ∀ d, e.2 ≠ .setDir d) (ind : DInd) :
    (∀ js, selected H0.plan.length ind = some js →
      (∀ j ∈ js, ∀ c, H0.plan[j]? = some c → ∃ r, storedSample H0 fs c = some r) →
      ∃ ds, ((H0.run h).get fs ind).2 = .ok ds ∧
        List.Forall₂ (fun j d => ∃ c, H0.plan[j]? = some c ∧ Describes H0 h fs c d) js ds) ∧
    (∀ ds, ((H0.run h).get fs ind).2 = .ok ds →
      ∃ js, selected H0.plan.length ind = some js ∧ ∀ j ∈ js, ∃ c, H0.plan[j]? = some c ∧ ∃ r, storedSample H0 fs c = some r) :=
  get_of_inv (run_inv H0 hnew h fs hfiles hdir) ind

theorem callFilter_ok {X : Type} (f : Option (FilterFn X)) (d : List (String × X))
    (hf : ∀ g, f = some g → g.locals = [] ∧ ∀ a ∈ g.args, (d.lookup a).isSome) : callFilter f d = .ok (Accepts f d) := by
  cases f with
  | none => rfl
  | some g =>
    obtain ⟨h1, h2⟩ := hf g rfl
    simp only [callFilter, h1, List.append_nil, Accepts]
    rw [if_pos h2]
    simp

theorem filterLoop_spec {H0 H : DHandler V R O} {h : List (FS R × DOp V R O)} {fs : FS R} (hi : DInv H0 H h fs)
    (inF : Option (FilterFn (PVal V))) (outF : Option (FilterFn (DVal V R O))) (cs : List (Case V)) (hcs : ∀ c ∈ cs, c ∈ H0.plan)
    (hin : ∀ f, inF = some f → f.locals = [] ∧ ∀ c ∈ H0.plan, ∀ a ∈ f.args, (c.lookup a).isSome)
    (hout : ∀ f, outF = some f → f.locals = [] ∧ ∀ c ∈ H0.plan, ∀ r, ∀ a ∈ f.args, (expected h c r a).isSome)
    (hr : ∀ c ∈ cs, Accepts inF c = true → ∃ r, storedSample H0 fs c = some r) :
    ∃ ds : List (Case V × List (String × DVal V R O)), (H.filterLoop fs inF outF cs).2 = .ok (((ds.filter fun x => Accepts outF x.2)).map (·.2)) ∧
      ds.map (·.1) = cs.filter (Accepts inF) ∧ ∀ x ∈ ds, Describes H0 h fs x.1 x.2 := by
  induction cs generalizing H with
  | nil => exact ⟨[], rfl, rfl, by simp⟩
  | cons c cs ih =>
    have hcs' : ∀ c ∈ cs, c ∈ H0.plan := fun c hc => hcs c (by simp [hc])
    have hr' : ∀ c ∈ cs, Accepts inF c = true → ∃ r, storedSample H0 fs c = some r := fun c hc => hr c (by simp [hc])
    have hin' : callFilter inF c = .ok (Accepts inF c) :=
      callFilter_ok inF c (fun f hf => ⟨(hin f hf).1, (hin f hf).2 c (hcs c (by simp))⟩)
    cases hacc : Accepts inF c with
    | false =>
      obtain ⟨ds, h1, h2, h3⟩ := ih hi hcs' hr'
      refine ⟨ds, ?_, by rw [List.filter_cons, hacc]; simpa using h2, h3⟩
      rw [DHandler.filterLoop, hin', hacc]
      exact h1
    | true =>
      obtain ⟨i1, -, i2, -⟩ := lazyLoad_spec hi c (hcs c (by simp))
      obtain ⟨r, hrc⟩ := hr c (by simp) hacc
      have i4 := i2 r hrc
      obtain ⟨ds, h1, h2, h3⟩ := ih i1 hcs' hr'
      have hlk : ∀ k, ((H.lazyLoad fs c).1.postProcess c r).lookup k = expected h c r k := fun k => postProcess_spec i1 c r k
      have hout' : callFilter outF ((H.lazyLoad fs c).1.postProcess c r) = .ok (Accepts outF ((H.lazyLoad fs c).1.postProcess c r)) := by
        apply callFilter_ok
        intro f hf
        refine ⟨(hout f hf).1, fun a ha => ?_⟩
        rw [hlk]
        exact (hout f hf).2 c (hcs c (by simp)) r a ha
      refine ⟨(c, (H.lazyLoad fs c).1.postProcess c r) :: ds, ?_, by rw [List.filter_cons, hacc]; simpa using h2, ?_⟩
      · rw [DHandler.filterLoop, hin', hacc]
        generalize hL : H.lazyLoad fs c = L at *
        obtain ⟨H', res⟩ := L
        dsimp only at *
        subst i4
        dsimp only
        rw [hout']
        dsimp only
        generalize hF : H'.filterLoop fs inF outF cs = F at *
        obtain ⟨H'', res'⟩ := F
        dsimp only at *
        subst h1
        dsimp only
        rw [List.filter_cons]
        cases Accepts outF (H'.postProcess c r) <;> simp
      · intro x hx
        rcases List.mem_cons.1 hx with rfl | hx
        · exact ⟨r, hrc, hlk⟩
        · exact h3 x hx

/-- **C43 for filtering, partial.**  In the situation of `C43_get_partial`, with filters that have no local variables and whose
parameters exist: `filter` returns, in plan order, exactly the right dictionaries of the cases accepted by the input filter that are
accepted by the output filter.
Missing, besides the points of `C43_get_partial`: filters with local variables (`C43_fails_filter_locals`). -/
theorem C43_filter_partial (H0 : DHandler V R O) (hnew : Fresh H0) (h : List (FS R × DOp V R O)) (fs : FS R)
    (hfiles : ∀ e ∈ h, ∀ c ∈ H0.plan, storedSample H0 e.1 c = storedSample H0 fs c)
    (hdir : ∀ e ∈ h, ∀ d, e.2 ≠ .setDir d)
    (inF : Option (FilterFn (PVal V))) (outF : Option (FilterFn (DVal V R O)))
    (hin : ∀ f, inF = some f → f.locals = [] ∧ ∀ c ∈ H0.plan, ∀ a ∈ f.args, (c.lookup a).isSome)
    (hout : ∀ f, outF = some f → f.locals = [] ∧ ∀ c ∈ H0.plan, ∀ r, ∀ a ∈ f.args, (expected h c r a).isSome)
    (hr : ∀ c ∈ H0.plan, Accepts inF c = true → ∃ r, storedSample H0 fs c = some r) :
    ∃ ds : List (Case V × List (String × DVal V R O)),
      ds.map (·.1) = H0.plan.filter (Accepts inF) ∧ (∀ x ∈ ds, Describes H0 h fs x.1 x.2) ∧
      ((H0.run h).filter fs inF outF).2 = .ok (((ds.filter fun x => Accepts outF x.2)).map (·.2)) := by
  have hi := run_inv H0 hnew h fs hfiles hdir
  obtain ⟨ds, h1, h2, h3⟩ := filterLoop_spec hi inF outF H0.plan (fun _ h => h) hin hout hr
  refine ⟨ds, h2, h3, ?_⟩
  rw [DHandler.filter, hi.plan]
  exact h1

/-- **C43 for filtering, with configuration, partial.**  `C43_filter_partial` in the situation of `C43_get_configured_partial`. -/
theorem C43_filter_configured_partial (H0 : DHandler V R O) (hnew : Fresh H0) (pre h : List (FS R × DOp V R O)) (fs : FS R)
    (hpre : ∀ e ∈ pre, (∃ d, e.2 = .setDir d) ∨ ∃ k f, e.2 = .setPost k f)
    (hfiles : ∀ e ∈ h, ∀ c ∈ H0.plan, storedSample { H0 with dir := dirAfter H0.dir pre } e.1 c = storedSample { H0 with dir := dirAfter H0.dir pre } fs c)
    (hdir : ∀ e ∈ h, ∀ d, e.2 ≠ .setDir d)
    (inF : Option (FilterFn (PVal V))) (outF : Option (FilterFn (DVal V R O)))
    (hin : ∀ f, inF = some f → f.locals = [] ∧ ∀ c ∈ H0.plan, ∀ a ∈ f.args, (c.lookup a).isSome)
    (hout : ∀ f, outF = some f → f.locals = [] ∧ ∀ c ∈ H0.plan, ∀ r, ∀ a ∈ f.args, (expected (pre ++ h) c r a).isSome)
    (hr : ∀ c ∈ H0.plan, Accepts inF c = true → ∃ r, storedSample { H0 with dir := dirAfter H0.dir pre } fs c = some r) :
    ∃ ds : List (Case V × List (String × DVal V R O)),
      ds.map (·.1) = H0.plan.filter (Accepts inF) ∧ (∀ x ∈ ds, Describes { H0 with dir := dirAfter H0.dir pre } (pre ++ h) fs x.1 x.2) ∧
      ((H0.run (pre ++ h)).filter fs inF outF).2 = .ok (((ds.filter fun x => Accepts outF x.2)).map (·.2)) := by
  have hi := run_configured H0 hnew pre h hpre fs hfiles hdir
  obtain ⟨ds, h1, h2, h3⟩ := filterLoop_spec hi inF outF H0.plan (fun _ h => h) hin hout hr
  refine ⟨ds, h2, h3, ?_⟩
  rw [DHandler.filter, hi.plan]
  exact h1

/-! ### Where it fails -/

/-- a plan with one case -/
def dhNew : DHandler Nat Nat Nat := { plan := [[("alpha", .val 3), ("id", .id "000")]], matView := id, str := toString }

/-- the sample file with value `v` in directory `d` -/
def dhFile (d : String) (v : Nat) : FS Nat := fun n => if n = d ++ "sample_000.pkl" then some (.file (some v)) else none

/-- **C43 fails for samples stored later**: a sample queried before it was computed stays `None` for this `DataHandler`, although a new
`DataHandler` finds it. -/
theorem C43_fails_cached_missing :
    ((dhNew.run [(fun _ => none, .get (.int 0))]).get (dhFile "./" 7) (.int 0)).2.toOption =
      some [[("alpha", .inp (.val 3)), ("id", .inp (.id "000")), ("res", .raw none)]] ∧
    (dhNew.get (dhFile "./" 7) (.int 0)).2.toOption =
      some [[("alpha", .inp (.val 3)), ("id", .inp (.id "000")), ("res", .raw (some 7))]] := by
  constructor <;> decide +kernel

/-- **C43 fails if `data_dir` is changed**: samples of the old directory are returned. -/
theorem C43_fails_dir_change :
    ((dhNew.run [(fun n => if n = "b/sample_000.pkl" then some (.file (some 8)) else dhFile "./" 7 n, .get (.int 0)),
        (fun _ => none, .setDir "b/")]).get (fun n => if n = "b/sample_000.pkl" then some (.file (some 8)) else dhFile "./" 7 n) (.int 0)).2.toOption =
      some [[("alpha", .inp (.val 3)), ("id", .inp (.id "000")), ("res", .raw (some 7))]] := by
  decide +kernel

/-- **C43 fails for lists and tuples of indices**, which the documentation of the error message allows: `TypeError`. -/
theorem C43_fails_sequence_index (H : DHandler V R O) (fs : FS R) : (H.get fs .seq).2.toOption = none := rfl

/-- **C43 fails for filters with local variables** (e.g. `def f(alpha): y = alpha*2; return y > 3`): an error is raised as soon as there
is a case — `KeyError` if a parameter or a local variable is not the name of a sampled variable, `TypeError` otherwise. -/
theorem C43_fails_filter_locals (H : DHandler V R O) (fs : FS R) (f : FilterFn (PVal V)) (c : Case V) (cs : List (Case V))
    (hplan : H.plan = c :: cs) (hloc : f.locals ≠ []) :
    ((∃ a, (a ∈ f.args ∨ a ∈ f.locals) ∧ c.lookup a = none) → (H.filter fs (some f) none).2 = .error "KeyError") ∧
    ((∀ a, a ∈ f.args ∨ a ∈ f.locals → (c.lookup a).isSome) → (H.filter fs (some f) none).2 = .error "TypeError") := by
  rw [DHandler.filter, hplan, DHandler.filterLoop]
  constructor
  · rintro ⟨a, ha, hn⟩
    have : callFilter (some f) c = .error "KeyError" := by
      simp only [callFilter]
      rw [if_neg]
      intro h
      have := h a (List.mem_append.2 ha)
      rw [hn] at this
      cases this
    rw [this]
  · intro h
    have : callFilter (some f) c = .error "TypeError" := by
      simp only [callFilter]
      rw [if_pos (fun a ha => h a (List.mem_append.1 ha)), if_neg hloc]
    rw [this]

/-- both cases occur -/
example : (dhNew.filter (dhFile "./" 7) (some { args := ["alpha"], locals := ["y"], body := fun _ => true }) none).2 = .error "KeyError" ∧
    (dhNew.filter (dhFile "./" 7) (some { args := ["alpha"], locals := ["id"], body := fun _ => true }) none).2 = .error "TypeError" := by
  constructor
  · exact (C43_fails_filter_locals dhNew _ _ _ _ rfl (by decide)).1 ⟨"y", by decide, by decide⟩
  · refine (C43_fails_filter_locals dhNew _ _ _ _ rfl (by decide)).2 ?_
    rintro a (h | h) <;> (obtain rfl := List.mem_singleton.1 h; decide)

/-- Non-vacuity of the C43 theorems: a history with queries and post-processing functions, one of them replaced. -/
example : Fresh dhNew ∧
    ((dhNew.run [(dhFile "./" 7, .get (.slice none none)), (dhFile "./" 7, .setPost "sq" (.one fun r => r)),
        (dhFile "./" 7, .setPost "sq" (.one fun r => r * r))]).get (dhFile "./" 7) (.int (-1))).2.toOption =
      some [[("alpha", .inp (.val 3)), ("id", .inp (.id "000")), ("sq", .post 49)]] ∧
    ((dhNew.run [(dhFile "./" 7, .get (.slice none none))]).filter (dhFile "./" 7)
        (some { args := ["alpha"], body := fun d => d.any fun e => e.2 = .val 3 }) none).2.toOption =
      some [[("alpha", .inp (.val 3)), ("id", .inp (.id "000")), ("res", .raw (some 7))]] := by
  refine ⟨⟨rfl, rfl⟩, ?_, ?_⟩ <;> decide +kernel

/-- Non-vacuity of the theorems with configuration: the directory is assigned before the first query, and the sample is the one stored there. -/
example :
    ((dhNew.run [(fun _ => none, .setDir "a/"), (fun _ => none, .setPost "sq" (.one fun r => r * r)), (fun _ => none, .setDir "b/")]).get (dhFile "b/" 7) (.int 0)).2.toOption =
      some [[("alpha", .inp (.val 3)), ("id", .inp (.id "000")), ("sq", .post 49)]] ∧
    dirAfter (V := Nat) (R := Nat) (O := Nat) dhNew.dir [(fun _ => none, .setDir "a/"), (fun _ => none, .setPost "sq" (.one fun r => r * r)), (fun _ => none, .setDir "b/")] = "b/" :=
  ⟨by decide +kernel, rfl⟩

end DoMpc
