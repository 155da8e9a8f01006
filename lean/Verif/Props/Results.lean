import Verif.Model.Results
import Verif.Lemmas.Files
import Mathlib.Data.Finset.Card
import Mathlib.Data.Finset.Image
import Mathlib.Data.Finset.Range

set_option linter.unusedSectionVars false
set_option linter.unusedSimpArgs false

/-! # C19: `save_results` never destroys a stored result -/
namespace DoMpc
variable {D : Type}

namespace Spec
/-- What is stored under a key: the data of the last object of that class. -/
def storedFor (objs : List (ObjKind × D)) (kind : ObjKind) : Option D :=
  ((objs.filter fun o => o.1 = kind).getLast?).map (·.2)

/-- `later` has everything `earlier` has, unchanged. -/
def Keeps {V : Type} (earlier later : FS V) : Prop := ∀ n e, earlier n = some e → later n = some e
end Spec

theorem keeps_put {V : Type} {fs : FS V} {n : String} {e : Entry V} (h : fs n = none) : Spec.Keeps fs (fs.put n e) := by
  intro m e' hm
  have : m ≠ n := fun h' => by rw [h', h] at hm; cases hm
  simpa [FS.put, this] using hm

theorem Spec.Keeps.trans {V : Type} {a b c : FS V} (h : Spec.Keeps a b) (h' : Spec.Keeps b c) : Spec.Keeps a c :=
  fun n e he => h' n e (h n e he)

theorem mkdirs_keeps {V : Type} (ps : List String) (fs : FS V) :
    (∀ s ∈ (fs.mkdirs ps).1, Spec.Keeps fs s ∧ ∀ n v, s n = some (.file v) → fs n = some (.file v)) ∧
    (∀ s ∈ (fs.mkdirs ps).1, ∀ n, s n ≠ none → fs n ≠ none ∨ n ∈ ps) := by
  induction ps generalizing fs with
  | nil => simp [FS.mkdirs]
  | cons p ps ih =>
    simp only [FS.mkdirs]
    cases h : fs p with
    | none =>
      have key := ih (fs.put p .dir)
      have hkeep : Spec.Keeps fs (fs.put p .dir) := keeps_put h
      have hfile : ∀ n v, (fs.put p .dir) n = some (.file v) → fs n = some (.file v) := by
        intro n v hn
        unfold FS.put at hn
        split at hn
        · cases hn
        · exact hn
      have hnew : ∀ n, (fs.put p .dir) n ≠ none → fs n ≠ none ∨ n ∈ p :: ps := by
        intro n hn
        unfold FS.put at hn
        split at hn
        · rename_i h'; right; simp [h']
        · left; exact hn
      constructor
      · intro s hs
        rcases List.mem_cons.1 hs with rfl | hs
        · exact ⟨hkeep, hfile⟩
        · exact ⟨hkeep.trans (key.1 s hs).1, fun n v hn => hfile n v ((key.1 s hs).2 n v hn)⟩
      · intro s hs n hn
        rcases List.mem_cons.1 hs with rfl | hs
        · exact hnew n hn
        · rcases key.2 s hs n hn with h' | h'
          · exact hnew n h'
          · exact Or.inr (List.mem_cons_of_mem _ h')
    | some e =>
      cases e with
      | dir =>
        refine ⟨(ih fs).1, fun s hs n hn => ?_⟩
        rcases (ih fs).2 s hs n hn with h' | h'
        · exact Or.inl h'
        · exact Or.inr (List.mem_cons_of_mem _ h')
      | file v => simp

/-- names tried by the loop: the plain name, then the numbered ones -/
def candidate (name : String) : Nat → String
  | 0 => name
  | i + 1 => indexedName (i + 1) name

theorem candidate_inj (name : String) (i j : Nat) (h : candidate name i = candidate name j) : i = j := by
  have hlen : ∀ i, name.toList.length < (indexedName (i + 1) name).toList.length := by
    intro i; simp [indexedName]; omega
  rcases i with _ | i <;> rcases j with _ | j
  · rfl
  · have := hlen j
    simp only [candidate] at h
    rw [← h] at this; omega
  · have := hlen i
    simp only [candidate] at h
    rw [h] at this; omega
  · simp only [candidate, indexedName] at h
    have h1 := congrArg String.toList h
    simp only [String.toList_append, List.append_assoc, List.append_cancel_right_eq] at h1
    exact zfill_inj (String.toList_inj.1 h1)

theorem freeResultName_spec (taken : String → Bool) (name : String) (fuel : Nat) :
    ∀ k, (∃ i, k ≤ i ∧ i < k + fuel ∧ taken (candidate name i) = false) →
      ∃ i, k ≤ i ∧ taken (candidate name i) = false ∧ (∀ j, k ≤ j → j < i → taken (candidate name j) = true) ∧
        freeResultName taken name fuel (k + 1) (candidate name k) = some (candidate name i) := by
  induction fuel with
  | zero => rintro k ⟨i, h1, h2, -⟩; omega
  | succ f ih =>
    rintro k ⟨i, h1, h2, h3⟩
    cases hk : taken (candidate name k) with
    | false =>
      refine ⟨k, Nat.le_refl _, hk, fun j h h' => by omega, ?_⟩
      simp [freeResultName, hk]
    | true =>
      have hik : i ≠ k := by rintro rfl; rw [hk] at h3; cases h3
      obtain ⟨i', h1', h2', h3', h4'⟩ := ih (k + 1) ⟨i, by omega, by omega, h3⟩
      refine ⟨i', by omega, h2', fun j hj hj' => ?_, ?_⟩
      · by_cases hjk : j = k
        · subst hjk; exact hk
        · exact h3' j (by omega) hj'
      · rw [freeResultName, if_pos hk]
        exact h4'

/-- With finitely many names taken, one of the first candidates is free. -/
theorem exists_free_candidate (name : String) (l : List String) (taken : String → Bool)
    (hl : ∀ n, taken n = true → n ∈ l) : ∃ i, i < l.length + 1 ∧ taken (candidate name i) = false := by
  by_contra hcon
  push_neg at hcon
  have hsub : (Finset.range (l.length + 1)).image (candidate name) ⊆ l.toFinset := by
    intro n hn
    obtain ⟨i, hi, rfl⟩ := Finset.mem_image.1 hn
    have := hcon i (Finset.mem_range.1 hi)
    exact List.mem_toFinset.2 (hl _ (by simpa using this))
  have hcard := Finset.card_le_card hsub
  rw [Finset.card_image_of_injective _ (fun i j h => candidate_inj name i j h), Finset.card_range] at hcard
  have := List.toFinset_card_le l
  omega

theorem ObjKind.key_inj {a b : ObjKind} {k : String} (h1 : a.key = some k) (h2 : b.key = some k) : a = b := by
  have h := h1.trans h2.symm
  revert h
  cases a <;> cases b <;> simp [ObjKind.key]

theorem collectResults_spec (objs : List (ObjKind × D)) :
    (∀ o ∈ objs, o.1 ≠ .other) → ∃ r, collectResults objs = .ok r ∧
      ∀ kind k, kind.key = some k → r.lookup k = Spec.storedFor objs kind := by
  induction objs using List.reverseRecOn with
  | nil => intro _; exact ⟨[], rfl, fun kind k h => by simp [Spec.storedFor]⟩
  | append_singleton objs o ih =>
    intro h
    obtain ⟨r, hr, hspec⟩ := ih fun o' ho' => h o' (by simp [ho'])
    have ho := h o (by simp)
    obtain ⟨kind, x⟩ := o
    have hkey : ∃ k, kind.key = some k := by cases kind <;> simp_all [ObjKind.key]
    obtain ⟨k, hk⟩ := hkey
    refine ⟨dictSet r k x, ?_, ?_⟩
    · unfold collectResults at hr ⊢
      rw [List.foldl_append, hr]
      simp [hk]
    · intro kind' k' hk'
      rw [lookup_dictSet]
      unfold Spec.storedFor
      rw [List.filter_append]
      by_cases hkk : kind = kind'
      · subst hkk
        rw [hk] at hk'; cases hk'
        simp
      · have : k' ≠ k := by
          intro h'; subst h'
          exact hkk (ObjKind.key_inj hk hk')
        rw [if_neg this, hspec kind' k' hk']
        simp [hkk, Spec.storedFor]

theorem collectResults_unknown (objs : List (ObjKind × D)) (h : ∃ o ∈ objs, o.1 = .other) :
    ∃ e, collectResults objs = .error e := by
  induction objs using List.reverseRecOn with
  | nil => simp at h
  | append_singleton objs o ih =>
    unfold collectResults at ih ⊢
    rw [List.foldl_append]
    by_cases h' : ∃ o ∈ objs, o.1 = .other
    · obtain ⟨e, he⟩ := ih h'
      rw [he]; exact ⟨e, rfl⟩
    · obtain ⟨o', ho', ho''⟩ := h
      rcases List.mem_append.1 ho' with h1 | h1
      · exact absurd ⟨o', h1, ho''⟩ h'
      · rw [List.mem_singleton] at h1
        subst h1
        simp only [List.foldl_cons, List.foldl_nil]
        split
        · exact ⟨_, rfl⟩
        · rw [ho'']; exact ⟨_, rfl⟩

theorem getLastD_mem_or {α : Type} (l : List α) (a : α) : l.getLastD a ∈ l ∨ l.getLastD a = a ∧ l = [] := by
  cases l with
  | nil => right; simp
  | cons b bs => left; rw [List.getLastD_cons]; exact List.getLastD_mem_cons

/-- the first part of `save_results`: making the directory -/
def mkPart {V : Type} (dirs : String → List String) (fs : FS V) (path : String) : List (FS V) × Option String :=
  if (fs path).isSome then ([], none) else fs.mkdirs (dirs path)

theorem mkPart_keeps {V : Type} (dirs : String → List String) (fs : FS V) (path : String) :
    ∀ s ∈ (mkPart dirs fs path).1, Spec.Keeps fs s ∧ ∀ n v, s n = some (.file v) → fs n = some (.file v) := by
  unfold mkPart; split
  · simp
  · exact (mkdirs_keeps _ fs).1

theorem mkPart_last {V : Type} (dirs : String → List String) (fs : FS V) (path : String) :
    Spec.Keeps fs ((mkPart dirs fs path).1.getLastD fs) ∧
      ∀ n v, ((mkPart dirs fs path).1.getLastD fs) n = some (.file v) → fs n = some (.file v) := by
  rcases getLastD_mem_or (mkPart dirs fs path).1 fs with h | ⟨h, -⟩
  · exact mkPart_keeps _ _ _ _ h
  · rw [h]; exact ⟨fun _ _ h => h, fun _ _ h => h⟩

/-- The search for a free name ends: it stops at the first candidate that is not an existing file. -/
theorem freeResultName_ends {V : Type} (fs : FS V) (hfin : fs.Finite) (path name : String) :
    ∃ i, fs.isFile (path ++ candidate name i ++ ".pkl") = false ∧
      (∀ j < i, fs.isFile (path ++ candidate name j ++ ".pkl") = true) ∧
      ∃ n, ∀ fuel ≥ n, freeResultName (fun n => fs.isFile (path ++ n ++ ".pkl")) name fuel 1 name = some (candidate name i) := by
  obtain ⟨l, hl⟩ := hfin
  set taken := fun n => fs.isFile (path ++ n ++ ".pkl") with htaken
  have hcand : ∃ i, i < l.length + 1 ∧ taken (candidate name i) = false := by
    have hinj : ∀ n, taken n = true → path ++ n ++ ".pkl" ∈ l := by
      intro n hn
      apply hl
      simp only [htaken, FS.isFile] at hn
      split at hn
      · rename_i v hv
        rw [hv]; simp
      · cases hn
    by_contra hcon
    push Not at hcon
    have hsub : ((Finset.range (l.length + 1)).image fun i => path ++ candidate name i ++ ".pkl") ⊆ l.toFinset := by
      intro n hn
      obtain ⟨i, hi, rfl⟩ := Finset.mem_image.1 hn
      have := hcon i (by simpa using Finset.mem_range.1 hi)
      exact List.mem_toFinset.2 (hinj _ (by simpa using this))
    have hcard := Finset.card_le_card hsub
    rw [Finset.card_image_of_injective, Finset.card_range] at hcard
    · have := List.toFinset_card_le l
      omega
    · intro i j h
      have h1 := congrArg String.toList h
      simp only [String.toList_append, List.append_assoc, List.append_cancel_left_eq, List.append_cancel_right_eq] at h1
      exact candidate_inj name i j (String.toList_inj.1 h1)
  obtain ⟨i0, hi0, hfree0⟩ := hcand
  obtain ⟨i, -, h2, h3, -⟩ := freeResultName_spec taken name (l.length + 1) 0 ⟨i0, by omega, by omega, hfree0⟩
  refine ⟨i, h2, fun j hj => h3 j (by omega) hj, l.length + 1, fun fuel hfuel => ?_⟩
  obtain ⟨i', -, h2', h3', h4'⟩ := freeResultName_spec taken name fuel 0 ⟨i0, by omega, by omega, hfree0⟩
  have : i' = i := by
    rcases Nat.lt_trichotomy i' i with h | h | h
    · rw [h3 i' (by omega) h] at h2'; cases h2'
    · exact h
    · rw [h3' i (by omega) h] at h2; cases h2
  rw [← this]; exact h4'

theorem finite_getLastD {V : Type} (dirs : String → List String) (fs : FS V) (hfin : fs.Finite) (path : String) :
    FS.Finite ((mkPart dirs fs path).1.getLastD fs) := by
  obtain ⟨l, hl⟩ := hfin
  rcases getLastD_mem_or (mkPart dirs fs path).1 fs with h | ⟨h, -⟩
  · refine ⟨l ++ dirs path, fun n hn => ?_⟩
    generalize (mkPart dirs fs path).1.getLastD fs = s at h hn
    unfold mkPart at h
    split at h
    · simp at h
    · rcases (mkdirs_keeps (dirs path) fs).2 s h n hn with h' | h'
      · exact List.mem_append_left _ (hl n h')
      · exact List.mem_append_right _ h'
  · rw [h]; exact ⟨l, hl⟩

/-- All about a run that gets as far as choosing the name. -/
theorem saveResults_run (dirs : String → List String) (fs : FS (List (String × D))) (hfin : fs.Finite)
    (objs : List (ObjKind × D)) (name path : String) (herr : (mkPart dirs fs path).2 = none) (results : List (String × D))
    (hcol : collectResults objs = .ok results) :
    ∃ i, let fs1 := (mkPart dirs fs path).1.getLastD fs
      let f := path ++ candidate name i ++ ".pkl"
      fs1.isFile f = false ∧ (∀ j < i, fs1.isFile (path ++ candidate name j ++ ".pkl") = true) ∧
      ∃ n, ∀ fuel ≥ n, saveResults dirs fuel fs objs name path false =
        some ⟨(mkPart dirs fs path).1 ++ (fs1.write f results).1, (fs1.write f results).2⟩ := by
  obtain ⟨i, h1, h2, n, h3⟩ := freeResultName_ends _ (finite_getLastD dirs fs hfin path) path name
  refine ⟨i, h1, h2, n, fun fuel hfuel => ?_⟩
  simp only [mkPart] at herr h3 ⊢
  simp only [saveResults, herr, hcol]
  rw [if_neg (by simp), h3 fuel hfuel]

/-- **C19, every crash point.**  Whatever the file system holds, `save_results` without `overwrite` ends, and at no point of its
execution (so also if it is killed there) has any existing file or directory been changed or removed. -/
theorem C19_never_destroys (dirs : String → List String) (fs : FS (List (String × D))) (hfin : fs.Finite)
    (objs : List (ObjKind × D)) (name path : String) :
    ∃ run, (∃ n, ∀ fuel ≥ n, saveResults dirs fuel fs objs name path false = some run) ∧
      ∀ s ∈ run.trace, Spec.Keeps fs s := by
  have hmkeep := mkPart_keeps dirs fs path
  cases herr : (mkPart dirs fs path).2 with
  | some e =>
    refine ⟨⟨(mkPart dirs fs path).1, some e⟩, ⟨0, fun fuel _ => ?_⟩, fun s hs => (hmkeep s hs).1⟩
    simp only [mkPart] at herr ⊢
    simp only [saveResults, herr]
  | none =>
    cases hcol : collectResults objs with
    | error e =>
      refine ⟨⟨(mkPart dirs fs path).1, some e⟩, ⟨0, fun fuel _ => ?_⟩, fun s hs => (hmkeep s hs).1⟩
      simp only [mkPart] at herr ⊢
      simp only [saveResults, herr, hcol]
    | ok results =>
      obtain ⟨i, hfree, -, hrun⟩ := saveResults_run dirs fs hfin objs name path herr results hcol
      refine ⟨_, hrun, ?_⟩
      intro s hs
      rcases List.mem_append.1 hs with hs | hs
      · exact (hmkeep s hs).1
      · refine (mkPart_last dirs fs path).1.trans ?_
        generalize (mkPart dirs fs path).1.getLastD fs = fs1 at hfree hs ⊢
        generalize path ++ candidate name i ++ ".pkl" = f at hfree hs
        unfold FS.write at hs
        cases hf1 : fs1 f with
        | some e =>
          cases e with
          | dir => simp [hf1] at hs
          | file v => simp [FS.isFile, hf1] at hfree
        | none =>
          simp only [hf1, List.mem_cons, List.not_mem_nil, or_false] at hs
          rcases hs with rfl | rfl
          · exact keeps_put hf1
          · exact keeps_put hf1

/-- **C19, success.**  If all objects are of a known class, the directory can be made and no *directory* has one of the candidate
names, then the call succeeds: it creates one file whose name was free, loading that file gives the data of the (last) object of each
class, and everything else is as before, except for new directories. -/
theorem C19_saves (dirs : String → List String) (fs : FS (List (String × D))) (hfin : fs.Finite)
    (objs : List (ObjKind × D)) (name path : String) (hknown : ∀ o ∈ objs, o.1 ≠ .other)
    (hdir : (fs path).isSome ∨ (fs.mkdirs (dirs path)).2 = none)
    (hclash : ∀ n, fs (path ++ n ++ ".pkl") ≠ some .dir ∧ path ++ n ++ ".pkl" ∉ dirs path) :
    ∃ run file, (∃ n, ∀ fuel ≥ n, saveResults dirs fuel fs objs name path false = some run) ∧
      run.outcome = none ∧ fs file = none ∧ (∃ n, file = path ++ n ++ ".pkl") ∧
      (fs (path ++ name ++ ".pkl") = none → file = path ++ name ++ ".pkl") ∧
      (∃ r, (run.final fs).load file = .ok r ∧ r.lookup "mpc" = Spec.storedFor objs .mpc ∧
        r.lookup "simulator" = Spec.storedFor objs .simulator ∧ r.lookup "estimator" = Spec.storedFor objs .estimator) ∧
      ∀ n, n ≠ file → run.final fs n = fs n ∨ (fs n = none ∧ run.final fs n = some .dir) := by
  have herr : (mkPart dirs fs path).2 = none := by
    unfold mkPart; split
    · rfl
    · rcases hdir with h | h
      · contradiction
      · exact h
  obtain ⟨r, hcol, hr⟩ := collectResults_spec objs hknown
  obtain ⟨i, hfree, hmin, hrun⟩ := saveResults_run dirs fs hfin objs name path herr r hcol
  have hlast := mkPart_last dirs fs path
  have hnew : ∀ n, ((mkPart dirs fs path).1.getLastD fs) n ≠ none → fs n ≠ none ∨ n ∈ dirs path := by
    intro n hn
    rcases getLastD_mem_or (mkPart dirs fs path).1 fs with h | ⟨h, -⟩
    · generalize (mkPart dirs fs path).1.getLastD fs = s at h hn
      unfold mkPart at h
      split at h
      · simp at h
      · exact (mkdirs_keeps (dirs path) fs).2 s h n hn
    · rw [h] at hn; exact Or.inl hn
  have hfin' : ∀ a b : List (FS (List (String × D))), b ≠ [] → (a ++ b).getLastD fs = b.getLastD fs := by
    intro a b hb
    rw [List.getLastD_eq_getLast?, List.getLastD_eq_getLast?, List.getLast?_append]
    rw [List.getLast?_eq_some_getLast hb]
    simp
  set fs1 := (mkPart dirs fs path).1.getLastD fs with hfs1
  set f := path ++ candidate name i ++ ".pkl" with hf
  have hf1 : fs1 f = none := by
    cases h : fs1 f with
    | none => rfl
    | some e =>
      cases e with
      | file v => simp [FS.isFile, h] at hfree
      | dir =>
        rcases hnew f (by rw [h]; simp) with h' | h'
        · cases h'' : fs f with
          | none => exact absurd h'' h'
          | some e =>
            have := hlast.1 f e h''
            rw [h] at this
            cases this
            exact absurd h'' (hclash _).1
        · exact absurd h' (hclash _).2
  have hf0 : fs f = none := by
    cases h : fs f with
    | none => rfl
    | some e => rw [hlast.1 f e h] at hf1; cases hf1
  have hw : fs1.write f r = ([fs1.put f (.file none), fs1.put f (.file (some r))], none) := by simp [FS.write, hf1]
  refine ⟨_, f, hrun, ?_, hf0, ⟨_, rfl⟩, ?_, ⟨r, ?_, hr .mpc _ rfl, hr .simulator _ rfl, hr .estimator _ rfl⟩, ?_⟩
  · simp [hw]
  · intro h
    rcases Nat.eq_zero_or_pos i with h0 | h0
    · rw [hf, h0]; rfl
    · have := hmin 0 h0
      simp only [candidate] at this
      have hn : fs1 (path ++ name ++ ".pkl") ≠ none := by
        intro h'; simp [FS.isFile, h'] at this
      rcases hnew _ hn with h' | h'
      · exact absurd h h'
      · exact absurd h' (hclash _).2
  · simp only [FileRun.final, hw]
    rw [hfin' _ _ (by simp)]
    simp [FS.load, FS.put]
  · intro n hn
    simp only [FileRun.final, hw]
    rw [hfin' _ _ (by simp)]
    simp only [List.getLastD_cons, List.getLastD_nil, FS.put, if_neg hn]
    cases h : fs n with
    | some e => left; exact hlast.1 n e h
    | none =>
      cases h1 : fs1 n with
      | none => left; rfl
      | some e =>
        right
        refine ⟨rfl, ?_⟩
        cases e with
        | dir => rfl
        | file v => rw [hlast.2 n v h1] at h; cases h

/-- **C19, refusal.**  An object of another class is refused and no file is written (at most the directory is made). -/
theorem C19_unknown_refused (dirs : String → List String) (fs : FS (List (String × D))) (objs : List (ObjKind × D))
    (name path : String) (overwrite : Bool) (h : ∃ o ∈ objs, o.1 = .other) :
    ∃ run, (∀ fuel, saveResults dirs fuel fs objs name path overwrite = some run) ∧ run.outcome ≠ none ∧
      ∀ s ∈ run.trace, Spec.Keeps fs s ∧ ∀ n v, s n = some (.file v) → fs n = some (.file v) := by
  obtain ⟨e, he⟩ := collectResults_unknown objs h
  cases herr : (mkPart dirs fs path).2 with
  | some e' =>
    refine ⟨⟨(mkPart dirs fs path).1, some e'⟩, fun fuel => ?_, by simp, mkPart_keeps _ _ _⟩
    simp only [mkPart] at herr ⊢
    simp only [saveResults, herr]
  | none =>
    refine ⟨⟨(mkPart dirs fs path).1, some e⟩, fun fuel => ?_, by simp, mkPart_keeps _ _ _⟩
    simp only [mkPart] at herr ⊢
    simp only [saveResults, herr, he]

section example_
/-- a directory with two results already stored -/
def resFs : FS (List (String × Nat)) := fun n =>
  if n = "./results/" then some .dir else if n = "./results/results.pkl" then some (.file (some [("mpc", 1)]))
  else if n = "./results/001_results.pkl" then some (.file (some [("mpc", 2)])) else none

theorem resFs_finite : resFs.Finite := by
  refine ⟨["./results/", "./results/results.pkl", "./results/001_results.pkl"], fun n hn => ?_⟩
  unfold resFs at hn
  repeat' split at hn
  all_goals simp_all

/-- The third result goes to `002_results.pkl`; of two controllers only the later one's data are stored. -/
example : ((saveResults (fun _ => []) 5 resFs [(.mpc, 7), (.simulator, 8), (.mpc, 9)] "results" "./results/" false).map fun r =>
    (r.outcome, (r.final resFs).load "./results/002_results.pkl" |>.toOption)) = some (none, some [("mpc", 9), ("simulator", 8)]) := by
  decide +kernel

/-- The hypotheses of `C19_saves` can be met. -/
example : (∀ o ∈ [(ObjKind.mpc, 7), (.simulator, 8)], o.1 ≠ ObjKind.other) ∧ (resFs "./results/").isSome ∧
    ∀ n, resFs ("./results/" ++ n ++ ".pkl") ≠ some .dir ∧ "./results/" ++ n ++ ".pkl" ∉ ([] : List String) := by
  refine ⟨by simp, by decide +kernel, fun n => ⟨?_, by simp⟩⟩
  have : "./results/" ++ n ++ ".pkl" ≠ "./results/" := by
    intro h
    have := congrArg (fun s : String => s.toList.length) h
    simp at this
  unfold resFs
  rw [if_neg this]
  repeat' split
  all_goals simp

end example_

/-- **C19 does not extend to two processes.**  The free name is chosen before the file is opened, so two processes that save into the
same directory can choose the same name; the first result is lost. -/
theorem C19_fails_concurrent : ∃ (fs : FS (List (String × Nat))) (name : String),
    let f := "./" ++ name ++ ".pkl"
    freeResultName (fun n => fs.isFile ("./" ++ n ++ ".pkl")) name 1 1 name = some name ∧
    ∃ a b, a ≠ b ∧ ∃ fsA fsB, (fs.write f a).1.getLast? = some fsA ∧ fsA.load f = .ok a ∧
      (fsA.write f b).1.getLast? = some fsB ∧ fsB.load f = .ok b := by
  refine ⟨fun _ => none, "results", by decide +kernel, [("mpc", 1)], [("mpc", 2)], by simp, _, _, rfl, rfl, rfl, rfl⟩

end DoMpc
