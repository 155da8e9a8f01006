import Verif.Spec.SamplingPar

/-! # Property C106: several processes sample one plan -/
set_option linter.unusedSectionVars false
set_option linter.unusedSimpArgs false
namespace DoMpc
open Spec
variable {V R : Type}

/-! ## names -/

theorem Spec.GoodNames.ok {cfg : SamplerCfg V R} {fs : FS R} (h : GoodNames cfg fs) : ({ cfg with overwrite := false } : SamplerCfg V R).Ok fs :=
  ⟨rfl, h.hasId, h.distinct, h.clean, h.noDir⟩

theorem fileOf_eq {cfg : SamplerCfg V R} {i : Nat} {n : String} : fileOf cfg i = some n ↔ ∃ c id, cfg.plan[i]? = some c ∧ idText cfg.str c = some id ∧
    n = sampleFile cfg.dir cfg.sampleName cfg.mat id := by
  unfold fileOf
  constructor
  · intro h
    obtain ⟨c, hc, h⟩ := Option.bind_eq_some_iff.1 h
    cases hid : idText cfg.str c with
    | none => rw [resultFile, hid] at h; cases h
    | some id => exact ⟨c, id, hc, hid, by rw [sampleFile_eq cfg c id hid] at h; exact (Option.some.inj h).symm⟩
  · rintro ⟨c, id, hc, hid, rfl⟩
    rw [hc, Option.bind_some, sampleFile_eq cfg c id hid]

theorem fileOf_inj {cfg : SamplerCfg V R} {fs : FS R} (hN : GoodNames cfg fs) {i j : Nat} {n : String} (hi : fileOf cfg i = some n) (hj : fileOf cfg j = some n) : i = j := by
  obtain ⟨c, hc, h1⟩ := Option.bind_eq_some_iff.1 hi
  obtain ⟨c', hc', h2⟩ := Option.bind_eq_some_iff.1 hj
  obtain ⟨hil, rfl⟩ := List.getElem?_eq_some_iff.1 hc
  obtain ⟨hjl, rfl⟩ := List.getElem?_eq_some_iff.1 hc'
  exact resultFile_inj hN.ok hil hjl h1 h2

theorem fileOf_exists {cfg : SamplerCfg V R} {fs : FS R} (hN : GoodNames cfg fs) {i : Nat} (hi : i < cfg.plan.length) : ∃ n, fileOf cfg i = some n := by
  obtain ⟨id, hid⟩ := hN.hasId _ (List.getElem_mem hi)
  exact ⟨_, fileOf_eq.2 ⟨_, id, List.getElem?_eq_getElem hi, hid, rfl⟩⟩

theorem fileOf_saved {cfg : SamplerCfg V R} {fs : FS R} (hN : GoodNames cfg fs) {i : Nat} {n : String} (hi : fileOf cfg i = some n) :
    (if cfg.mat then n else pickleName n) = n := by
  obtain ⟨c, id, hc, hid, rfl⟩ := fileOf_eq.1 hi
  exact saved_name _ hN.ok c (List.mem_of_getElem? hc) id hid

theorem fileOf_noDir {cfg : SamplerCfg V R} {fs : FS R} (hN : GoodNames cfg fs) {i : Nat} {n : String} (hi : fileOf cfg i = some n) : fs n ≠ some .dir := by
  obtain ⟨c, id, hc, hid, rfl⟩ := fileOf_eq.1 hi
  exact hN.noDir c (List.mem_of_getElem? hc) _ (sampleFile_eq cfg c id hid)

/-! ## the steps -/

/-- the index and file a process works at -/
def Pc.target : Pc V R → Option (Nat × String)
  | .idle => none
  | .calling i _ n => some (i, n)
  | .returned i n _ => some (i, n)
  | .saving i n _ => some (i, n)
  | .opened i n _ => some (i, n)

/-- the kinds of steps -/
inductive PStep (cfg : SamplerCfg V R) (f : Nat → Case V → Except String R) (k : Nat) (fs : FS R) (P : Proc V R) : Proc V R × FS R × List Nat → Prop
  | stay : P.pc = .idle → P.todo = [] → PStep cfg f k fs P (P, fs, [])
  | skip (i : Nat) (is : List Nat) (n : String) : P.pc = .idle → P.todo = i :: is → fileOf cfg i = some n → cfg.overwrite = false → HasFile fs n →
      PStep cfg f k fs P ({ P with todo := is }, fs, [])
  | start (i : Nat) (is : List Nat) (n : String) (c : Case V) : P.pc = .idle → P.todo = i :: is → fileOf cfg i = some n → cfg.plan[i]? = some c →
      (cfg.overwrite = true ∨ ¬ HasFile fs n) → PStep cfg f k fs P ({ P with todo := is, pc := .calling i (arguments c) n }, fs, [])
  | fail (i : Nat) (c : Case V) (n : String) (e : String) : P.pc = .calling i c n → f k c = .error e → PStep cfg f k fs P (.raise e, fs, [i])
  | ret (i : Nat) (c : Case V) (n : String) (r : R) : P.pc = .calling i c n → f k c = .ok r → PStep cfg f k fs P ({ P with pc := .returned i n r }, fs, [i])
  | drop (i : Nat) (n : String) (r : R) : P.pc = .returned i n r → cfg.overwrite = false → HasFile fs n → PStep cfg f k fs P ({ P with pc := .idle }, fs, [])
  | save (i : Nat) (n : String) (r : R) : P.pc = .returned i n r → (cfg.overwrite = true ∨ ¬ HasFile fs n) → PStep cfg f k fs P ({ P with pc := .saving i n r }, fs, [])
  | opens (i : Nat) (n : String) (r : R) : P.pc = .saving i n r → PStep cfg f k fs P ({ P with pc := .opened i n r }, fs.put n (.file none), [])
  | dump (i : Nat) (n : String) (r : R) : P.pc = .opened i n r → PStep cfg f k fs P ({ P with pc := .idle }, fs.put n (.file (some r)), [])

theorem check_iff (cfg : SamplerCfg V R) (fs : FS R) (n : String) : (!fs.isFile n || cfg.overwrite) = true ↔ (cfg.overwrite = true ∨ ¬ HasFile fs n) := by
  rw [← isFile_false]
  cases fs.isFile n <;> cases cfg.overwrite <;> simp

theorem check_not (cfg : SamplerCfg V R) (fs : FS R) (n : String) (h : ¬ (!fs.isFile n || cfg.overwrite) = true) : cfg.overwrite = false ∧ HasFile fs n := by
  rw [← isFile_iff]
  revert h
  cases fs.isFile n <;> cases cfg.overwrite <;> simp

theorem procStep_cases {cfg : SamplerCfg V R} {fs0 : FS R} (hN : GoodNames cfg fs0) (f : Nat → Case V → Except String R) (k : Nat) (fs : FS R) (P : Proc V R)
    (htodo : ∀ i ∈ P.todo, i < cfg.plan.length) (hpc : ∀ i n, P.pc.target = some (i, n) → fileOf cfg i = some n ∧ fs n ≠ some .dir) :
    PStep cfg f k fs P (cfg.procStep f k fs P) := by
  unfold SamplerCfg.procStep
  cases hp : P.pc with
  | idle =>
    dsimp only
    cases ht : P.todo with
    | nil => exact .stay hp ht
    | cons i is =>
      have hi := htodo i (by rw [ht]; exact List.mem_cons_self)
      dsimp only
      rw [if_pos hi.le, List.getElem?_eq_getElem hi]
      obtain ⟨id, hid⟩ := hN.hasId _ (List.getElem_mem hi)
      dsimp only
      rw [caseId_eq, hid]
      dsimp only
      have hf : fileOf cfg i = some (sampleFile cfg.dir cfg.sampleName cfg.mat id) := fileOf_eq.2 ⟨_, id, List.getElem?_eq_getElem hi, hid, rfl⟩
      split_ifs with hc
      · rw [dictDel_id]
        exact .start i is _ _ hp ht hf (List.getElem?_eq_getElem hi) ((check_iff cfg fs _).1 hc)
      · obtain ⟨h1, h2⟩ := check_not cfg fs _ hc
        have := PStep.skip (f := f) (k := k) i is _ hp ht hf h1 h2
        rw [hp] at this
        exact this
  | calling i c n =>
    dsimp only
    cases hf : f k c with
    | error e => exact .fail i c n e hp hf
    | ok r => exact .ret i c n r hp hf
  | returned i n r =>
    dsimp only
    split_ifs with hc
    · exact .save i n r hp ((check_iff cfg fs _).1 hc)
    · obtain ⟨h1, h2⟩ := check_not cfg fs _ hc
      exact .drop i n r hp h1 h2
  | saving i n r =>
    obtain ⟨hf, hd⟩ := hpc i n (by rw [hp]; rfl)
    dsimp only
    rw [fileOf_saved hN hf]
    cases hfs : fs n with
    | none => exact .opens i n r hp
    | some e =>
      cases e with
      | dir => exact absurd hfs hd
      | file o => exact .opens i n r hp
  | opened i n r => exact .dump i n r hp

/-! ## any processes -/

/-- what holds at every moment, also if several processes work at the same case -/
structure LInv (cfg : SamplerCfg V R) (fs0 : FS R) (all : List Nat) (σ : Par V R) : Prop where
  todo : ∀ P ∈ σ.procs, ∀ i ∈ P.todo, i ∈ all
  target : ∀ P ∈ σ.procs, ∀ i n, P.pc.target = some (i, n) → i ∈ all ∧ fileOf cfg i = some n ∧ (cfg.overwrite = false → ¬ HasFile fs0 n)
  others : ∀ n, (∀ i ∈ all, fileOf cfg i ≠ some n) → σ.fs n = fs0 n
  kept : cfg.overwrite = false → ∀ n, HasFile fs0 n → σ.fs n = fs0 n
  mono : ∀ n, HasFile fs0 n → HasFile σ.fs n
  same : ∀ n, σ.fs n = fs0 n ∨ HasFile σ.fs n
  torn : ∀ n, σ.fs n = some (.file none) → fs0 n = some (.file none) ∨ ∃ P ∈ σ.procs, ∃ i r, P.pc = .opened i n r

theorem parStep_eq (cfg : SamplerCfg V R) (f : Nat → Case V → Except String R) (σ : Par V R) (p : Nat) (P : Proc V R) (hP : σ.procs[p]? = some P) :
    cfg.parStep f σ p = { fs := (cfg.procStep f σ.calls.length σ.fs P).2.1, procs := σ.procs.set p (cfg.procStep f σ.calls.length σ.fs P).1, calls := σ.calls ++ (cfg.procStep f σ.calls.length σ.fs P).2.2 } := by
  unfold SamplerCfg.parStep; rw [hP]

theorem parStep_none (cfg : SamplerCfg V R) (f : Nat → Case V → Except String R) (σ : Par V R) (p : Nat) (hP : σ.procs[p]? = none) : cfg.parStep f σ p = σ := by
  unfold SamplerCfg.parStep; rw [hP]

theorem hasFile_put (fs : FS R) (n m : String) (o : Option R) (h : HasFile fs m) : HasFile (fs.put n (.file o)) m := by
  unfold HasFile FS.put
  by_cases hm : m = n
  · exact ⟨o, by rw [if_pos hm]⟩
  · rw [if_neg hm]; exact h

theorem put_same (fs : FS R) (n : String) (e : Entry R) : fs.put n e n = some e := by unfold FS.put; rw [if_pos rfl]
theorem put_other (fs : FS R) {n m : String} (e : Entry R) (h : m ≠ n) : fs.put n e m = fs m := by unfold FS.put; rw [if_neg h]

theorem LInv.cases {cfg : SamplerCfg V R} {fs0 : FS R} (hN : GoodNames cfg fs0) {all : List Nat} (hall : ∀ i ∈ all, i < cfg.plan.length)
    {f : Nat → Case V → Except String R} {σ : Par V R} (h : LInv cfg fs0 all σ) {P : Proc V R} (hP : P ∈ σ.procs) (k : Nat) :
    PStep cfg f k σ.fs P (cfg.procStep f k σ.fs P) := by
  refine procStep_cases hN f k σ.fs P (fun i hi => hall i (h.todo P hP i hi)) fun i n ht => ?_
  obtain ⟨-, h2, -⟩ := h.target P hP i n ht
  refine ⟨h2, fun hd => ?_⟩
  rcases h.same n with e | ⟨o, e⟩
  · exact fileOf_noDir hN h2 (e ▸ hd)
  · rw [e] at hd; cases hd

/-- writing one of the files -/
theorem LInv.write {cfg : SamplerCfg V R} {fs0 : FS R} {all : List Nat} {σ : Par V R} (h : LInv cfg fs0 all σ) {i : Nat} {n : String} (hi : i ∈ all)
    (hf : fileOf cfg i = some n) (ho : cfg.overwrite = false → ¬ HasFile fs0 n) (o : Option R) :
    (∀ m, (∀ i ∈ all, fileOf cfg i ≠ some m) → σ.fs.put n (.file o) m = fs0 m) ∧
    (cfg.overwrite = false → ∀ m, HasFile fs0 m → σ.fs.put n (.file o) m = fs0 m) ∧
    (∀ m, HasFile fs0 m → HasFile (σ.fs.put n (.file o)) m) ∧ ∀ m, σ.fs.put n (.file o) m = fs0 m ∨ HasFile (σ.fs.put n (.file o)) m := by
  refine ⟨fun m hm => ?_, fun hov m hm => ?_, fun m hm => hasFile_put _ _ _ _ (h.mono m hm), fun m => ?_⟩
  · rw [put_other _ _ (fun e => hm i hi (by rw [e]; exact hf))]; exact h.others m hm
  · rw [put_other _ _ (fun e => ho hov (by rw [← e]; exact hm))]; exact h.kept hov m hm
  · by_cases hm : m = n
    · subst hm; exact Or.inr ⟨o, put_same _ _ _⟩
    · rw [put_other _ _ hm]
      exact (h.same m).imp_right (hasFile_put _ _ _ _)

theorem mem_set_cases {α : Type} {l : List α} {p : Nat} {a b : α} (h : b ∈ l.set p a) : b = a ∨ b ∈ l := (List.mem_or_eq_of_mem_set h).symm

theorem mem_set_self' {α : Type} {l : List α} {p : Nat} {a : α} {x : α} (h : l[p]? = some x) : a ∈ l.set p a := by
  obtain ⟨hp, -⟩ := List.getElem?_eq_some_iff.1 h
  exact List.mem_set hp a

theorem mem_set_ne {α : Type} {l : List α} {p : Nat} {a b x : α} (h : l[p]? = some x) (hb : b ∈ l) (hne : b ≠ x) : b ∈ l.set p a := by
  obtain ⟨j, hj, rfl⟩ := List.mem_iff_getElem.1 hb
  have hjp : p ≠ j := by
    rintro rfl
    rw [List.getElem?_eq_getElem hj] at h
    exact hne (Option.some.inj h)
  exact List.mem_iff_getElem.2 ⟨j, by simpa using hj, by rw [List.getElem_set_ne hjp]⟩

theorem linv_step {cfg : SamplerCfg V R} {fs0 : FS R} (hN : GoodNames cfg fs0) {all : List Nat} (hall : ∀ i ∈ all, i < cfg.plan.length)
    (f : Nat → Case V → Except String R) (σ : Par V R) (p : Nat) (h : LInv cfg fs0 all σ) : LInv cfg fs0 all (cfg.parStep f σ p) := by
  cases hp : σ.procs[p]? with
  | none => rw [parStep_none cfg f σ p hp]; exact h
  | some P =>
    have hP : P ∈ σ.procs := List.mem_of_getElem? hp
    rw [parStep_eq cfg f σ p P hp]
    have hs := h.cases hN hall (f := f) hP σ.calls.length
    generalize cfg.procStep f σ.calls.length σ.fs P = s at hs
    have ht := h.todo P hP
    have hta := h.target P hP
    -- the same file system, a process that is not writing before or after
    have quiet : ∀ P' : Proc V R, (∀ i ∈ P'.todo, i ∈ all) →
        (∀ i n, P'.pc.target = some (i, n) → i ∈ all ∧ fileOf cfg i = some n ∧ (cfg.overwrite = false → ¬ HasFile fs0 n)) →
        (∀ i n r, P.pc ≠ .opened i n r) → ∀ cs, LInv cfg fs0 all { fs := σ.fs, procs := σ.procs.set p P', calls := cs } := by
      intro P' h1 h2 h3 cs
      refine ⟨fun Q hQ => ?_, fun Q hQ => ?_, h.others, h.kept, h.mono, h.same, fun n hn => ?_⟩
      · rcases mem_set_cases hQ with rfl | hQ
        · exact h1
        · exact h.todo Q hQ
      · rcases mem_set_cases hQ with rfl | hQ
        · exact h2
        · exact h.target Q hQ
      · refine (h.torn n hn).imp_right ?_
        rintro ⟨Q, hQ, i, r, hr⟩
        exact ⟨Q, mem_set_ne hp hQ (fun e => h3 i n r (e ▸ hr)), i, r, hr⟩
    cases hs with
    | stay h1 h2 =>
      exact quiet P ht hta (fun i n r e => by rw [h1] at e; cases e) _
    | skip i is n h1 h2 h3 h4 h5 =>
      exact quiet { P with todo := is } (fun j hj => ht j (by rw [h2]; exact List.mem_cons_of_mem _ hj)) (fun j m hj => hta j m hj) (fun i n r e => by rw [h1] at e; cases e) _
    | start i is n c h1 h2 h3 h4 h5 =>
      refine quiet { P with todo := is, pc := .calling i (arguments c) n } (fun j hj => ht j (by rw [h2]; exact List.mem_cons_of_mem _ hj)) (fun j m hj => ?_) (fun i n r e => by rw [h1] at e; cases e) _
      cases hj
      refine ⟨ht i (by rw [h2]; exact List.mem_cons_self), h3, fun hov hf => ?_⟩
      rcases h5 with h5 | h5
      · rw [hov] at h5; cases h5
      · exact h5 (h.mono _ hf)
    | fail i c n e h1 h2 =>
      exact quiet (.raise e) (fun j hj => by cases hj) (fun j m hj => by cases hj) (fun i n r e => by rw [h1] at e; cases e) _
    | ret i c n r h1 h2 =>
      refine quiet { P with pc := .returned i n r } ht (fun j m hj => hta j m ?_) (fun i n r e => by rw [h1] at e; cases e) _
      rw [h1]; exact hj
    | drop i n r h1 h2 h3 =>
      exact quiet { P with pc := .idle } ht (fun j m hj => by cases hj) (fun i n r e => by rw [h1] at e; cases e) _
    | save i n r h1 h2 =>
      refine quiet { P with pc := .saving i n r } ht (fun j m hj => hta j m ?_) (fun i n r e => by rw [h1] at e; cases e) _
      rw [h1]; exact hj
    | opens i n r h1 =>
      obtain ⟨t1, t2, t3⟩ := hta i n (by rw [h1]; rfl)
      obtain ⟨w1, w2, w3, w4⟩ := h.write t1 t2 t3 none
      refine ⟨fun Q hQ => ?_, fun Q hQ => ?_, w1, w2, w3, w4, fun m hm => ?_⟩
      · rcases mem_set_cases hQ with rfl | hQ
        · exact ht
        · exact h.todo Q hQ
      · rcases mem_set_cases hQ with rfl | hQ
        · intro j m hj
          cases hj
          exact ⟨t1, t2, t3⟩
        · exact h.target Q hQ
      · by_cases hmn : m = n
        · subst hmn
          exact Or.inr ⟨_, mem_set_self' hp, i, r, rfl⟩
        · have hm : σ.fs.put n (.file none) m = _ := hm
          rw [put_other _ _ hmn] at hm
          refine (h.torn m hm).imp_right ?_
          rintro ⟨Q, hQ, j, r', hr⟩
          exact ⟨Q, mem_set_ne hp hQ (fun e => by rw [e, h1] at hr; cases hr), j, r', hr⟩
    | dump i n r h1 =>
      obtain ⟨t1, t2, t3⟩ := hta i n (by rw [h1]; rfl)
      obtain ⟨w1, w2, w3, w4⟩ := h.write t1 t2 t3 (some r)
      refine ⟨fun Q hQ => ?_, fun Q hQ => ?_, w1, w2, w3, w4, fun m hm => ?_⟩
      · rcases mem_set_cases hQ with rfl | hQ
        · exact ht
        · exact h.todo Q hQ
      · rcases mem_set_cases hQ with rfl | hQ
        · intro j m hj
          cases hj
        · exact h.target Q hQ
      · by_cases hmn : m = n
        · subst hmn
          have hm : σ.fs.put m (.file (some r)) m = _ := hm
          rw [put_same] at hm
          cases hm
        · have hm : σ.fs.put n (.file (some r)) m = _ := hm
          rw [put_other _ _ hmn] at hm
          refine (h.torn m hm).imp_right ?_
          rintro ⟨Q, hQ, j, r', hr⟩
          exact ⟨Q, mem_set_ne hp hQ (fun e => by rw [e, h1] at hr; cases hr; exact hmn rfl), j, r', hr⟩

theorem linv_start (cfg : SamplerCfg V R) (fs0 : FS R) (todos : List (List Nat)) : LInv cfg fs0 todos.flatten (Par.start (V := V) fs0 todos) := by
  refine ⟨?_, ?_, fun _ _ => rfl, fun _ _ _ => rfl, fun _ h => h, fun _ => Or.inl rfl, fun n h => Or.inl h⟩
  · intro P hP i hi
    obtain ⟨t, ht, rfl⟩ := List.mem_map.1 hP
    exact List.mem_flatten.2 ⟨t, ht, hi⟩
  · intro P hP i n h
    obtain ⟨t, ht, rfl⟩ := List.mem_map.1 hP
    cases h

theorem linv_run {cfg : SamplerCfg V R} {fs0 : FS R} (hN : GoodNames cfg fs0) {all : List Nat} (hall : ∀ i ∈ all, i < cfg.plan.length)
    (f : Nat → Case V → Except String R) (sched : List Nat) : ∀ σ : Par V R, LInv cfg fs0 all σ → LInv cfg fs0 all (cfg.parRun f σ sched) := by
  induction sched with
  | nil => exact fun _ h => h
  | cons p ps ih => exact fun σ h => ih _ (linv_step hN hall f σ p h)

/-- **C106**: whatever the processes are given to do (also the same case several times), in whatever order they make their steps, wherever they are killed, and
whatever the sample function does: only the files of the cases they were given change, no file disappears, existing files are not changed unless `overwrite` is set,
and a file is incomplete only while a process is writing it. -/
theorem C106_files (cfg : SamplerCfg V R) (fs : FS R) (hN : GoodNames cfg fs) (todos : List (List Nat)) (hall : ∀ t ∈ todos, ∀ i ∈ t, i < cfg.plan.length)
    (f : Nat → Case V → Except String R) (sched : List Nat) :
    let σ := cfg.parRun f (Par.start fs todos) sched
    (∀ n, (∀ t ∈ todos, ∀ i ∈ t, fileOf cfg i ≠ some n) → σ.fs n = fs n) ∧ (∀ n, HasFile fs n → HasFile σ.fs n) ∧
    (cfg.overwrite = false → ∀ n, HasFile fs n → σ.fs n = fs n) ∧
    (∀ n, σ.fs n = some (.file none) → fs n = some (.file none) ∨ ∃ P ∈ σ.procs, ∃ i r, P.pc = .opened i n r) := by
  have h := linv_run hN (all := todos.flatten) (fun i hi => by obtain ⟨t, ht, hi⟩ := List.mem_flatten.1 hi; exact hall t ht i hi) f sched _ (linv_start cfg fs todos)
  exact ⟨fun n hn => h.others n fun i hi => by obtain ⟨t, ht, hi⟩ := List.mem_flatten.1 hi; exact hn t ht i hi, h.mono, h.kept, h.torn⟩

end DoMpc
