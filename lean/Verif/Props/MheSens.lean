import Verif.Props.FlatMhe
import Verif.Props.FlatGain
import Verif.Spec.MheSens

set_option linter.unusedSectionVars false
set_option linter.unusedSimpArgs false

/-!
# C101: the sensitivities of a moving horizon estimator
-/
namespace DoMpc
open FlatSpec Diff Diff.Spec Filter Topology
variable {d : Dims} {ne ns : Nat}

/-! ### Changing one block of a structure -/

theorem f_selected (S : SStruct) (hd : Distinct S) (nm : String) (idx : List Int) (ps : List Nat) (hps : S.f nm idx = some ps) :
    S.f nm ((selected S nm idx).map Int.ofNat) = some ps := by
  obtain ⟨e, he, rfl, hin⟩ := (C98_accepted S hd nm idx).1 (by rw [hps]; rfl)
  have hfind : S.find? (·.name = e.name) = some e := by
    rcases hf : S.find? (·.name = e.name) with _ | a
    · rw [List.find?_eq_none] at hf
      exact absurd (rfl : e.name = e.name) (by simpa using hf e he)
    · rw [hf, List.inj_on_of_nodup_map hd (List.mem_of_find?_eq_some hf) he (by simpa using List.find?_some hf)]
  have hsel : selected S e.name idx = List.zipWith counted e.rep idx := by
    unfold selected
    rw [hfind]
  rw [← hps]
  unfold SStruct.f
  rcases hq : S.find e.name with _ | t
  · rfl
  · have hte : t.2 = e := by
      have := (find_spec S e.name).1 t hq
      rw [hfind] at this
      exact (Option.some.inj this).symm
    simp only [Option.bind_some, hte]
    have hrav : ravel e.rep ((selected S e.name idx).map Int.ofNat) = ravel e.rep idx := by
      rw [hsel]
      have : ∀ ns is, List.Forall₂ InRange ns is → ravel ns ((List.zipWith counted ns is).map Int.ofNat) = ravel ns is := by
        intro ns is h
        induction h with
        | nil => rfl
        | cons h1 _ ih =>
          rename_i n i _ _ _
          obtain ⟨ha, hb⟩ := h1
          rw [List.zipWith_cons_cons, List.map_cons, ravel, ravel, ih]
          have : pyPos n (Int.ofNat (counted n i)) = pyPos n i := by
            unfold pyPos counted
            simp only [Int.ofNat_eq_natCast]
            split_ifs <;> first | omega | (congr 1)
          rw [this]
      exact this _ _ hin
    rw [hrav]

/-- Blocks that differ only in one block have flat vectors that differ only in its positions. -/
theorem cat_off_block {α : Type} (S : SStruct) (hd : Distinct S) (v v' : String → List Nat → List α) (hv : Fits S v) (hv' : Fits S v') (nm : String) (idx : List Int)
    (ps : List Nat) (hps : S.f nm idx = some ps) (hsame : ∀ nm' i, ¬ (nm' = nm ∧ i = selected S nm idx) → v nm' i = v' nm' i) (p : Nat) (hp : p ∉ ps) :
    (S.cat v)[p]? = (S.cat v')[p]? := by
  by_cases hlt : p < S.size
  · obtain ⟨nm', idx', ps', hps', hmem⟩ := (C98_cover S hd p).1 hlt
    have h1 := C98_read S v hv nm' idx' ps' hps'
    have h2 := C98_read S v' hv' nm' idx' ps' hps'
    have hne : ¬ (nm' = nm ∧ selected S nm' idx' = selected S nm idx) := by
      rintro ⟨rfl, he⟩
      have a := f_selected S hd nm' idx ps hps
      have b := f_selected S hd nm' idx' ps' hps'
      rw [he, a] at b
      exact hp (Option.some.inj b ▸ hmem)
    rw [hsame _ _ hne, ← h2] at h1
    obtain ⟨j, hj⟩ := List.mem_iff_getElem?.1 hmem
    have := congrArg (fun l => l[j]?) h1
    simp only [List.getElem?_map, hj, Option.map_some] at this
    exact Option.some.inj this
  · rw [List.getElem?_eq_none (by rw [cat_length S v hv]; omega), List.getElem?_eq_none (by rw [cat_length S v' hv']; omega)]

theorem f_nodup (S : SStruct) (nm : String) (idx : List Int) (ps : List Nat) (h : S.f nm idx = some ps) : ps.Nodup := by
  unfold SStruct.f at h
  rcases hq : S.find nm with _ | t
  · rw [hq] at h; cases h
  · rw [hq] at h
    simp only [Option.bind_some] at h
    rcases hr : ravel t.2.rep idx with _ | r
    · rw [hr] at h; cases h
    · rw [hr] at h
      obtain rfl := Option.some.inj h
      exact List.nodup_range.map fun a b hab => by
        have : t.1 + r * t.2.sub.size + a = t.1 + r * t.2.sub.size + b := hab
        omega

/-- the direction of a change of one block of the parameters -/
noncomputable def blockDir (n m : Nat) (ps : List Nat) : (Fin m → ℝ) →L[ℝ] (Fin n → ℝ) :=
  ContinuousLinearMap.pi fun k => ∑ b : Fin m, if ps[(b : Nat)]? = some (k : Nat) then ContinuousLinearMap.proj (R := ℝ) (φ := fun _ : Fin m => ℝ) b else 0

theorem blockDir_apply (n m : Nat) (ps : List Nat) (η : Fin m → ℝ) (k : Fin n) :
    blockDir n m ps η k = ∑ b : Fin m, if ps[(b : Nat)]? = some (k : Nat) then η b else 0 := by
  unfold blockDir
  rw [ContinuousLinearMap.coe_pi']
  dsimp only
  rw [ContinuousLinearMap.sum_apply]
  refine Finset.sum_congr rfl fun b _ => ?_
  split_ifs <;> rfl

theorem blockDir_single (n m : Nat) (ps : List Nat) (hl : ps.length = m) (b : Fin m) (hlt : ps[(b : Nat)]'(by omega) < n) :
    blockDir n m ps (Pi.single b 1) = Pi.single (⟨ps[(b : Nat)]'(by omega), hlt⟩ : Fin n) 1 := by
  funext k
  rw [blockDir_apply]
  have : ∀ b' : Fin m, (if ps[(b' : Nat)]? = some (k : Nat) then (Pi.single b (1 : ℝ) : Fin m → ℝ) b' else 0) =
      if b' = b then (if ps[(b : Nat)]? = some (k : Nat) then 1 else 0) else 0 := by
    intro b'
    by_cases h : b' = b
    · subst h; simp
    · rw [if_neg h, Pi.single_eq_of_ne h]; simp
  rw [Finset.sum_congr rfl fun b' _ => this b', Finset.sum_ite_eq' Finset.univ b, if_pos (Finset.mem_univ _), List.getElem?_eq_getElem (by omega), Pi.single_apply]
  simp only [Option.some.injEq, Fin.ext_iff]
  exact if_congr ⟨fun h => h.symm, fun h => h.symm⟩ rfl rfl

/-- the flat vector as a function of one block -/
theorem hasFDerivAt_block (S : SStruct) (hd : Distinct S) (n m : Nat) (v : (Fin m → ℝ) → String → List Nat → List ℝ) (hv : ∀ η, Fits S (v η)) (nm : String) (idx : List Int)
    (ps : List Nat) (hps : S.f nm idx = some ps) (hoff : ∀ η η' nm' i, ¬ (nm' = nm ∧ i = selected S nm idx) → v η nm' i = v η' nm' i)
    (hon : ∀ η, v η nm (selected S nm idx) = List.ofFn η) (η : Fin m → ℝ) :
    HasFDerivAt (fun η => toFin n fun i => (S.cat (v η)).getD i 0) (blockDir n m ps) η := by
  have hl : ps.length = m := by
    have := congrArg List.length (C98_read S (v η) (hv η) nm idx ps hps)
    rw [hon, List.length_map, List.length_map, List.length_ofFn] at this
    exact this
  have haff : (fun η => toFin n fun i => (S.cat (v η)).getD i 0) = fun η => blockDir n m ps η + toFin n fun i => (S.cat (v 0)).getD i 0 := by
    funext η k
    rw [Pi.add_apply, blockDir_apply]
    show (S.cat (v η)).getD k 0 = _ + (S.cat (v 0)).getD k 0
    by_cases hk : (k : Nat) ∈ ps
    · obtain ⟨b, hb, hbk⟩ := List.mem_iff_getElem.1 hk
      have hone : ∀ ξ : Fin m → ℝ, (S.cat (v ξ)).getD k 0 = ξ ⟨b, by omega⟩ := by
        intro ξ
        have := congrArg (fun l => l[b]?) (C98_read S (v ξ) (hv ξ) nm idx ps hps)
        simp only [hon, List.getElem?_map, List.getElem?_eq_getElem hb, hbk, Option.map_some] at this
        rw [List.getElem?_eq_getElem (l := List.ofFn ξ) (by rw [List.length_ofFn]; omega), List.getElem_ofFn] at this
        rw [List.getD_eq_getElem?_getD, Option.some.inj this]
        rfl
      rw [hone, hone]
      have : ∀ b' : Fin m, (if ps[(b' : Nat)]? = some (k : Nat) then η b' else 0) = if b' = ⟨b, by omega⟩ then η ⟨b, by omega⟩ else 0 := by
        intro b'
        rw [List.getElem?_eq_getElem (by omega)]
        by_cases h : b' = ⟨b, by omega⟩
        · subst h
          rw [if_pos (congrArg some hbk), if_pos rfl]
        · rw [if_neg h, if_neg]
          intro e
          refine h (Fin.ext ?_)
          exact (List.Nodup.getElem_inj_iff (f_nodup S nm idx ps hps)).1 ((Option.some.inj e).trans hbk.symm)
      rw [Finset.sum_congr rfl fun b' _ => this b', Finset.sum_ite_eq' Finset.univ, if_pos (Finset.mem_univ _)]
      simp
    · have : ∀ b' : Fin m, (if ps[(b' : Nat)]? = some (k : Nat) then η b' else 0) = 0 := by
        intro b'
        rw [if_neg]
        intro e
        exact hk (List.mem_of_getElem? e)
      rw [Finset.sum_congr rfl fun b' _ => this b', Finset.sum_const_zero, zero_add, List.getD_eq_getElem?_getD, List.getD_eq_getElem?_getD,
        cat_off_block S hd (v η) (v 0) (hv η) (hv 0) nm idx ps hps (hoff η 0) k hk]
  rw [haff]
  exact (blockDir n m ps).hasFDerivAt.add_const _

/-! ### Solutions of the estimation problem solve the NLP -/

/-- the parameters of the estimator as the vector of the NLP -/
def mheParams (cfg : MheCfg ℝ d ne ns) (V : MheNames) (n : Nat) (q : MheP ℝ d ne ns) : Fin n → ℝ := toFin n fun i => (cfg.catP V q).getD i 0

/-- a solution as the vector of the NLP -/
def mheSol (cfg : MheCfg ℝ d ne ns) (V : MheNames) (n : Nat) (w : MheX ℝ d ne) : Fin n → ℝ := toFin n fun i => (cfg.catX V w).getD i 0

section Min
variable (cfg : MheCfg ℝ d ne ns) (V : MheNames) (hV : OkMhe V d ne ns) (hn : (cfg.nl.map (·.name)).Nodup) (N : Nlp ℝ)
  (grad : (Fin N.nx → ℝ) × (Fin N.ng → ℝ) × (Fin N.np → ℝ) → Fin N.nx → ℝ) (g : (Fin N.nx → ℝ) × (Fin N.np → ℝ) → Fin N.ng → ℝ)
  (hN : IsNlpOfMhe cfg V N grad g)
include hN

theorem mhe_admissible_iff (x : Fin N.nx → ℝ) (p : Fin N.np → ℝ) : Admissible N g x p ↔ cfg.FlatFeasible V (ofFin x) (ofFin p) := by
  have hlow : ∀ (o : Option ℝ) (y : ℝ), (∀ b, o = some b → b ≤ y) ↔ (lowerBound o).le y := by
    intro o y
    rcases o with _ | b
    · exact ⟨fun _ => trivial, fun _ b hb => (by cases hb)⟩
    · exact ⟨fun h => h b rfl, fun h b' hb => Option.some.inj hb ▸ h⟩
  have hup : ∀ (o : Option ℝ) (y : ℝ), (∀ b, o = some b → y ≤ b) ↔ (upperBound o).ge y := by
    intro o y
    rcases o with _ | b
    · exact ⟨fun _ => trivial, fun _ b hb => (by cases hb)⟩
    · exact ⟨fun h => h b rfl, fun h b' hb => Option.some.inj hb ▸ h⟩
  constructor
  · intro h
    refine ⟨_, hN.rows x p, fun r hr => ?_, fun i hi => ?_⟩
    · obtain ⟨c, rfl⟩ := List.mem_ofFn.1 hr
      exact ⟨(hlow _ _).1 (h.lowerG c), (hup _ _).1 (h.upperG c)⟩
    · rw [← hN.nx] at hi
      rw [hN.lbx, hN.ubx, getD_map_range _ _ _ hi, getD_map_range _ _ _ hi, ofFin_val _ _ hi]
      exact ⟨(hlow _ _).1 (h.lowerX ⟨i, hi⟩), (hup _ _).1 (h.upperX ⟨i, hi⟩)⟩
  · rintro ⟨rs, hrs, h1, h2⟩
    rw [hN.rows] at hrs
    obtain rfl := Except.ok.inj hrs
    have h1' : ∀ c : Fin N.ng, (lowerBound (N.lbg c)).le (g (x, p) c) ∧ (upperBound (N.ubg c)).ge (g (x, p) c) := fun c => h1 _ (List.mem_ofFn.2 ⟨c, rfl⟩)
    have h2' : ∀ i : Fin N.nx, (lowerBound (N.lbx i)).le (x i) ∧ (upperBound (N.ubx i)).ge (x i) := by
      intro i
      have := h2 i (by rw [← hN.nx]; exact i.2)
      rw [hN.lbx, hN.ubx, getD_map_range _ _ _ i.2, getD_map_range _ _ _ i.2, ofFin_val _ _ i.2] at this
      exact this
    exact ⟨fun c => (hlow _ _).2 (h1' c).1, fun c => (hup _ _).2 (h1' c).2, fun i => (hlow _ _).2 (h2' i).1, fun i => (hup _ _).2 (h2' i).2⟩

/-- the cost of the NLP -/
noncomputable def mheNlpCost (cfg : MheCfg ℝ d ne ns) (V : MheNames) (N : Nlp ℝ) : (Fin N.nx → ℝ) × (Fin N.np → ℝ) → ℝ :=
  fun z => cfg.flatObj V (ofFin z.1) (ofFin z.2)

theorem mhe_lagrangian_of (x l p : Nat → ℝ) (hz : ∀ z (i : Fin N.nx), N.depX i = false → grad z i = 0) : LagrangianOf N (mheNlpCost cfg V N) g grad x l p := by
  refine ⟨Eventually.of_forall fun z => hN.grad z.1 z.2.1 z.2.2, fun y y' q hy => ?_⟩
  set φ : ℝ → ℝ := fun t => mheNlpCost cfg V N (y' + t • (y - y'), q) with hφ
  have hd : ∀ t, HasDerivAt φ 0 t := by
    intro t
    obtain ⟨D, h1, h2⟩ := hN.grad (y' + t • (y - y')) 0 q
    have hline : HasDerivAt (fun t : ℝ => y' + t • (y - y')) (y - y') t := by
      simpa using ((hasDerivAt_id t).smul_const (y - y')).const_add y'
    have := HasFDerivAt.comp_hasDerivAt (f := fun t : ℝ => y' + t • (y - y')) t h1 hline
    rw [h2] at this
    have h0 : ∑ i, grad (y' + t • (y - y'), 0, q) i * (y - y') i = 0 := by
      refine Finset.sum_eq_zero fun i _ => ?_
      by_cases hdp : N.depX i = true
      · rw [Pi.sub_apply, hy i hdp, sub_self, mul_zero]
      · rw [hz _ i (by simpa using hdp), zero_mul]
    rw [h0] at this
    have he : ((fun x => cfg.flatObj V (ofFin x) (ofFin q) + ∑ c, (0 : Fin N.ng → ℝ) c * g (x, q) c) ∘ fun t : ℝ => y' + t • (y - y')) = φ := by
      funext t
      simp [hφ, mheNlpCost]
    rwa [he] at this
  have := is_const_of_deriv_eq_zero (fun t => (hd t).differentiableAt) (fun t => (hd t).deriv) 1 0
  simpa [hφ] using this

include hV in
theorem ofFin_mheParams (Q : MheP ℝ d ne ns) : ofFin (mheParams cfg V N.np Q) = fun i => (cfg.catP V Q).getD i 0 := by
  funext i
  by_cases hi : i < N.np
  · rw [ofFin_val _ _ hi]; rfl
  · have hl : (cfg.catP V Q).length = N.np := (cat_length _ _ (mheP_fits cfg V hV Q)).trans hN.np.symm
    simp [ofFin, hi, List.getD_eq_getElem?_getD, List.getElem?_eq_none (show (cfg.catP V Q).length ≤ i by omega)]

include hV in
theorem ofFin_mheSol (w : MheX ℝ d ne) : ofFin (mheSol cfg V N.nx w) = fun i => (cfg.catX V w).getD i 0 := by
  funext i
  by_cases hi : i < N.nx
  · rw [ofFin_val _ _ hi]; rfl
  · have hl : (cfg.catX V w).length = N.nx := (cat_length _ _ (mheX_fits cfg V hV w)).trans hN.nx.symm
    simp [ofFin, hi, List.getD_eq_getElem?_getD, List.getElem?_eq_none (show (cfg.catX V w).length ≤ i by omega)]

include hV hn in
/-- solutions of the estimation problem solve the NLP -/
theorem mhe_minimiser_of (hI : OwnPoints cfg.ifcn) (w : MheX ℝ d ne) (Q : MheP ℝ d ne ns) (hw : SolvesMhe cfg w Q) :
    Minimiser N (mheNlpCost cfg V N) g (mheSol cfg V N.nx w) (mheParams cfg V N.np Q) := by
  have hs := C100_same_problem cfg V hV hn hI w Q
  have hq := C100_opt_p_round_trip cfg V hV Q
  have hff : cfg.FlatFeasible V (ofFin (mheSol cfg V N.nx w)) (ofFin (mheParams cfg V N.np Q)) := by
    rw [ofFin_mheSol cfg V hV N grad g hN, ofFin_mheParams cfg V hV N grad g hN]
    exact hs.1.2 hw.1
  refine ⟨(mhe_admissible_iff cfg V N grad g hN _ _).2 hff, fun x' hx' => ?_⟩
  have hx := (mhe_admissible_iff cfg V N grad g hN _ _).1 hx'
  rw [ofFin_mheParams cfg V hV N grad g hN, C100_flat_feasible cfg V hV hn] at hx
  show cfg.flatObj V (ofFin (mheSol cfg V N.nx w)) (ofFin (mheParams cfg V N.np Q)) ≤ cfg.flatObj V (ofFin x') (ofFin (mheParams cfg V N.np Q))
  rw [ofFin_mheSol cfg V hV N grad g hN, ofFin_mheParams cfg V hV N grad g hN, hs.2]
  refine (hw.2 _ ((mhe_feasible_congr cfg hn hI _ _ _ _ (SameMheX.rfl cfg _) hq).1 hx)).trans (le_of_eq ?_)
  exact (C100_obj_congr cfg hn _ _ _ _ (SameMheX.rfl cfg (cfg.ofX V (ofFin x'))) hq).symm

end Min

/-! ### The theorems -/

section Sens
variable (cfg : MheCfg ℝ d ne ns) (V : MheNames) (hV : OkMhe V d ne ns) (hn : (cfg.nl.map (·.name)).Nodup) (hI : OwnPoints cfg.ifcn)
  (N : Nlp ℝ) (hdep : DependsCorrect N) (S : Settings ℝ) (ht : 0 < S.tol)
  (C : Checks) (lin lstsq : LinSolver ℝ) (hlin : Solves lin) (hcomp : Complete lin) (hls : S.lstsqFallback = true → Solves lstsq) (s : Sol ℝ) (Q : MheP ℝ d ne ns)
  (st st' : Status ℝ) (o o' : Out ℝ) (h : differentiateSt N S C lin lstsq s (cfg.catP V Q) st = (.ok o, st'))
  (hdo : doDifferentiate N (cfg.scalingFlat V) S lin lstsq s (cfg.catP V Q) = .ok o') (hCl : C.licq = true) (hCs : C.sc = true)
  (hlicq : st'.licq = some true) (hsc : st'.sc = some true)
  (h2 : SecondOrder N s.x s.lamG (fun i => (cfg.catP V Q).getD i 0) (fun c => AtBound S.tol (s.g c) (N.lbg c) (N.ubg c))
    (fun i => AtBound S.tol (s.x i) (N.lbx i) (N.ubx i)))
  (grad : (Fin N.nx → ℝ) × (Fin N.ng → ℝ) × (Fin N.np → ℝ) → Fin N.nx → ℝ) (g : (Fin N.nx → ℝ) × (Fin N.np → ℝ) → Fin N.ng → ℝ)
  (hN : IsNlpOfMhe cfg V N grad g) (hS : Smooth N grad g s.x s.lamG (fun i => (cfg.catP V Q).getD i 0))
  (hg0 : g (toFin _ s.x, mheParams cfg V _ Q) = toFin _ s.g)
  (hk0 : KktPoint N grad g (toFin _ s.x) (toFin _ s.lamG) (toFin _ s.lamX) (mheParams cfg V _ Q))
include hV hn hI hdep ht hlin hcomp hls h hdo hCl hCs hlicq hsc h2 hN hS hg0 hk0

/-- the derivative along a change of the parameters -/
theorem mhe_along {E : Type} [NormedAddCommGroup E] [NormedSpace ℝ E] (R : E → MheP ℝ d ne ns) (e0 : E) (hR0 : mheParams cfg V N.np (R e0) = mheParams cfg V N.np Q)
    (P : E →L[ℝ] (Fin N.np → ℝ)) (hP : HasFDerivAt (fun e => mheParams cfg V N.np (R e)) P e0) (W : E → MheX ℝ d ne) (hW : ∀ᶠ e in 𝓝 e0, SolvesMhe cfg (W e) (R e))
    (hW0 : ∀ i : Fin N.nx, N.depX i = true → (cfg.catX V (W e0)).getD i 0 = s.x i)
    (hWc : ∀ i : Fin N.nx, N.depX i = true → ContinuousAt (fun e => (cfg.catX V (W e)).getD i 0) e0) (i : Fin N.nx) (hi : N.depX i = true) :
    ∃ D : (Fin N.np → ℝ) →L[ℝ] ℝ, (∀ k : Fin N.np, o'.dx i k = some (D (Pi.single k 1))) ∧
      HasFDerivAt (fun e => (cfg.catX V (cfg.unscaled (W e))).getD i 0) (D.comp P) e0 := by
  obtain ⟨D, hDk, hD⟩ := C59_solution_along_partial N hdep S ht C lin lstsq hlin hcomp hls s (cfg.catP V Q) st st' o h hCl hCs hlicq hsc h2 (mheNlpCost cfg V N) grad g hS
    (mhe_lagrangian_of cfg V N grad g hN _ _ _ hS.gradZero) hg0 hk0 (fun e => mheParams cfg V N.np (R e)) e0 P hP hR0 (fun e => mheSol cfg V N.nx (W e)) hW0 hWc
    (hW.mono fun e he => mhe_minimiser_of cfg V hV hn N grad g hN hI _ _ he) i hi
  refine ⟨cfg.scalingFlat V i • D, fun k => ?_, ?_⟩
  · obtain ⟨hdi, -⟩ := differentiateSt_ok N S C lin lstsq s (cfg.catP V Q) st st' o h
    unfold doDifferentiate at hdo
    rw [hdi] at hdo
    obtain rfl := Except.ok.inj hdo
    show ((o.dx i k).map (cfg.scalingFlat V i * ·)) = _
    rw [hDk k]
    rfl
  · refine (hD.const_mul (cfg.scalingFlat V i)).congr_of_eventuallyEq (Eventually.of_forall fun e => ?_)
    show (cfg.catX V (cfg.unscaled (W e))).getD i 0 = cfg.scalingFlat V i * (cfg.catX V (W e)).getD i 0
    rw [C100_unscaled cfg V hV hn _ _ (by rw [← hN.nx]; exact i.2), mul_comm]

/-- **C101**: `sens_num`.  Let the solver return for all parameters `q` close to the present ones a solution `W q` of the estimation problem that depends
continuously on them (in the variables that occur).  Then the entries of `sens_num["dxdp", indexf[qx], indexf[qp]]` are the derivatives of the numbers that the power
index `qx` reads in the unscaled solution with respect to the parameters that `qp` reads. -/
theorem C101_sens_num (W : (Fin N.np → ℝ) → MheX ℝ d ne)
    (hW : ∀ᶠ q in 𝓝 (mheParams cfg V N.np Q), SolvesMhe cfg (W q) (cfg.ofP V (ofFin q)))
    (hW0 : ∀ i : Fin N.nx, N.depX i = true → (cfg.catX V (W (mheParams cfg V N.np Q))).getD i 0 = s.x i)
    (hWc : ∀ i : Fin N.nx, N.depX i = true → ContinuousAt (fun q => (cfg.catX V (W q)).getD i 0) (mheParams cfg V N.np Q))
    (nx : String) (ix : List Int) (np : String) (ip : List Int) (ps qs : List Nat) (hps : (cfg.optX V).f nx ix = some ps)
    (hqs : (cfg.optP V).f np ip = some qs) (hocc : ∀ i ∈ ps, N.depX i = true) :
    ∃ M, sensNum (cfg.optX V) (cfg.optP V) o'.dx nx ix np ip = some M ∧ M.length = ps.length ∧ ∀ a (ha : a < ps.length) (hm : a < M.length), M[a].length = qs.length ∧
      ∃ D : (Fin N.np → ℝ) →L[ℝ] ℝ, HasFDerivAt (fun q => (cfg.catX V (cfg.unscaled (W q))).getD ps[a] 0) D (mheParams cfg V N.np Q) ∧
        ∀ b (hb : b < qs.length) (hm' : b < M[a].length) (hq : qs[b] < N.np), M[a][b] = some (D (Pi.single ⟨qs[b], hq⟩ 1)) := by
  have hqq : ∀ q, mheParams cfg V N.np (cfg.ofP V (ofFin q)) = q := by
    intro q
    funext k
    show (cfg.catP V (cfg.ofP V (ofFin q))).getD k 0 = q k
    rw [C100_opt_p_vector cfg V hV, getD_map_range _ _ _ (by rw [← hN.np]; exact k.2), ofFin_val _ _ k.2]
  refine ⟨ps.map fun r => qs.map fun c => o'.dx r c, ?_, by simp, fun a ha hm => ⟨by simp, ?_⟩⟩
  · unfold sensNum
    rw [hps, hqs]
    rfl
  · have hp : ps[a] < N.nx := by
      rw [hN.nx]
      exact f_lt _ (mheX_distinct cfg V) _ _ _ hps _ (List.getElem_mem _)
    obtain ⟨D, hDk, hD⟩ := mhe_along cfg V hV hn hI N hdep S ht C lin lstsq hlin hcomp hls s Q st st' o o' h hdo hCl hCs hlicq hsc h2 grad g hN hS hg0 hk0
      (fun q => cfg.ofP V (ofFin q)) (mheParams cfg V N.np Q) (hqq _) (ContinuousLinearMap.id ℝ _)
      ((hasFDerivAt_id _).congr_of_eventuallyEq (Eventually.of_forall fun q => hqq q)) W hW hW0 hWc ⟨ps[a], hp⟩ (hocc _ (List.getElem_mem _))
    refine ⟨D, by simpa using hD, fun b hb hm' hq => ?_⟩
    simp only [List.getElem_map]
    exact hDk ⟨qs[b], hq⟩

/-- **C101**: the estimator gain.  Let the solver return for all values `η` of the measurement number `k` on the horizon close to the present one a solution
`W η` of the estimation problem that depends continuously on `η` (in the variables that occur).  Then the estimate that `make_step` returns is differentiable in `η`,
and `sens_num["dxdp", indexf["_x", -1, -1], indexf["_y_meas", k]]` is its Jacobian. -/
theorem C101_estimator_gain (k : Int) (hk : InRange cfg.N k) (hocc : ∀ ps, (cfg.optX V).f "_x" [-1, -1] = some ps → ∀ i ∈ ps, N.depX i = true)
    (W : (Fin d.ny → ℝ) → MheX ℝ d ne)
    (hW : ∀ᶠ η in 𝓝 (Q.yMeas (counted cfg.N k)), SolvesMhe cfg (W η) { Q with yMeas := Function.update Q.yMeas (counted cfg.N k) η })
    (hW0 : ∀ i : Fin N.nx, N.depX i = true → (cfg.catX V (W (Q.yMeas (counted cfg.N k)))).getD i 0 = s.x i)
    (hWc : ∀ i : Fin N.nx, N.depX i = true → ContinuousAt (fun η => (cfg.catX V (W η)).getD i 0) (Q.yMeas (counted cfg.N k))) :
    ∃ D : (Fin d.ny → ℝ) →L[ℝ] (Fin d.nx → ℝ), HasFDerivAt (fun η => cfg.xPhys (W η) cfg.N cfg.xLast) D (Q.yMeas (counted cfg.N k)) ∧
      sensNum (cfg.optX V) (cfg.optP V) o'.dx "_x" [-1, -1] "_y_meas" [k] = some (List.ofFn fun i => List.ofFn fun j => some (D (Pi.single j 1) i)) := by
  set y0 := Q.yMeas (counted cfg.N k) with hy0
  have hex : Exists (cfg.optX V) "_x" [-1, -1] :=
    ⟨⟨"_x", [cfg.N + 1, 1 + cfg.ifcn.ncoll], V.x⟩, by simp [MheCfg.optX], rfl, .cons ⟨by push_cast; omega, by push_cast; omega⟩ (.cons ⟨by push_cast; omega, by push_cast; omega⟩ .nil)⟩
  have hey : Exists (cfg.optP V) "_y_meas" [k] := ⟨⟨"_y_meas", [cfg.N], V.y⟩, by simp [MheCfg.optP], rfl, .cons hk .nil⟩
  obtain ⟨ps, hps⟩ := Option.isSome_iff_exists.1 ((C98_accepted _ (mheX_distinct cfg V) _ _).2 hex)
  obtain ⟨qs, hqs⟩ := Option.isSome_iff_exists.1 ((C98_accepted _ (mheP_distinct cfg V) _ _).2 hey)
  have hsx : selected (cfg.optX V) "_x" [-1, -1] = [cfg.N, cfg.xLast] := by
    simp [selected, MheCfg.optX, counted, MheCfg.xLast]
  have hsy : selected (cfg.optP V) "_y_meas" [k] = [counted cfg.N k] := by
    simp [selected, MheCfg.optP]
  have hpl : ps.length = d.nx := by
    have he : (⟨"_x", [cfg.N + 1, 1 + cfg.ifcn.ncoll], V.x⟩ : SEntry) ∈ cfg.optX V := by simp [MheCfg.optX]
    rw [f_length _ (mheX_distinct cfg V) _ he _ ps hps]
    exact hV.x
  have hql : qs.length = d.ny := by
    have he : (⟨"_y_meas", [cfg.N], V.y⟩ : SEntry) ∈ cfg.optP V := by simp [MheCfg.optP]
    rw [f_length _ (mheP_distinct cfg V) _ he _ qs hqs]
    exact hV.y
  have hqlt : ∀ b (hb : b < qs.length), qs[b] < N.np := fun b hb => by
    rw [hN.np]
    exact f_lt _ (mheP_distinct cfg V) _ _ _ hqs _ (List.getElem_mem _)
  set R : (Fin d.ny → ℝ) → MheP ℝ d ne ns := fun η => { Q with yMeas := Function.update Q.yMeas (counted cfg.N k) η } with hR
  have hR0 : R y0 = Q := by
    rw [hR]
    dsimp only
    rw [hy0, Function.update_eq_self]
  have hblock : HasFDerivAt (fun η => mheParams cfg V N.np (R η)) (blockDir N.np d.ny qs) y0 := by
    refine hasFDerivAt_block (cfg.optP V) (mheP_distinct cfg V) N.np d.ny (fun η => (R η).block) (fun η => mheP_fits cfg V hV _) "_y_meas" [k] qs hqs ?_ ?_ y0
    · intro η η' nm' i hne
      rw [hsy] at hne
      unfold MheP.block
      split
      all_goals first | rfl | skip
      rename_i k'
      have hk' : k' ≠ counted cfg.N k := fun e => hne ⟨rfl, by rw [e]⟩
      show List.ofFn (Function.update Q.yMeas (counted cfg.N k) η k') = List.ofFn (Function.update Q.yMeas (counted cfg.N k) η' k')
      rw [Function.update_of_ne hk', Function.update_of_ne hk']
    · intro η
      rw [hsy]
      show List.ofFn (Function.update Q.yMeas (counted cfg.N k) η (counted cfg.N k)) = _
      rw [Function.update_self]
  have key := fun i : Fin d.nx => mhe_along cfg V hV hn hI N hdep S ht C lin lstsq hlin hcomp hls s Q st st' o o' h hdo hCl hCs hlicq hsc h2 grad g hN hS hg0 hk0
    R y0 (by rw [hR0]) _ hblock W hW hW0 hWc
    ⟨ps[(i : Nat)]'(by omega), by rw [hN.nx]; exact f_lt _ (mheX_distinct cfg V) _ _ _ hps _ (List.getElem_mem _)⟩ (hocc ps hps _ (List.getElem_mem _))
  choose D hDk hD using key
  refine ⟨ContinuousLinearMap.pi fun i => (D i).comp (blockDir N.np d.ny qs), ?_, ?_⟩
  · rw [hasFDerivAt_pi]
    intro i
    refine (hD i).congr_of_eventuallyEq (Eventually.of_forall fun η => ?_)
    have hread := C98_read (cfg.optX V) ((cfg.unscaled (W η)).block cfg.nl) (mheX_fits cfg V hV _) "_x" [-1, -1] ps hps
    rw [hsx] at hread
    have := congrArg (fun l => l[(i : Nat)]?) hread
    simp only [List.getElem?_map, List.getElem?_eq_getElem (show (i : Nat) < ps.length by omega), Option.map_some] at this
    rw [show (cfg.unscaled (W η)).block cfg.nl "_x" [cfg.N, cfg.xLast] = List.ofFn (cfg.xPhys (W η) cfg.N cfg.xLast) from rfl,
      List.getElem?_eq_getElem (l := List.ofFn (cfg.xPhys (W η) cfg.N cfg.xLast)) (by rw [List.length_ofFn]; exact i.2), List.getElem_ofFn] at this
    show cfg.xPhys (W η) cfg.N cfg.xLast i = (cfg.catX V (cfg.unscaled (W η))).getD (ps[(i : Nat)]'(by omega)) 0
    rw [List.getD_eq_getElem?_getD, show (cfg.catX V (cfg.unscaled (W η)))[ps[(i : Nat)]'(by omega)]? = _ from Option.some.inj this]
    rfl
  · unfold sensNum
    rw [hps, hqs]
    refine congrArg some (List.ext_getElem (by simp [hpl]) fun a h1 h3 => ?_)
    have ha : a < d.nx := by simpa using h3
    rw [List.getElem_ofFn]
    refine List.ext_getElem (by simp [hql]) fun b h4 h5 => ?_
    have hb : b < d.ny := by simpa using h5
    simp only [List.getElem_map, List.getElem_ofFn]
    rw [hDk ⟨a, ha⟩ ⟨qs[b]'(by omega), hqlt b (by omega)⟩]
    refine congrArg some ?_
    show _ = D ⟨a, ha⟩ (blockDir N.np d.ny qs (Pi.single ⟨b, hb⟩ 1))
    rw [blockDir_single N.np d.ny qs hql ⟨b, hb⟩ (hqlt b (by omega))]

end Sens
end DoMpc
