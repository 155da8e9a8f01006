import Verif.Props.MheOptimal
import Verif.Props.MpcOptimalColl
import Verif.Spec.EstimationColl

/-! # Property C80: what the moving horizon estimator returns for continuous-time models -/
set_option linter.unusedSectionVars false
namespace DoMpc
open Spec Polynomial
variable {K : Type} [Field K] [LinearOrder K] [IsStrictOrderedRing K] {d : Dims} {ne ns : Nat}

/-- The fragment covered: default settings for the collocation points, unscaled estimated parameters, distinct constraint names, positive scalings, a window. -/
structure MheCfg.CollBase (cfg : MheCfg K d ne ns) (deg ni : Nat) (tau : Nat → K) (tStep : K) : Prop where
  setup : setupCollocation cfg.model cfg.sx cfg.su cfg.sz cfg.pScaling deg ni tau tStep = .ok cfg.ifcn
  tau0 : tau 0 = 0
  tauInj : ∀ i ≤ deg, ∀ j ≤ deg, tau i = tau j → i = j
  nlColloc : cfg.nlColloc = false
  consColloc : cfg.consColloc = true
  names : (cfg.nl.map (·.name)).Nodup
  sp : cfg.sp = 1
  sx : ∀ i, 0 < cfg.sx i
  su : ∀ i, 0 < cfg.su i
  sz : ∀ i, 0 < cfg.sz i
  N : 0 < cfg.N

/-- … and the measurements must not depend on the algebraic states: the estimator pairs the state at the end of the interval with the algebraic state at its *beginning*
(`C80_fails_algebraic_measurement`). -/
structure MheCfg.CollPlain (cfg : MheCfg K d ne ns) (deg ni : Nat) (tau : Nat → K) (tStep : K) : Prop extends cfg.CollBase deg ni tau tStep where
  meas : ∀ x u z z' tv p v, cfg.model.meas x u z tv p v = cfg.model.meas x u z' tv p v

/-- The user's task. -/
def MheCfg.collTask (cfg : MheCfg K d ne ns) (deg ni : Nat) (tau : Nat → K) (tStep : K) : CollEstimation K d ne ns :=
  { cfg.task with deg := deg, ni := ni, tau := tau, tStep := tStep }

/-- The explanation a solver's point and polynomials through its states stand for. -/
def MheCfg.explainColl (cfg : MheCfg K d ne ns) (deg : Nat) (o : MheX K d ne) (P : Nat → Nat → Fin d.nx → K[X]) : CollExplanation K d ne :=
  ⟨cfg.X o, cfg.U o, o.w, o.v, cfg.E o, cfg.pEstPhys o, P, fun k i j => cfg.zPhys o k (i * (deg + 1) + j)⟩

/-- The solver's point for an explanation.  The unused points of stage 0 get the first state. -/
noncomputable def MheCfg.encodeColl (cfg : MheCfg K d ne ns) (deg ni : Nat) (tau : Nat → K) (e : CollExplanation K d ne) : MheX K d ne where
  x := fun k i =>
    match k with
    | 0 => e.X 0 / cfg.sx
    | k + 1 => if i + 1 < ni * (deg + 1) then valueAt (e.P k ((i + 1) / (deg + 1))) (tau ((i + 1) % (deg + 1))) / cfg.sx else e.X (k + 1) / cfg.sx
  z := fun k i => e.ζ k (i / (deg + 1)) (i % (deg + 1)) / cfg.sz
  u := fun k => e.U k / cfg.su
  w := e.W
  v := e.V
  eps := e.E
  pEst := e.p / cfg.sp

section
variable {cfg : MheCfg K d ne ns} {deg ni : Nat} {tau : Nat → K} {tStep : K}

theorem MheCfg.CollBase.ni_pos (h : cfg.CollBase deg ni tau tStep) : 0 < ni := (setupCollocation_ok cfg.model _ _ _ _ deg ni tau tStep cfg.ifcn h.setup).1
theorem MheCfg.CollBase.ncoll (h : cfg.CollBase deg ni tau tStep) : cfg.ifcn.ncoll = ni * (deg + 1) := by
  rw [(setupCollocation_ok cfg.model _ _ _ _ deg ni tau tStep cfg.ifcn h.setup).2.1, Nat.mul_comm]

/-- The slacks of the windows with and without a common slack. -/
theorem MheCfg.slack_window (hN : 0 < cfg.N) (o : MheX K d ne) :
    ((∀ k < cfg.nEps, ∀ call ∈ cfg.nl, call.soft = true → ∀ i < call.dim,
        0 ≤ o.eps k call.name i ∧ call.maxViolation.ge (o.eps k call.name i)) ↔
      (∀ k < cfg.N, ∀ call ∈ cfg.nl, call.soft = true → ∀ i < call.dim,
        0 ≤ cfg.E o k call.name i ∧ call.maxViolation.ge (cfg.E o k call.name i))) ∧
    (cfg.singleSlack = true → ∀ k < cfg.N, cfg.E o k = cfg.E o 0) := by
  constructor
  · unfold MheCfg.E MheCfg.kEps MheCfg.nEps
    by_cases hs : cfg.singleSlack = true
    · simp only [hs, if_true]
      constructor
      · intro H k _; have : min k (1 - 1) = 0 := by omega
        rw [this]; exact H 0 one_pos
      · intro H k hk
        have : k = 0 := by omega
        subst this; exact H 0 hN
    · simp only [hs, Bool.false_eq_true, if_false]
      constructor
      · intro H k hk; have : min k (cfg.N - 1) = k := by omega
        rw [this]; exact H k hk
      · intro H k hk
        have := H k hk
        have e : min k (cfg.N - 1) = k := by omega
        rwa [e] at this
  · intro hs k _
    simp [MheCfg.E, MheCfg.kEps, MheCfg.nEps, hs]

/-- The problem as the code builds it. -/
theorem MheCfg.CollBase.feasible_iff (h : cfg.CollBase deg ni tau tStep) (o : MheX K d ne) (q : MheP K d ne ns) :
    cfg.Feasible o q ↔
      (∀ k < cfg.N, ∃ P : Nat → Fin d.nx → K[X],
        IsCollocationSolution cfg.model deg ni tau (tStep / ni) (cfg.X o k) (cfg.U o k) (q.tvp k) (cfg.cat (cfg.pEstPhys o) q.pSet) (o.w k)
          (cfg.X o (k + 1)) P (fun i j => cfg.zPhys o k (i * (deg + 1) + j)) ∧
        (∀ i < ni, ∀ j ≤ deg, ¬ (i = 0 ∧ j = 0) → valueAt (P i) (tau j) = cfg.xPhys o (k + 1) (i * (deg + 1) + j - 1)) ∧
        o.x (k + 1) (ni * (deg + 1) - 1) = o.x (k + 1) cfg.xLast) ∧
      ExplainsMeasurements cfg.model cfg.N (cfg.X o) (cfg.U o) (cfg.Z o) o.v q.tvp (cfg.cat (cfg.pEstPhys o) q.pSet) q.yMeas ∧
      RespectsOnWindow cfg.nl cfg.N (cfg.X o) (cfg.U o) (cfg.Z o) q.tvp (cfg.cat (cfg.pEstPhys o) q.pSet) (cfg.E o) ∧
      (∀ k ≤ cfg.N, ∀ i ≤ ni * (deg + 1), Spec.Within cfg.xlb cfg.xub (cfg.xPhys o k i)) ∧
      (∀ k < cfg.N, ∀ i < ni * (deg + 1), Spec.Within cfg.zlb cfg.zub (cfg.zPhys o k i)) ∧
      (∀ k < cfg.N, Spec.Within cfg.ulb cfg.uub (cfg.U o k)) ∧
      (∀ k < cfg.N, ∀ call ∈ cfg.nl, call.soft = true → ∀ i < call.dim,
        0 ≤ cfg.E o k call.name i ∧ call.maxViolation.ge (cfg.E o k call.name i)) ∧
      Spec.Within cfg.plb cfg.pub (cfg.pEstPhys o) := by
  have hfe : cfg.Feasible o q ↔ (∃ rs, cfg.rows o q = .ok rs ∧ ∀ r ∈ rs, r.Holds) ∧ cfg.InBounds o := by
    unfold MheCfg.Feasible
    constructor
    · rintro ⟨rs, h1, h2, h3⟩; exact ⟨⟨rs, h1, h2⟩, h3⟩
    · rintro ⟨⟨rs, h1, h2⟩, h3⟩; exact ⟨rs, h1, h2, h3⟩
  have hpar : cfg.pCat o q = cfg.cat (cfg.pEstPhys o) q.pSet := (cfg.par_of_one h.sp o q).symm
  rw [hfe, C26_constraints_iff_partial cfg h.names h.nlColloc h.sp, C24_bounds_iff_partial cfg h.consColloc h.names h.sx h.su h.sz (by simp [h.sp]),
    (cfg.slack_window h.N o).1]
  have hdyn : ∀ k, (∀ r ∈ cfg.dynRows o q k, r.Holds) ↔ _ := fun k =>
    (cfg.dynRows_holds o q k).trans (collocation_iff_general cfg.model cfg.sx cfg.su cfg.sz cfg.pScaling h.sx deg ni tau h.tau0 h.tauInj tStep
      cfg.ifcn h.setup (o.x k cfg.xLast) (o.x (k+1)) (o.u k) (o.z k) (q.tvp k) (cfg.pCat o q) (o.w k) (o.x (k+1) cfg.xLast))
  have hmeas : (∀ k < cfg.N, ∀ r ∈ cfg.measRows o q k, r.Holds) ↔
      ExplainsMeasurements cfg.model cfg.N (cfg.X o) (cfg.U o) (cfg.Z o) o.v q.tvp (cfg.cat (cfg.pEstPhys o) q.pSet) q.yMeas := by
    unfold ExplainsMeasurements
    refine forall_congr' fun k => imp_congr Iff.rfl ?_
    rw [cfg.measRows_holds, hpar]
  have hxl : cfg.xLast = ni * (deg + 1) := h.ncoll
  have hzl : ∀ i, i ≤ cfg.zLast ↔ i < ni * (deg + 1) := by
    intro i
    have : 0 < ni * (deg + 1) := Nat.mul_pos h.ni_pos (by omega)
    unfold MheCfg.zLast; rw [h.ncoll]; omega
  rw [hmeas]
  simp only [hdyn, cfg.pCat_mul, hzl]
  have e1 : ∀ k, (∀ i ≤ cfg.xLast, Spec.Within cfg.xlb cfg.xub (cfg.xPhys o k i)) ↔ (∀ i ≤ ni * (deg + 1), Spec.Within cfg.xlb cfg.xub (cfg.xPhys o k i)) := by
    intro k; rw [hxl]
  simp only [e1]
  constructor
  · rintro ⟨⟨⟨h1, h2⟩, h3⟩, h4, h5, h6, h7, h8⟩
    exact ⟨h1, h2, h3, h4, h5, h6, h7, h8⟩
  · rintro ⟨h1, h2, h3, h4, h5, h6, h7, h8⟩
    exact ⟨⟨⟨h1, h2⟩, h3⟩, h4, h5, h6, h7, h8⟩

theorem MheCfg.CollPlain.feasible_is_admissible (h : cfg.CollPlain deg ni tau tStep) (o : MheX K d ne) (q : MheP K d ne ns) (ho : cfg.Feasible o q) :
    ∃ P, (cfg.collTask deg ni tau tStep).Admissible q.toData (cfg.explainColl deg o P) := by
  classical
  obtain ⟨h1, h2, h3, h4, h5, h6, h7, h8⟩ := (h.toCollBase.feasible_iff o q).mp ho
  have hP : ∀ k, ∃ P : Nat → Fin d.nx → K[X], k < cfg.N → _ := fun k => by
    by_cases hk : k < cfg.N
    · obtain ⟨P, p1, p2, _⟩ := h1 k hk
      exact ⟨P, fun _ => And.intro p1 p2⟩
    · exact ⟨0, fun hk' => absurd hk' hk⟩
  choose P hP using hP
  have hnc := h.ncoll
  refine ⟨P, ⟨?_, ?_, ?_, ?_, ?_, ?_, h6, h7, (cfg.slack_window h.N o).2, h8⟩⟩
  · intro k hk; exact (hP k hk).1
  · intro k hk
    refine Eq.trans ?_ (h2 k hk)
    exact h.meas _ _ _ _ _ _ _
  · intro k hk call hc i hi
    have := h3 k hk call hc i hi
    simp only [MheCfg.explainColl, Nat.zero_mul, Nat.zero_add]
    exact this
  · intro k hk
    have := h4 k hk (ni * (deg + 1)) le_rfl
    rw [← hnc] at this
    exact this
  · intro k hk i hi j hj hij
    have hlt := point_lt (show i < ni from hi) (show j ≤ deg from hj)
    have := h4 (k + 1) (show k + 1 ≤ cfg.N from hk) (i * (deg + 1) + j - 1) (by omega)
    rw [← (hP k hk).2 i hi j hj hij] at this
    exact this
  · intro k hk i hi j hj
    exact h5 k hk _ (point_lt hi hj)

theorem MheCfg.encodeColl_spec (h : cfg.CollBase deg ni tau tStep) (e : CollExplanation K d ne) (hs : cfg.singleSlack = true → ∀ k < cfg.N, e.E k = e.E 0) :
    let o := cfg.encodeColl deg ni tau e
    cfg.X o = e.X ∧ cfg.U o = e.U ∧ o.w = e.W ∧ o.v = e.V ∧ cfg.pEstPhys o = e.p ∧ (∀ k < cfg.N, cfg.E o k = e.E k) ∧
    (∀ k i j, i < ni → j ≤ deg → ¬ (i = 0 ∧ j = 0) → cfg.xPhys o (k + 1) (i * (deg + 1) + j - 1) = valueAt (e.P k i) (tau j)) ∧
    (∀ k i j, j ≤ deg → cfg.zPhys o k (i * (deg + 1) + j) = e.ζ k i j) ∧
    (∀ i, cfg.xPhys o 0 i = e.X 0) ∧ (∀ k i, ni * (deg + 1) ≤ i + 1 → cfg.xPhys o (k + 1) i = e.X (k + 1)) := by
  intro o
  have hnc := h.ncoll
  have hlast : ∀ k i, ni * (deg + 1) ≤ i + 1 → cfg.xPhys o (k + 1) i = e.X (k + 1) := by
    intro k i hi
    show (if i + 1 < ni * (deg + 1) then _ else e.X (k + 1) / cfg.sx) * cfg.sx = _
    rw [if_neg (by omega)]
    exact div_mul_vec _ _ h.sx
  have hdiv : ∀ i j, j ≤ deg → (i * (deg + 1) + j) / (deg + 1) = i ∧ (i * (deg + 1) + j) % (deg + 1) = j := by
    intro i j hj
    constructor
    · rw [Nat.mul_comm, Nat.mul_add_div (by omega), Nat.div_eq_of_lt (by omega)]; omega
    · rw [Nat.mul_comm, Nat.mul_add_mod, Nat.mod_eq_of_lt (by omega)]
  refine ⟨?_, ?_, rfl, rfl, ?_, ?_, ?_, ?_, ?_, hlast⟩
  · funext k
    cases k with
    | zero => exact div_mul_vec _ _ h.sx
    | succ k => exact hlast k _ (by unfold MheCfg.xLast; omega)
  · funext k; exact div_mul_vec _ _ h.su
  · exact div_mul_vec _ _ (by simp [h.sp])
  · intro k hk
    show e.E (cfg.kEps k) = e.E k
    unfold MheCfg.kEps MheCfg.nEps
    by_cases h1 : cfg.singleSlack = true
    · simp only [h1, if_true]
      rw [hs h1 k hk]; simp
    · simp only [h1, Bool.false_eq_true, if_false]
      congr 1; omega
  · intro k i j hi hj hij
    have hlt := point_lt hi hj
    have hpos : 0 < i * (deg + 1) + j := by
      rcases Nat.eq_zero_or_pos i with h | h
      · subst h; have : j ≠ 0 := fun h => hij ⟨rfl, h⟩; omega
      · have : 0 < i * (deg + 1) := Nat.mul_pos h (by omega)
        omega
    show (if i * (deg + 1) + j - 1 + 1 < ni * (deg + 1) then valueAt (e.P k ((i * (deg + 1) + j - 1 + 1) / (deg + 1)))
      (tau ((i * (deg + 1) + j - 1 + 1) % (deg + 1))) / cfg.sx else _) * cfg.sx = _
    have e1 : i * (deg + 1) + j - 1 + 1 = i * (deg + 1) + j := by omega
    rw [e1, if_pos hlt, (hdiv i j hj).1, (hdiv i j hj).2]
    exact div_mul_vec _ _ h.sx
  · intro k i j hj
    show e.ζ k ((i * (deg + 1) + j) / (deg + 1)) ((i * (deg + 1) + j) % (deg + 1)) / cfg.sz * cfg.sz = _
    rw [(hdiv i j hj).1, (hdiv i j hj).2]
    exact div_mul_vec _ _ h.sz
  · intro i; exact div_mul_vec _ _ h.sx

theorem MheCfg.CollPlain.admissible_is_feasible (h : cfg.CollPlain deg ni tau tStep) (q : MheP K d ne ns) (e : CollExplanation K d ne)
    (he : (cfg.collTask deg ni tau tStep).Admissible q.toData e) : cfg.Feasible (cfg.encodeColl deg ni tau e) q := by
  obtain ⟨eX, eU, eW, eV, ep, eE, ePt, eZ, e0, eL⟩ := cfg.encodeColl_spec h.toCollBase e he.oneSlack
  set o := cfg.encodeColl deg ni tau e
  have hnc : 0 < ni * (deg + 1) := Nat.mul_pos h.ni_pos (by omega)
  have hZ0 : ∀ k, cfg.Z o k = e.ζ k 0 0 := fun k => by
    have := eZ k 0 0 (Nat.zero_le _)
    simpa [MheCfg.Z] using this
  rw [h.toCollBase.feasible_iff, eX, eU, eW, eV, ep]
  have hsplit : ∀ i, i < ni * (deg + 1) → ∃ a b, a < ni ∧ b ≤ deg ∧ i = a * (deg + 1) + b := by
    intro i hi
    refine ⟨i / (deg + 1), i % (deg + 1), ?_, ?_, ?_⟩
    · exact Nat.div_lt_of_lt_mul (by rw [Nat.mul_comm]; exact hi)
    · have := Nat.mod_lt i (show 0 < deg + 1 by omega); omega
    · rw [Nat.mul_comm]; exact (Nat.div_add_mod i (deg + 1)).symm
  refine ⟨?_, ?_, ?_, ?_, ?_, he.inputs, ?_, he.params⟩
  · intro k hk
    refine ⟨e.P k, ?_, ?_, ?_⟩
    · have hd := he.dynamics k hk
      refine ⟨hd.degree, hd.start, ?_, ?_, hd.join, hd.final⟩
      · intro i hi j h1 hj
        rw [eZ k i j hj]
        exact hd.ode i hi j h1 hj
      · intro i hi j hj
        rw [eZ k i j hj]
        exact hd.algebraic i hi j hj
    · intro i hi j hj hij
      exact (ePt k i j hi hj hij).symm
    · have l1 : ∀ i, ni * (deg + 1) ≤ i + 1 → o.x (k + 1) i = e.X (k + 1) / cfg.sx := by
        intro i hi
        show (if i + 1 < ni * (deg + 1) then _ else e.X (k + 1) / cfg.sx) = _
        rw [if_neg (by omega)]
      rw [l1 _ (by omega), l1 _ (by unfold MheCfg.xLast; rw [h.ncoll]; omega)]
  · intro k hk
    exact (h.meas _ _ _ _ _ _ _).trans (he.measurements k hk)
  · intro k hk call hc i hi
    have := he.constraints k hk call hc i hi
    rw [eE k hk, hZ0]
    exact this
  · intro k hk i hi
    cases k with
    | zero => rw [e0]; exact he.states 0 (Nat.zero_le _)
    | succ k =>
      by_cases hl : i + 1 < ni * (deg + 1)
      · obtain ⟨a, b, ha, hb, hab⟩ := hsplit (i + 1) hl
        have hne : ¬ (a = 0 ∧ b = 0) := by rintro ⟨rfl, rfl⟩; omega
        have hi' : i = a * (deg + 1) + b - 1 := by omega
        rw [hi', ePt k a b ha hb hne]
        exact he.inside k hk a ha b hb hne
      · rw [eL k i (by omega)]
        exact he.states (k + 1) hk
  · intro k hk i hi
    obtain ⟨a, b, ha, hb, hab⟩ := hsplit i hi
    rw [hab, eZ k a b hb]
    exact he.algebraic k hk a ha b hb
  · intro k hk call hc hs i hi
    rw [eE k hk]
    exact he.slacks k hk call hc hs i hi

theorem MheCfg.CollBase.obj_eq (h : cfg.CollBase deg ni tau tStep) (o : MheX K d ne) (q : MheP K d ne ns) (e : CollExplanation K d ne)
    (hX : cfg.X o 0 = e.X 0) (hW : o.w = e.W) (hV : o.v = e.V) (hp : cfg.pEstPhys o = e.p) (hE : ∀ k < cfg.N, cfg.E o k = e.E k) :
    cfg.obj o q = (cfg.collTask deg ni tau tStep).explanationCost q.toData e := by
  rw [C26_objective_partial cfg h.sp, hX, hW, hV, hp]
  unfold CollEstimation.explanationCost
  congr 2
  apply List.map_congr_left
  intro k hk
  rw [hE k (List.mem_range.mp hk)]
  rfl

/-- **C80** (problem): for a continuous-time model, the states, inputs, noises, slacks and parameters of a global minimiser of the problem the estimator builds, together with
polynomials through its states, are a best explanation of the data; and every best explanation is a global minimiser. -/
theorem C80_minimiser_is_best (h : cfg.CollPlain deg ni tau tStep) (q : MheP K d ne ns) :
    (∀ o, cfg.Solves o q → ∃ P, (cfg.collTask deg ni tau tStep).Optimal q.toData (cfg.explainColl deg o P)) ∧
    (∀ e, (cfg.collTask deg ni tau tStep).Optimal q.toData e → cfg.Solves (cfg.encodeColl deg ni tau e) q) ∧
    ((∃ o, cfg.Feasible o q) ↔ ∃ e, (cfg.collTask deg ni tau tStep).Admissible q.toData e) := by
  have enc : ∀ e, (cfg.collTask deg ni tau tStep).Admissible q.toData e →
      cfg.obj (cfg.encodeColl deg ni tau e) q = (cfg.collTask deg ni tau tStep).explanationCost q.toData e := by
    intro e he
    obtain ⟨eX, -, eW, eV, ep, eE, -⟩ := cfg.encodeColl_spec h.toCollBase e he.oneSlack
    exact h.toCollBase.obj_eq _ q e (by rw [eX]) eW eV ep eE
  have dec : ∀ o P, cfg.obj o q = (cfg.collTask deg ni tau tStep).explanationCost q.toData (cfg.explainColl deg o P) := fun o P =>
    h.toCollBase.obj_eq o q _ rfl rfl rfl rfl fun _ _ => rfl
  refine ⟨?_, ?_, ?_⟩
  · rintro o ⟨ho, hmin⟩
    obtain ⟨P, hP⟩ := h.feasible_is_admissible o q ho
    refine ⟨P, hP, fun e' he' => ?_⟩
    rw [← dec, ← enc e' he']
    exact hmin _ (h.admissible_is_feasible q e' he')
  · rintro e ⟨he, hmin⟩
    refine ⟨h.admissible_is_feasible q e he, fun o' ho' => ?_⟩
    obtain ⟨P, hP⟩ := h.feasible_is_admissible o' q ho'
    rw [enc e he, dec o' P]
    exact hmin _ hP
  · exact ⟨fun ⟨o, ho⟩ => (h.feasible_is_admissible o q ho).imp' _ fun _ hP => hP, fun ⟨e, he⟩ => ⟨_, h.admissible_is_feasible q e he⟩⟩

end

/-- **C80** (run; partial: the fragment of `CollPlain`): after any sequence of successful calls of `make_step` whose solver calls returned global minimisers, every returned
state is the last state of a best explanation of the last `n_horizon` measurements (padded with the first one) by the continuous-time model, and the prior of every call is the second
state and the parameters of the best explanation of the call before. -/
theorem C80_estimates_partial (E : MheEnv K d ne ns) {deg ni : Nat} {tau : Nat → K} {dt : K} (h : E.cfg.CollPlain deg ni tau dt)
    (hst : ∀ s ∈ E.storeStats, s ∈ validStats)
    (st : MheSt K d ne ns) (hw : st.data.width "_y" = some d.ny) (hrows : ∀ y ∈ st.data.rows "_y", y.length = d.ny)
    (hy : E.yFun = none) (calls : List (MheCall K d ne ns E.nLagr)) (xs : List (Vec K d.nx)) (hok : E.outputs st calls = xs.map .ok)
    (hsolve : ∀ i (hi : i < calls.length) a, (E.queries st calls)[i]? = some a → E.cfg.Solves (calls[i].S a).x a.p) :
    ∃ (D : Nat → EstimationData K d ne ns) (e : Nat → CollExplanation K d ne),
      (∀ n, calls.length = n + 1 → (E.after st calls).pEst0 = (e n).p) ∧
      ∀ i < calls.length, (E.cfg.collTask deg ni tau dt).Optimal (D i) (e i) ∧ xs[i]? = some ((e i).X E.cfg.N) ∧
        E.IsData (D i) (st.t0 + i * E.tStep) (Spec.measurementWindow E.cfg.N (st.data.rows "_y" ++ (calls.take (i + 1)).map (·.y0)))
          (if i = 0 then E.cfg.X st.optX 1 else (e (i - 1)).X 1) (if i = 0 then st.pEst0 else (e (i - 1)).p) := by
  classical
  obtain ⟨a, o, h1, h2⟩ := E.run_problems hst st hw hrows hy calls xs hok
  have hP : ∀ i, ∃ P, i < calls.length → (E.cfg.collTask deg ni tau dt).Optimal (a i).p.toData (E.cfg.explainColl deg (o i) P) := by
    intro i
    by_cases hi : i < calls.length
    · obtain ⟨P, hP⟩ := (C80_minimiser_is_best h (a i).p).1 (o i) (by rw [(h2 i hi).2.1]; exact hsolve i hi _ (h2 i hi).1)
      exact ⟨P, fun _ => hP⟩
    · exact ⟨0, fun hi' => absurd hi' hi⟩
  choose P hP using hP
  refine ⟨fun i => (a i).p.toData, fun i => E.cfg.explainColl deg (o i) (P i), h1, fun i hi => ?_⟩
  obtain ⟨-, -, s2, s3⟩ := h2 i hi
  exact ⟨hP i hi, s2, s3⟩

/-- The noise-free run, as an explanation of the window that starts at `i`. -/
def truthColl (i : Nat) (x : Nat → Vec K d.nx) (u : Nat → Vec K d.nu) (P : Nat → Nat → Fin d.nx → K[X]) (ζ : Nat → Nat → Nat → Vec K d.nz) (pT : Vec K ne) :
    CollExplanation K d ne :=
  ⟨fun k => x (i + k), fun k => u (i + k), fun _ => 0, fun _ => 0, fun _ _ _ => 0, pT, fun k => P (i + k), fun k => ζ (i + k)⟩

/-- With exact data and priors the truth is admissible and costs nothing. -/
theorem truthColl_admissible (T : CollEstimation K d ne ns) (hc : T.DefiniteCosts)
    (x : Nat → Vec K d.nx) (u : Nat → Vec K d.nu) (P : Nat → Nat → Fin d.nx → K[X]) (ζ : Nat → Nat → Nat → Vec K d.nz) (tv : Nat → Vec K d.ntv) (pT : Vec K ne)
    (pG : Vec K ns) (n : Nat) (hrun : T.NoiseFree n x u P ζ tv pT pG) (i : Nat) (hi : i + T.N ≤ n) (D : EstimationData K d ne ns) (hx : D.xPrior = x i)
    (hp : D.pPrior = pT) (hg : D.pGiven = pG) (htv : ∀ k < T.N, D.tvp k = tv (i + k)) (hy : ∀ k < T.N, D.y k = T.measuredAt x u ζ tv pT pG (i + k)) :
    T.Admissible D (truthColl i x u P ζ pT) ∧ T.explanationCost D (truthColl i x u P ζ pT) = 0 := by
  obtain ⟨c1, c2, c3⟩ := hc
  set t := truthColl i x u P ζ pT with ht
  have hta : T.Admissible D t := by
    refine ⟨?_, ?_, ?_, fun k hk => hrun.states _ (by omega), fun k hk => hrun.inside _ (by omega), fun k hk => hrun.algebraic _ (by omega),
      fun k hk => hrun.inputs _ (by omega), ?_, fun _ _ _ => rfl, hrun.params⟩
    · intro k hk
      simp only [ht, truthColl, hg, htv k hk]
      exact hrun.dynamics (i + k) (by omega)
    · intro k hk
      simp only [ht, truthColl, hg, htv k hk, hy k hk]
      rfl
    · intro k hk call hcall j hj
      simp only [ht, truthColl, hg, htv k hk, sub_zero, ite_self]
      exact hrun.constraints (i + k) (by omega) call hcall j hj
    · intro k _ call hcall hs j _
      exact ⟨le_rfl, (c3 call hcall hs).2⟩
  have ht0 : T.explanationCost D t = 0 := by
    unfold CollEstimation.explanationCost
    have : T.arrival (t.X 0) D.xPrior t.p D.pPrior D.pGiven = 0 := (c2 _ _ _ _ _).2.mpr ⟨hx.symm, hp.symm⟩
    rw [this, zero_add]
    apply List.sum_eq_zero
    intro y hy
    obtain ⟨k, -, rfl⟩ := List.mem_map.mp hy
    have : T.stage (t.W k) (t.V k) (D.tvp k) (T.merge t.p D.pGiven) = 0 := (c1 _ _ _ _).2.mpr ⟨rfl, rfl⟩
    rw [this, zero_add]
    exact slackCost_zero _
  exact ⟨hta, ht0⟩

/-- Definite costs are not negative. -/
theorem explanationCost_nonneg (T : CollEstimation K d ne ns) (hc : T.DefiniteCosts) (D : EstimationData K d ne ns) (e : CollExplanation K d ne)
    (he : T.Admissible D e) : 0 ≤ T.explanationCost D e := by
  obtain ⟨c1, c2, c3⟩ := hc
  apply add_nonneg (c2 _ _ _ _ _).1
  apply List.sum_nonneg
  intro y hy
  obtain ⟨k, hk, rfl⟩ := List.mem_map.mp hy
  exact add_nonneg (c1 _ _ _ _).1 (slackCost_nonneg _ _ fun call hcall hs =>
    ⟨(c3 call hcall hs).1, fun j hj => (he.slacks k (List.mem_range.mp hk) call hcall hs j hj).1⟩)

/-- One window: with an exact prior and exact measurements every best explanation is the truth. -/
theorem exact_window_coll (T : CollEstimation K d ne ns) (hc : T.DefiniteCosts) (ho : T.InputsDetermined)
    (x : Nat → Vec K d.nx) (u : Nat → Vec K d.nu) (P : Nat → Nat → Fin d.nx → K[X]) (ζ : Nat → Nat → Nat → Vec K d.nz) (tv : Nat → Vec K d.ntv) (pT : Vec K ne)
    (pG : Vec K ns) (n : Nat) (hrun : T.NoiseFree n x u P ζ tv pT pG) (i : Nat) (hi : i + T.N ≤ n) (D : EstimationData K d ne ns) (hx : D.xPrior = x i)
    (hp : D.pPrior = pT) (hg : D.pGiven = pG) (htv : ∀ k < T.N, D.tvp k = tv (i + k)) (hy : ∀ k < T.N, D.y k = T.measuredAt x u ζ tv pT pG (i + k))
    (e : CollExplanation K d ne) (he : T.Optimal D e) : e.p = pT ∧ ∀ k ≤ T.N, e.X k = x (i + k) := by
  obtain ⟨ht, ht0⟩ := truthColl_admissible T hc x u P ζ tv pT pG n hrun i hi D hx hp hg htv hy
  obtain ⟨c1, c2, c3⟩ := hc
  have hle : T.explanationCost D e ≤ 0 := ht0 ▸ he.2 _ ht
  have hnn : ∀ k < T.N, 0 ≤ slackCost T.cons (e.E k) := fun k hk =>
    slackCost_nonneg _ _ fun call hcall hs => ⟨(c3 call hcall hs).1, fun j hj => (he.1.slacks k hk call hcall hs j hj).1⟩
  have hterm : ∀ y ∈ (List.range T.N).map (fun k => T.stage (e.W k) (e.V k) (D.tvp k) (T.merge e.p D.pGiven) + slackCost T.cons (e.E k)),
      0 ≤ y := by
    intro y hy
    obtain ⟨k, hk, rfl⟩ := List.mem_map.mp hy
    exact add_nonneg (c1 _ _ _ _).1 (hnn k (List.mem_range.mp hk))
  have hsum := List.sum_nonneg hterm
  have harr := (c2 (e.X 0) D.xPrior e.p D.pPrior D.pGiven).1
  unfold CollEstimation.explanationCost at hle
  have h1 : T.arrival (e.X 0) D.xPrior e.p D.pPrior D.pGiven = 0 := by linarith
  have h2 : ((List.range T.N).map (fun k => T.stage (e.W k) (e.V k) (D.tvp k) (T.merge e.p D.pGiven) + slackCost T.cons (e.E k))).sum = 0 := by
    linarith
  have h3 : ∀ k < T.N, e.W k = 0 ∧ e.V k = 0 := by
    intro k hk
    have := List.single_le_sum hterm _ (List.mem_map.mpr ⟨k, List.mem_range.mpr hk, rfl⟩)
    rw [h2] at this
    have hs := (c1 (e.W k) (e.V k) (D.tvp k) (T.merge e.p D.pGiven)).1
    exact (c1 _ _ _ _).2.mp (by have := hnn k hk; linarith)
  obtain ⟨hX0, hep⟩ := (c2 _ _ _ _ _).2.mp h1
  rw [hp] at hep
  refine ⟨hep, ?_⟩
  intro k
  induction k with
  | zero => intro _; rw [hX0, hx]; rfl
  | succ k ih =>
    intro hk
    have hk' : k < T.N := hk
    have ihk := ih hk'.le
    have b1 := he.1.dynamics k hk'
    have b2 := he.1.measurements k hk'
    rw [(h3 k hk').1, hg, hep, ihk, htv k hk'] at b1
    rw [(h3 k hk').2, hg, hep, htv k hk', hy k hk'] at b2
    have hu : e.U k = u (i + k) := ho.1 _ _ _ _ _ _ _ _ b2
    rw [hu] at b1
    exact ho.2 _ _ _ _ _ _ _ _ _ _ b1 (hrun.dynamics (i + k) (by omega))

/-- **C80** (exactness; partial: the fragment of `CollPlain`): the plant is the continuous-time model without noise.  Once the window is filled with exact measurements and the
prior is exact, and the solver finds a global minimiser whenever there is one, every further call of `make_step` returns exactly the plant's state and leaves exactly its parameters, for ever. -/
theorem C80_exact_estimates_partial (E : MheEnv K d ne ns) {deg ni : Nat} {tau : Nat → K} {dt : K} (h : E.cfg.CollPlain deg ni tau dt)
    (hst : ∀ s ∈ E.storeStats, s ∈ validStats)
    (hc : E.cfg.task.DefiniteCosts) (ho : (E.cfg.collTask deg ni tau dt).InputsDetermined)
    (x : Nat → Vec K d.nx) (u : Nat → Vec K d.nu) (P : Nat → Nat → Fin d.nx → K[X]) (ζ : Nat → Nat → Nat → Vec K d.nz) (tv : Nat → Vec K d.ntv)
    (pT : Vec K ne) (pG : Vec K ns)
    (st : MheSt K d ne ns) (hw : st.data.width "_y" = some d.ny) (hy : E.yFun = none)
    (calls : List (MheCall K d ne ns E.nLagr)) (xs : List (Vec K d.nx)) (hok : E.outputs st calls = xs.map .ok)
    (hrun : (E.cfg.collTask deg ni tau dt).NoiseFree (E.cfg.N - 1 + calls.length) x u P ζ tv pT pG)
    (hsolve : ∀ i (hi : i < calls.length) a, (E.queries st calls)[i]? = some a → (∃ o, E.cfg.Solves o a.p) → E.cfg.Solves (calls[i].S a).x a.p)
    (old : List (List K)) (hold : ∀ y ∈ old, y.length = d.ny)
    (hlog : st.data.rows "_y" = old ++ (List.range (E.cfg.N - 1)).map fun k => List.ofFn ((E.cfg.collTask deg ni tau dt).measuredAt x u ζ tv pT pG k))
    (hmeas : ∀ i (hi : i < calls.length), calls[i].y0 = List.ofFn ((E.cfg.collTask deg ni tau dt).measuredAt x u ζ tv pT pG (E.cfg.N - 1 + i)))
    (htv : ∀ i < calls.length, ∀ k < E.cfg.N, E.tvpFun (st.t0 + i * E.tStep) k = tv (i + k))
    (hpG : ∀ i < calls.length, E.pFun (st.t0 + i * E.tStep) = pG)
    (hx0 : E.cfg.X st.optX 1 = x 0) (hp0 : st.pEst0 = pT) :
    xs = (List.range calls.length).map (fun i => x (i + E.cfg.N)) ∧ (E.after st calls).pEst0 = pT := by
  refine E.exact_run h.N hst x ((E.cfg.collTask deg ni tau dt).measuredAt x u ζ tv pT pG) tv pT pG st hw hy calls xs hok ?_ hsolve old hold hlog hmeas htv hpG hx0 hp0
  intro i hi q h1 h2 h3 h4 h5
  have hiN : i + (E.cfg.collTask deg ni tau dt).N ≤ E.cfg.N - 1 + calls.length := by show i + E.cfg.N ≤ _; have := h.N; omega
  obtain ⟨b1, b2, -⟩ := C80_minimiser_is_best h q
  refine ⟨⟨_, b2 (truthColl i x u P ζ pT) ?_⟩, fun o h6 => ?_⟩
  · obtain ⟨t1, t2⟩ := truthColl_admissible (E.cfg.collTask deg ni tau dt) hc x u P ζ tv pT pG _ hrun i hiN q.toData h1 h2 h3 h4 h5
    exact ⟨t1, fun e' he' => by rw [t2]; exact explanationCost_nonneg _ hc _ e' he'⟩
  · obtain ⟨Q, hQ⟩ := b1 o h6
    exact exact_window_coll (E.cfg.collTask deg ni tau dt) hc ho x u P ζ tv pT pG _ hrun i hiN q.toData h1 h2 h3 h4 h5 _ hQ

end DoMpc
