import Verif.Lemmas.Mhe
import Verif.Props.MheParams
import Verif.Props.Collocation
import Verif.Props.MpcCost
import Mathlib.Algebra.BigOperators.Fin
import Mathlib.Tactic.Linarith

/-! # Properties C24, C25, C26: the estimation problem -/
set_option linter.unusedSectionVars false
namespace DoMpc
open Polynomial Spec
variable {K : Type} [Field K] [LinearOrder K] [IsStrictOrderedRing K] {d : Dims} {ne ns : Nat}

/-! ### C25: dynamics and measurements -/

/-- **C25** (as the code is, any scaling, discrete time): the equality constraints hold iff in physical units the trajectory follows the
model with process noise *and physical parameters*, and the measurement equations hold *with the scaled estimated parameters*. -/
theorem C25_rows_iff_as_coded (m : DaeModel K d) (cfg : MheCfg K d ne ns) (hm : cfg.model = m) (hx : ∀ i, 0 < cfg.sx i)
    (hF : cfg.ifcn = discreteIfcn m cfg.sx cfg.su cfg.sz cfg.pScaling) (hcol : cfg.nlColloc = false) (hnl : cfg.nl = [])
    (o : MheX K d ne) (q : MheP K d ne ns) :
    (∃ rs, cfg.rows o q = .ok rs ∧ ∀ r ∈ rs, r.Holds) ↔
      FollowsNoisyModel m cfg.N (cfg.X o) (cfg.U o) (cfg.Z o) o.w q.tvp (cfg.cat (o.pEst * cfg.sp) q.pSet) ∧
      ExplainsMeasurements m cfg.N (cfg.X o) (cfg.U o) (cfg.Z o) o.v q.tvp (cfg.cat o.pEst q.pSet) q.yMeas := by
  rw [cfg.rows_spec o q (Or.inl hcol)]
  have h3 : (∀ k < cfg.N, ∃ nl, cfg.nlRowsAt o q k = .ok nl ∧ ∀ r ∈ nl, r.Holds) := by
    intro k _
    rw [cfg.nlRowsAt_holds (by simp [hnl]) hcol]
    intro call hc; simp [hnl] at hc
  have hdyn : (∀ k < cfg.N, ∀ r ∈ cfg.dynRows o q k, r.Holds) ↔
      FollowsNoisyModel m cfg.N (cfg.X o) (cfg.U o) (cfg.Z o) o.w q.tvp (cfg.par o q) := by
    unfold FollowsNoisyModel
    apply forall_congr'; intro k
    apply imp_congr Iff.rfl
    rw [cfg.dynRows_holds, hF, MheCfg.discrete_solvesW _ _ _ _ _ hx, ← cfg.pCat_mul]
    rfl
  have hmeas : (∀ k < cfg.N, ∀ r ∈ cfg.measRows o q k, r.Holds) ↔
      ExplainsMeasurements m cfg.N (cfg.X o) (cfg.U o) (cfg.Z o) o.v q.tvp (cfg.cat o.pEst q.pSet) q.yMeas := by
    unfold ExplainsMeasurements
    apply forall_congr'; intro k
    apply imp_congr Iff.rfl
    rw [cfg.measRows_holds, hm]
    rfl
  rw [hdyn, hmeas]
  exact ⟨fun h => ⟨h.1, h.2.1⟩, fun h => ⟨h.1, h.2, h3⟩⟩

/-- **C25** (partial: requires that the estimated parameters are not scaled; with a scaling the measurement equations use scaled
parameters, see `C25_fails_scaled_parameters`): the equality constraints hold iff the physical trajectory follows the model with
process noise and explains every measurement, both with the model's parameter vector in physical units.  All state, input and
algebraic scalings. -/
theorem C25_rows_iff_partial (m : DaeModel K d) (cfg : MheCfg K d ne ns) (hm : cfg.model = m) (hx : ∀ i, 0 < cfg.sx i)
    (hF : cfg.ifcn = discreteIfcn m cfg.sx cfg.su cfg.sz cfg.pScaling) (hcol : cfg.nlColloc = false) (hnl : cfg.nl = [])
    (hsp : cfg.sp = 1) (o : MheX K d ne) (q : MheP K d ne ns) :
    (∃ rs, cfg.rows o q = .ok rs ∧ ∀ r ∈ rs, r.Holds) ↔
      FollowsNoisyModel m cfg.N (cfg.X o) (cfg.U o) (cfg.Z o) o.w q.tvp (cfg.cat (cfg.pEstPhys o) q.pSet) ∧
      ExplainsMeasurements m cfg.N (cfg.X o) (cfg.U o) (cfg.Z o) o.v q.tvp (cfg.cat (cfg.pEstPhys o) q.pSet) q.yMeas := by
  rw [C25_rows_iff_as_coded m cfg hm hx hF hcol hnl o q]
  have : cfg.pEstPhys o = o.pEst := by simp [MheCfg.pEstPhys, hsp]
  rw [this, hsp, mul_one]

/-- **C25** for continuous-time models: the equality constraints hold iff on every interval there is a collocation solution of the
model with process noise, in physical units and with physical parameters, from the state at its beginning to the state at its end,
and every measurement equation holds (with the scaled estimated parameters, as above, and the algebraic state of the *beginning*
of the interval). -/
theorem C25_rows_iff_collocation (m : DaeModel K d) (cfg : MheCfg K d ne ns) (hm : cfg.model = m) (hx : ∀ i, 0 < cfg.sx i)
    (deg ni : Nat) (tau : Nat → K) (h0 : tau 0 = 0) (hinj : ∀ i ≤ deg, ∀ j ≤ deg, tau i = tau j → i = j) (tStep : K)
    (hF : setupCollocation m cfg.sx cfg.su cfg.sz cfg.pScaling deg ni tau tStep = .ok cfg.ifcn)
    (hcol : cfg.nlColloc = false) (hnl : cfg.nl = []) (o : MheX K d ne) (q : MheP K d ne ns) :
    (∃ rs, cfg.rows o q = .ok rs ∧ ∀ r ∈ rs, r.Holds) ↔
      (∀ k < cfg.N, ∃ P : Nat → Fin d.nx → K[X],
        IsCollocationSolution m deg ni tau (tStep / ni) (cfg.X o k) (cfg.U o k) (q.tvp k) (cfg.cat (o.pEst * cfg.sp) q.pSet) (o.w k)
          (cfg.X o (k + 1)) P (fun i j => cfg.zPhys o k (i * (deg + 1) + j)) ∧
        (∀ i < ni, ∀ j ≤ deg, ¬ (i = 0 ∧ j = 0) → valueAt (P i) (tau j) = cfg.xPhys o (k + 1) (i * (deg + 1) + j - 1)) ∧
        o.x (k + 1) (ni * (deg + 1) - 1) = o.x (k + 1) cfg.xLast) ∧
      ExplainsMeasurements m cfg.N (cfg.X o) (cfg.U o) (cfg.Z o) o.v q.tvp (cfg.cat o.pEst q.pSet) q.yMeas := by
  rw [cfg.rows_spec o q (Or.inl hcol)]
  have h3 : (∀ k < cfg.N, ∃ nl, cfg.nlRowsAt o q k = .ok nl ∧ ∀ r ∈ nl, r.Holds) := by
    intro k _
    rw [cfg.nlRowsAt_holds (by simp [hnl]) hcol]
    intro call hc; simp [hnl] at hc
  have hdyn : ∀ k, (∀ r ∈ cfg.dynRows o q k, r.Holds) ↔ _ := fun k =>
    (cfg.dynRows_holds o q k).trans (collocation_iff_general m cfg.sx cfg.su cfg.sz cfg.pScaling hx deg ni tau h0 hinj tStep
      cfg.ifcn hF (o.x k cfg.xLast) (o.x (k+1)) (o.u k) (o.z k) (q.tvp k) (cfg.pCat o q) (o.w k) (o.x (k+1) cfg.xLast))
  simp only [hdyn, cfg.pCat_mul]
  have hmeas : (∀ k < cfg.N, ∀ r ∈ cfg.measRows o q k, r.Holds) ↔
      ExplainsMeasurements m cfg.N (cfg.X o) (cfg.U o) (cfg.Z o) o.v q.tvp (cfg.cat o.pEst q.pSet) q.yMeas := by
    unfold ExplainsMeasurements
    apply forall_congr'; intro k
    apply imp_congr Iff.rfl
    rw [cfg.measRows_holds, hm]
    rfl
  rw [hmeas]
  exact ⟨fun h => ⟨h.1, h.2.1⟩, fun h => ⟨h.1, h.2, h3⟩⟩

/-! ### C24: bounds -/

section
variable (cfg : MheCfg K d ne ns)

theorem mhe_slack_iff (hn : (cfg.nl.map (·.name)).Nodup) (o : MheX K d ne) :
    (∀ k < cfg.nEps, ∀ sl ∈ slackVars cfg.nl, ∀ i < sl.dim,
      (cfg.lbx.eps k sl.name i).le (o.eps k sl.name i) ∧ (cfg.ubx.eps k sl.name i).ge (o.eps k sl.name i)) ↔
    (∀ k < cfg.nEps, ∀ call ∈ cfg.nl, call.soft = true → ∀ i < call.dim,
      0 ≤ o.eps k call.name i ∧ call.maxViolation.ge (o.eps k call.name i)) := by
  constructor
  · intro H k hk call hc hs i hi
    have := H k hk call (List.mem_filter.mpr ⟨hc, hs⟩) i hi
    have e : epsUb cfg.nl call.name = call.maxViolation := epsUb_eq cfg.nl hn call hc hs
    simp only [MheCfg.lbx, MheCfg.ubx, MheCfg.updateBounds, e] at this
    exact this
  · intro H k hk sl hsl i hi
    obtain ⟨hc, hs⟩ := List.mem_filter.mp hsl
    have e : epsUb cfg.nl sl.name = sl.maxViolation := epsUb_eq cfg.nl hn sl hc hs
    simp only [MheCfg.lbx, MheCfg.ubx, MheCfg.updateBounds, e]
    exact H k hk sl hc hs i hi

/-- **C24** (partial: for the default `cons_check_colloc_points = True`; for `False` see `C24_bounds_without_colloc` and
`C24_fails_returned_estimate`): a point is within the bounds of the problem iff in physical units every state of the window (at every
collocation point, including the oldest and the returned one), every algebraic state, input and estimated parameter is within the
user's bounds and every slack is between 0 and its maximum. -/
theorem C24_bounds_iff_partial (hcons : cfg.consColloc = true) (hn : (cfg.nl.map (·.name)).Nodup)
    (hx : ∀ i, 0 < cfg.sx i) (hu : ∀ i, 0 < cfg.su i) (hz : ∀ i, 0 < cfg.sz i) (hp : ∀ i, 0 < cfg.sp i) (o : MheX K d ne) :
    cfg.InBounds o ↔
      (∀ k ≤ cfg.N, ∀ i ≤ cfg.xLast, Within cfg.xlb cfg.xub (cfg.xPhys o k i)) ∧
      (∀ k < cfg.N, ∀ i ≤ cfg.zLast, Within cfg.zlb cfg.zub (cfg.zPhys o k i)) ∧
      (∀ k < cfg.N, Within cfg.ulb cfg.uub (cfg.uPhys o k)) ∧
      (∀ k < cfg.nEps, ∀ call ∈ cfg.nl, call.soft = true → ∀ i < call.dim,
        0 ≤ o.eps k call.name i ∧ call.maxViolation.ge (o.eps k call.name i)) ∧
      Within cfg.plb cfg.pub (cfg.pEstPhys o) := by
  unfold MheCfg.InBounds
  rw [mhe_slack_iff cfg hn]
  unfold Within
  simp only [MheCfg.lbx, MheCfg.ubx, MheCfg.updateBounds, hcons, if_true, Bound.divBy_le _ (hx _), Bound.divBy_ge _ (hx _),
    Bound.divBy_le _ (hz _), Bound.divBy_ge _ (hz _), Bound.divBy_le _ (hu _), Bound.divBy_ge _ (hu _),
    Bound.divBy_le _ (hp _), Bound.divBy_ge _ (hp _)]
  rfl

/-- **C24** for `cons_check_colloc_points = False`, exactly: the states at the ends of the intervals *except the oldest and the newest*
are bounded. -/
theorem C24_bounds_without_colloc (hcons : cfg.consColloc = false) (hn : (cfg.nl.map (·.name)).Nodup)
    (hx : ∀ i, 0 < cfg.sx i) (hu : ∀ i, 0 < cfg.su i) (hz : ∀ i, 0 < cfg.sz i) (hp : ∀ i, 0 < cfg.sp i) (o : MheX K d ne) :
    cfg.InBounds o ↔
      (∀ k, 1 ≤ k → k < cfg.N → Within cfg.xlb cfg.xub (cfg.X o k)) ∧
      (∀ k < cfg.N, Within cfg.zlb cfg.zub (cfg.Z o k)) ∧
      (∀ k < cfg.N, Within cfg.ulb cfg.uub (cfg.uPhys o k)) ∧
      (∀ k < cfg.nEps, ∀ call ∈ cfg.nl, call.soft = true → ∀ i < call.dim,
        0 ≤ o.eps k call.name i ∧ call.maxViolation.ge (o.eps k call.name i)) ∧
      Within cfg.plb cfg.pub (cfg.pEstPhys o) := by
  unfold MheCfg.InBounds
  rw [mhe_slack_iff cfg hn]
  refine and_congr ?_ (and_congr ?_ (and_congr ?_ (and_congr Iff.rfl ?_)))
  · constructor
    · intro H k h1 h2 j
      have := H k h2.le cfg.xLast le_rfl j
      simp only [MheCfg.lbx, MheCfg.ubx, MheCfg.updateBounds, hcons, Bool.false_eq_true, if_false, h1, h2, true_and, if_true,
        Bound.divBy_le _ (hx _), Bound.divBy_ge _ (hx _)] at this
      exact this
    · intro H k hk i hi j
      simp only [MheCfg.lbx, MheCfg.ubx, MheCfg.updateBounds, hcons, Bool.false_eq_true, if_false]
      split_ifs with h
      · obtain ⟨h1, h2, rfl⟩ := h
        rw [Bound.divBy_le _ (hx _), Bound.divBy_ge _ (hx _)]
        exact H k h1 h2 j
      · exact ⟨trivial, trivial⟩
  · constructor
    · intro H k hk j
      have := H k hk 0 (Nat.zero_le _) j
      simp only [MheCfg.lbx, MheCfg.ubx, MheCfg.updateBounds, hcons, Bool.false_eq_true, if_false, if_true,
        Bound.divBy_le _ (hz _), Bound.divBy_ge _ (hz _)] at this
      exact this
    · intro H k hk i hi j
      simp only [MheCfg.lbx, MheCfg.ubx, MheCfg.updateBounds, hcons, Bool.false_eq_true, if_false]
      split_ifs with h
      · subst h
        rw [Bound.divBy_le _ (hz _), Bound.divBy_ge _ (hz _)]
        exact H k hk j
      · exact ⟨trivial, trivial⟩
  · simp only [Within, MheCfg.lbx, MheCfg.ubx, MheCfg.updateBounds, Bound.divBy_le _ (hu _), Bound.divBy_ge _ (hu _)]
    rfl
  · simp only [Within, MheCfg.lbx, MheCfg.ubx, MheCfg.updateBounds, Bound.divBy_le _ (hp _), Bound.divBy_ge _ (hp _)]
    rfl
end

/-! ### C26: constraints and objective -/

/-- **C26** (constraints; partial: unscaled estimated parameters and the default `nl_cons_check_colloc_points = False`): the nonlinear
rows hold iff every user constraint holds in physical units at the beginning of every interval of the window, soft ones up to
their slack.  The current estimate (the end of the last interval) is not constrained, see `C26_fails_current_estimate`. -/
theorem C26_constraints_iff_partial (cfg : MheCfg K d ne ns) (hn : (cfg.nl.map (·.name)).Nodup) (hcol : cfg.nlColloc = false)
    (hsp : cfg.sp = 1) (o : MheX K d ne) (q : MheP K d ne ns) :
    (∃ rs, cfg.rows o q = .ok rs ∧ ∀ r ∈ rs, r.Holds) ↔
      ((∀ k < cfg.N, ∀ r ∈ cfg.dynRows o q k, r.Holds) ∧ (∀ k < cfg.N, ∀ r ∈ cfg.measRows o q k, r.Holds)) ∧
      RespectsOnWindow cfg.nl cfg.N (cfg.X o) (cfg.U o) (cfg.Z o) q.tvp (cfg.cat (cfg.pEstPhys o) q.pSet) (cfg.E o) := by
  rw [cfg.rows_spec o q (Or.inl hcol), ← and_assoc]
  apply and_congr Iff.rfl
  unfold RespectsOnWindow
  apply forall_congr'; intro k
  apply imp_congr Iff.rfl
  rw [cfg.nlRowsAt_holds hn hcol]
  have : cfg.pCat o q = cfg.cat (cfg.pEstPhys o) q.pSet := (cfg.par_of_one hsp o q).symm
  rw [this]

/-- The whole problem at once (discrete time, default settings, unscaled estimated parameters): a point is feasible iff, in physical
units, its trajectory follows the model with process noise, explains the measurements, respects the user's constraints up to the
slacks, and everything is within the user's bounds. -/
theorem C24_C25_C26_feasible_iff (m : DaeModel K d) (cfg : MheCfg K d ne ns) (hm : cfg.model = m)
    (hF : cfg.ifcn = discreteIfcn m cfg.sx cfg.su cfg.sz cfg.pScaling) (hcol : cfg.nlColloc = false) (hcons : cfg.consColloc = true)
    (hn : (cfg.nl.map (·.name)).Nodup) (hsp : cfg.sp = 1)
    (hx : ∀ i, 0 < cfg.sx i) (hu : ∀ i, 0 < cfg.su i) (hz : ∀ i, 0 < cfg.sz i) (o : MheX K d ne) (q : MheP K d ne ns) :
    cfg.Feasible o q ↔
      FollowsNoisyModel m cfg.N (cfg.X o) (cfg.U o) (cfg.Z o) o.w q.tvp (cfg.cat (cfg.pEstPhys o) q.pSet) ∧
      ExplainsMeasurements m cfg.N (cfg.X o) (cfg.U o) (cfg.Z o) o.v q.tvp (cfg.cat (cfg.pEstPhys o) q.pSet) q.yMeas ∧
      RespectsOnWindow cfg.nl cfg.N (cfg.X o) (cfg.U o) (cfg.Z o) q.tvp (cfg.cat (cfg.pEstPhys o) q.pSet) (cfg.E o) ∧
      (∀ k ≤ cfg.N, Within cfg.xlb cfg.xub (cfg.X o k)) ∧
      (∀ k < cfg.N, Within cfg.zlb cfg.zub (cfg.Z o k)) ∧
      (∀ k < cfg.N, Within cfg.ulb cfg.uub (cfg.U o k)) ∧
      (∀ k < cfg.nEps, ∀ call ∈ cfg.nl, call.soft = true → ∀ i < call.dim,
        0 ≤ o.eps k call.name i ∧ call.maxViolation.ge (o.eps k call.name i)) ∧
      Within cfg.plb cfg.pub (cfg.pEstPhys o) := by
  have hz0 : cfg.xLast = 0 := by simp [MheCfg.xLast, hF, discreteIfcn]
  have hz1 : cfg.zLast = 0 := by simp [MheCfg.zLast, hF, discreteIfcn]
  have hfe : cfg.Feasible o q ↔ (∃ rs, cfg.rows o q = .ok rs ∧ ∀ r ∈ rs, r.Holds) ∧ cfg.InBounds o := by
    unfold MheCfg.Feasible
    constructor
    · rintro ⟨rs, h1, h2, h3⟩; exact ⟨⟨rs, h1, h2⟩, h3⟩
    · rintro ⟨⟨rs, h1, h2⟩, h3⟩; exact ⟨rs, h1, h2, h3⟩
  rw [hfe, C26_constraints_iff_partial cfg hn hcol hsp, C24_bounds_iff_partial cfg hcons hn hx hu hz (by simp [hsp])]
  have hdyn : (∀ k < cfg.N, ∀ r ∈ cfg.dynRows o q k, r.Holds) ↔
      FollowsNoisyModel m cfg.N (cfg.X o) (cfg.U o) (cfg.Z o) o.w q.tvp (cfg.cat (cfg.pEstPhys o) q.pSet) := by
    unfold FollowsNoisyModel
    apply forall_congr'; intro k
    apply imp_congr Iff.rfl
    rw [cfg.dynRows_holds, hF, MheCfg.discrete_solvesW _ _ _ _ _ hx, cfg.pCat_mul]
    rfl
  have hmeas : (∀ k < cfg.N, ∀ r ∈ cfg.measRows o q k, r.Holds) ↔
      ExplainsMeasurements m cfg.N (cfg.X o) (cfg.U o) (cfg.Z o) o.v q.tvp (cfg.cat (cfg.pEstPhys o) q.pSet) q.yMeas := by
    have : cfg.pCat o q = cfg.cat (cfg.pEstPhys o) q.pSet := (cfg.par_of_one hsp o q).symm
    unfold ExplainsMeasurements
    apply forall_congr'; intro k
    apply imp_congr Iff.rfl
    rw [cfg.measRows_holds, hm, this]
  have hX : ∀ k, (∀ i ≤ cfg.xLast, Within cfg.xlb cfg.xub (cfg.xPhys o k i)) ↔ Within cfg.xlb cfg.xub (cfg.X o k) := by
    intro k; rw [hz0]
    constructor
    · intro h; have := h 0 le_rfl; unfold MheCfg.X; rwa [hz0]
    · intro h i hi
      have : i = 0 := by omega
      subst this; unfold MheCfg.X at h; rwa [hz0] at h
  have hZ : ∀ k, (∀ i ≤ cfg.zLast, Within cfg.zlb cfg.zub (cfg.zPhys o k i)) ↔ Within cfg.zlb cfg.zub (cfg.Z o k) := by
    intro k; rw [hz1]
    constructor
    · intro h; exact h 0 le_rfl
    · intro h i hi
      have : i = 0 := by omega
      subst this; exact h
  rw [hdyn, hmeas]
  simp only [hX, hZ]
  constructor
  · rintro ⟨⟨⟨h1, h2⟩, h3⟩, h4, h5, h6, h7, h8⟩
    exact ⟨h1, h2, h3, h4, h5, h6, h7, h8⟩
  · rintro ⟨h1, h2, h3, h4, h5, h6, h7, h8⟩
    exact ⟨⟨⟨h1, h2⟩, h3⟩, h4, h5, h6, h7, h8⟩

theorem foldl_two_add (l : List Nat) (f g : Nat → K) (a : K) :
    l.foldl (fun acc k => acc + f k + g k) a = a + (l.map fun k => f k + g k).sum := by
  induction l generalizing a with
  | nil => simp
  | cons x l ih => simp only [List.foldl_cons, List.map_cons, List.sum_cons, ih]; ring

/-- **C26** (objective; partial: the stage cost gets the scaled estimated parameters, so these must be unscaled): the objective is the
arrival cost at the physical first state and parameters plus, for every interval, the stage cost of its process and measurement
noise and the penalty of its slack. -/
theorem C26_objective_partial (cfg : MheCfg K d ne ns) (hsp : cfg.sp = 1) (o : MheX K d ne) (q : MheP K d ne ns) :
    cfg.obj o q = cfg.arrival (cfg.X o 0) q.xPrev (cfg.pEstPhys o) q.pEstPrev q.pSet +
      ((List.range cfg.N).map fun k =>
        cfg.stage (o.w k) (o.v k) (q.tvp k) (cfg.cat (cfg.pEstPhys o) q.pSet) + slackCost cfg.nl (cfg.E o k)).sum := by
  have : cfg.pCat o q = cfg.cat (cfg.pEstPhys o) q.pSet := (cfg.par_of_one hsp o q).symm
  unfold MheCfg.obj
  rw [foldl_two_add, this]
  simp only [epsTerm_eq_slackCost]
  rfl

/-- the quadratic form of a matrix -/
def Spec.quadForm {n : Nat} (P : Fin n → Fin n → K) (v : Fin n → K) : K := ∑ i, ∑ j, v i * P i j * v j

theorem quad_eq {n : Nat} (P : Mat K n n) (v : Vec K n) : quad P v = quadForm P v := by
  unfold quad quadForm
  rw [List.sum_ofFn]
  apply Finset.sum_congr rfl
  intro i _
  rw [List.sum_ofFn, Finset.mul_sum]
  exact Finset.sum_congr rfl fun j _ => by ring

/-- **C26** (default objective): `set_default_objective` succeeds iff a weight is given for every kind of noise and for the estimated
parameters the model has; then the stage cost is the quadratic form of the measurement noise plus that of the process noise, and
the arrival cost the quadratic forms of the deviations of the first state and of the estimated parameters from their priors. -/
theorem C26_default_objective (Px : Mat K d.nx d.nx) (Pv : Option (Mat K d.nv d.nv)) (Pp : Option (Mat K ne ne))
    (Pw : Option (Mat K d.nw d.nw)) :
    let r := defaultObjective (K := K) (d := d) (ne := ne) (ns := ns) Px Pv Pp Pw
    ((∃ f, r = .ok f) ↔ (Pv = none → d.nv = 0) ∧ (Pw = none → d.nw = 0) ∧ (Pp = none → ne = 0)) ∧
    ∀ stage arrival, r = .ok (stage, arrival) →
      (∀ w v tv p, stage w v tv p = (Pv.elim 0 fun P => quadForm P v) + (Pw.elim 0 fun P => quadForm P w)) ∧
      (∀ x xp p pp s, arrival x xp p pp s = quadForm Px (x - xp) + (Pp.elim 0 fun P => quadForm P (p - pp))) := by
  intro r
  have hr : r = defaultObjective Px Pv Pp Pw := rfl
  unfold defaultObjective at hr
  constructor
  · rw [hr]
    split_ifs with h1 h2 h3
    · simp only [Option.isNone_iff_eq_none] at h1
      simp [h1]
    · simp only [Option.isNone_iff_eq_none] at h2
      simp [h2]
    · simp only [Option.isNone_iff_eq_none] at h3
      simp [h3]
    · simp only [Option.isNone_iff_eq_none, not_and, not_not] at h1 h2 h3
      exact ⟨fun _ => ⟨h1, h2, h3⟩, fun _ => ⟨_, rfl⟩⟩
  · intro stage arrival h
    rw [hr] at h
    split_ifs at h
    injection h with h
    obtain ⟨rfl, rfl⟩ := Prod.mk.inj h
    constructor
    · intro w v tv p
      cases Pv <;> cases Pw <;> simp [quad_eq]
    · intro x xp p pp s
      cases Pp <;> simp [quad_eq]

/-- **C26** is false for `nl_cons_check_colloc_points = True` with a discrete-time model: creating the problem raises. -/
theorem C26_fails_colloc_setting (m : DaeModel K d) (cfg : MheCfg K d ne ns) (hN : 0 < cfg.N)
    (hF : cfg.ifcn = discreteIfcn m cfg.sx cfg.su cfg.sz cfg.pScaling) (hcol : cfg.nlColloc = true)
    (o : MheX K d ne) (q : MheP K d ne ns) : cfg.rows o q = .error "NameError" := by
  have hne : cfg.ifcn.ncoll = 0 := by rw [hF]; rfl
  have hk : ∀ k, cfg.nlRowsAt o q k = .error "NameError" := by
    intro k; unfold MheCfg.nlRowsAt; rw [if_pos hcol, if_pos hne]
  unfold MheCfg.rows
  obtain ⟨n, hn⟩ : ∃ n, cfg.N = n + 1 := ⟨cfg.N - 1, by omega⟩
  rw [hn, List.range_succ_eq_map, List.foldl_cons]
  simp only [hk]
  generalize List.map Nat.succ (List.range n) = l
  induction l with
  | nil => rfl
  | cons k l ih => simpa using ih

/-! ### Counterexamples and non-vacuity -/

namespace MheExample
/-- one state, one parameter, process noise, measurement noise, one output -/
abbrev dd : Dims := ⟨1, 0, 0, 0, 1, 1, 1, 1, 0⟩
/-- `x⁺ = x + p + w`, `y = x + p + v` -/
abbrev mm : DaeModel ℚ dd where
  rhs := fun x _ _ _ p w => x + p + w
  alg := fun _ _ _ _ _ _ => Fin.elim0
  meas := fun x _ _ _ p v => x + p + v
  aux := fun _ _ _ _ _ => Fin.elim0
/-- estimator with the single parameter estimated -/
abbrev cfg (N : Nat) (sx sp : ℚ) (nl : List (NlCall ℚ dd)) (consColloc nlColloc : Bool) (xub : ℚ) : MheCfg ℚ dd 1 0 where
  N := N
  model := mm
  consColloc := consColloc
  nlColloc := nlColloc
  ifcn := discreteIfcn mm (fun _ => sx) Fin.elim0 Fin.elim0 (fun _ => sp)
  sel := fun _ => .inl 0
  sx := fun _ => sx
  su := Fin.elim0
  sz := Fin.elim0
  sp := fun _ => sp
  xlb := fun _ => .ninf
  xub := fun _ => .fin xub
  ulb := fun _ => .ninf
  uub := fun _ => .pinf
  zlb := fun _ => .ninf
  zub := fun _ => .pinf
  plb := fun _ => .ninf
  pub := fun _ => .pinf
  nl := nl
  stage := fun w v _ _ => w 0 ^ 2 + v 0 ^ 2
  arrival := fun x xp p pp _ => (x 0 - xp 0) ^ 2 + (p 0 - pp 0) ^ 2
/-- a point with states `xs` (scaled), parameter `p` (scaled), no noise -/
abbrev pt (xs : Nat → ℚ) (p : ℚ) : MheX ℚ dd 1 :=
  ⟨fun k _ _ => xs k, fun _ _ => Fin.elim0, fun _ => Fin.elim0, fun _ _ => 0, fun _ _ => 0, fun _ _ _ => 0, fun _ => p⟩
abbrev qq (y : Nat → ℚ) : MheP ℚ dd 1 0 := ⟨fun _ => 0, fun _ => 0, Fin.elim0, fun _ => Fin.elim0, fun k _ => y k⟩
end MheExample
open MheExample

theorem mheEx_scaling (N sx sp nl cc nc xub) : (cfg N sx sp nl cc nc xub).pScaling = fun _ => sp := by
  funext i; rfl

/-- Non-vacuity of `C24_C25_C26_feasible_iff` (and of its parts): a window of two intervals with state scaling 2, `x = 0, 1, 2`,
`p = 1`, `y = 2, 3` and the constraint `x ≤ 2` is feasible. -/
example : (cfg 2 2 1 [⟨"c", 1, fun x _ _ _ _ _ => x 0, .fin 2, false, 0, .pinf⟩] true false 2).Feasible
    (pt (fun k => (k : ℚ) / 2) 1) (qq fun k => (k : ℚ) + 2) := by
  rw [C24_C25_C26_feasible_iff mm _ rfl rfl rfl rfl (by decide) rfl (by intro i; norm_num) (fun i => i.elim0) (fun i => i.elim0)]
  refine ⟨?_, ?_, ?_, ?_, ?_, ?_, ?_, ?_⟩
  · intro k hk
    refine ⟨Subsingleton.elim (α := Fin 0 → ℚ) _ _, ?_⟩
    funext i
    simp [MheCfg.X, MheCfg.xPhys, MheCfg.cat, MheCfg.pEstPhys]
  · intro k hk
    funext i
    simp [MheCfg.X, MheCfg.xPhys, MheCfg.cat, MheCfg.pEstPhys]
    ring
  · intro k hk call hc i hi
    simp only [List.mem_singleton] at hc
    subst hc
    have h2 : k < 2 := hk
    have : (k : ℚ) ≤ 2 := by exact_mod_cast h2.le
    simpa [MheCfg.X, MheCfg.xPhys, Bound.ge] using this
  · intro k hk j
    have h2 : k ≤ 2 := hk
    have : (k : ℚ) ≤ 2 := by exact_mod_cast h2
    exact ⟨trivial, by simpa [MheCfg.X, MheCfg.xPhys, Bound.ge] using this⟩
  · intro k _ j; exact j.elim0
  · intro k _ j; exact j.elim0
  · intro k _ call hc hs
    simp only [List.mem_singleton] at hc
    subst hc; simp at hs
  · intro j; exact ⟨trivial, trivial⟩

/-- **C25** is false for scaled estimated parameters: with parameter scaling 2 the solver's point `x = 0, 2`, physical parameter 2,
no noise, satisfies all equality constraints for the measurement 3, although the model's output there is 4. -/
theorem C25_fails_scaled_parameters :
    let c := cfg 1 1 2 [] true false 10
    let o := pt (fun k => 2 * (k : ℚ)) 1
    (∃ rs, c.rows o (qq fun _ => 3) = .ok rs ∧ ∀ r ∈ rs, r.Holds) ∧
    ¬ ExplainsMeasurements mm 1 (c.X o) (c.U o) (c.Z o) o.v (fun _ => Fin.elim0) (c.cat (c.pEstPhys o) Fin.elim0) (fun _ _ => 3) := by
  intro c o
  constructor
  · rw [C25_rows_iff_as_coded mm c rfl (by intro i; exact one_pos) rfl rfl rfl]
    constructor
    · intro k hk
      refine ⟨Subsingleton.elim (α := Fin 0 → ℚ) _ _, ?_⟩
      funext i
      simp [c, o, MheCfg.X, MheCfg.xPhys, MheCfg.cat]
      ring
    · intro k hk
      have : k = 0 := Nat.lt_one_iff.mp hk
      subst this
      funext i
      simp [c, o, MheCfg.X, MheCfg.xPhys, MheCfg.cat]
      norm_num
  · intro h
    have := congrFun (h 0 one_pos) 0
    simp [c, o, MheCfg.X, MheCfg.xPhys, MheCfg.cat, MheCfg.pEstPhys] at this
    norm_num at this

/-- **C24** is false for `cons_check_colloc_points = False`: with the bound `x ≤ 1` the feasible point `x = 0, 2` returns the estimate
2. -/
theorem C24_fails_returned_estimate :
    let c := cfg 1 1 1 [] false false 1
    let o := pt (fun k => 2 * (k : ℚ)) 2
    c.Feasible o (qq fun _ => 4) ∧ ¬ Within c.xlb c.xub (c.X o c.N) := by
  intro c o
  constructor
  · have h : ∃ rs, c.rows o (qq fun _ => 4) = .ok rs ∧ ∀ r ∈ rs, r.Holds := by
      rw [C25_rows_iff_as_coded mm c rfl (by intro i; exact one_pos) rfl rfl rfl]
      constructor
      · intro k hk
        refine ⟨Subsingleton.elim (α := Fin 0 → ℚ) _ _, ?_⟩
        funext i
        simp [c, o, MheCfg.X, MheCfg.xPhys, MheCfg.cat]
        ring
      · intro k hk
        have : k = 0 := Nat.lt_one_iff.mp hk
        subst this
        funext i
        simp [c, o, MheCfg.X, MheCfg.xPhys, MheCfg.cat]
        norm_num
    obtain ⟨rs, h1, h2⟩ := h
    refine ⟨rs, h1, h2, ?_⟩
    rw [C24_bounds_without_colloc c rfl (by simp [c]) (by intro i; exact one_pos) (fun i => i.elim0) (fun i => i.elim0)
      (by intro i; exact one_pos)]
    refine ⟨?_, fun k _ j => j.elim0, fun k _ j => j.elim0, ?_, fun j => ⟨trivial, trivial⟩⟩
    · intro k h1 h2
      have : k < 1 := h2
      omega
    · intro k _ call hc
      simp [c] at hc
  · intro h
    have := (h 0).2
    simp [c, o, MheCfg.X, MheCfg.xPhys, Bound.ge] at this

/-- **C26** does not cover the current estimate: with the user constraint `x ≤ 1` the feasible point `x = 0, 2` returns an estimate
violating it. -/
theorem C26_fails_current_estimate :
    let call : NlCall ℚ dd := ⟨"c", 1, fun x _ _ _ _ _ => x 0, .fin 1, false, 0, .pinf⟩
    let c := cfg 1 1 1 [call] true false 10
    let o := pt (fun k => 2 * (k : ℚ)) 2
    c.Feasible o (qq fun _ => 4) ∧ ¬ call.ub.ge (c.X o c.N 0) := by
  intro call c o
  constructor
  · rw [C24_C25_C26_feasible_iff mm c rfl rfl rfl rfl (by simp [c]) rfl (by intro i; exact one_pos) (fun i => i.elim0) (fun i => i.elim0)]
    refine ⟨?_, ?_, ?_, ?_, fun k _ j => j.elim0, fun k _ j => j.elim0, ?_, fun j => ⟨trivial, trivial⟩⟩
    · intro k hk
      refine ⟨Subsingleton.elim (α := Fin 0 → ℚ) _ _, ?_⟩
      funext i
      simp [c, o, MheCfg.X, MheCfg.xPhys, MheCfg.cat, MheCfg.pEstPhys]
      ring
    · intro k hk
      have : k = 0 := Nat.lt_one_iff.mp hk
      subst this
      funext i
      simp [c, o, MheCfg.X, MheCfg.xPhys, MheCfg.cat, MheCfg.pEstPhys]
      norm_num
    · intro k hk cl hc i hi
      have : k = 0 := Nat.lt_one_iff.mp hk
      subst this
      simp only [c, List.mem_singleton] at hc
      subst hc
      simp [c, o, MheCfg.X, MheCfg.xPhys, Bound.ge, call]
    · intro k hk j
      have h2 : k ≤ 1 := hk
      have : (k : ℚ) ≤ 1 := by exact_mod_cast h2
      refine ⟨trivial, ?_⟩
      simp only [c, o, MheCfg.X, MheCfg.xPhys, Bound.ge, Pi.mul_apply]
      linarith
    · intro k _ cl hc hs
      simp only [c, List.mem_singleton] at hc
      subst hc; simp [call] at hs
  · intro h
    simp [c, o, MheCfg.X, MheCfg.xPhys, Bound.ge, call] at h

end DoMpc
