import Verif.Lemmas.MpcDecide
import Verif.Lemmas.MpcNlp
import Mathlib.Tactic.NormNum

/-! # Properties C04–C07: feasible set of the MPC problem -/
set_option linter.unusedSectionVars false
namespace DoMpc
open Spec
variable {K : Type} [Field K] [LinearOrder K] [IsStrictOrderedRing K] {d : Dims}

/-- **C04** (discrete-time models) and **C07** (default settings) in one equivalence: a point satisfies the constraints
`g` of the MPC problem iff, in physical units, it starts at the measured state, follows the model on every scenario,
and satisfies every user constraint at every node and realisation.  No bound on horizon, tree, dimensions. -/
theorem C04_C07_rows_iff_discrete (m : DaeModel K d) (cfg : MpcCfg K d)
    (hif : cfg.ifcn = discreteIfcn m cfg.sx cfg.su cfg.sz 1)
    (hc : 0 < cfg.c) (hx : ∀ i, 0 < cfg.sx i) (hcol : cfg.nlColloc = false)
    (hn : (cfg.nl.map (·.name)).Nodup) (w : OptX K d) (q : OptP K d) :
    (∀ r ∈ cfg.rows w q, r.Holds) ↔
      FollowsModel m cfg.c cfg.nRobust cfg.N q.x0 q.tvp q.p (cfg.X w) (cfg.U w) (cfg.Z w 0) ∧
      RespectsConstraints cfg.nl cfg.c cfg.nRobust cfg.N q.tvp q.p (cfg.X w) (cfg.U w) (cfg.Z w 0) (cfg.E w) := by
  rw [rows_holds, nlRows_holds cfg hc hcol hn, initRows_holds cfg hx]
  have h1 := loop_forall cfg hc (fun k s ch cur => cfg.ifcn.Solves (w.x k s cfg.xLast) (w.x (k+1) ch)
    (w.u k (cfg.sU s)) (w.z k ch) (q.tvp k) (q.p cur) (w.x (k+1) ch cfg.xLast))
  simp only [dynRows_holds]
  rw [h1]
  unfold FollowsModel
  rw [and_assoc]
  apply and_congr Iff.rfl
  apply and_congr _ Iff.rfl
  refine forall_congr' fun k => forall_congr' fun hk => forall_congr' fun h => forall_congr' fun hh =>
    forall_congr' fun r => forall_congr' fun hr => ?_
  rw [discrete_solves m cfg hif hx]
  rfl

/-- **C04**, soundness read off the full problem: every feasible point follows the model on every scenario. -/
theorem C04_feasible_follows_model (m : DaeModel K d) (cfg : MpcCfg K d)
    (hif : cfg.ifcn = discreteIfcn m cfg.sx cfg.su cfg.sz 1)
    (hc : 0 < cfg.c) (hx : ∀ i, 0 < cfg.sx i) (w : OptX K d) (q : OptP K d) (hw : cfg.Feasible w q) :
    FollowsModel m cfg.c cfg.nRobust cfg.N q.x0 q.tvp q.p (cfg.X w) (cfg.U w) (cfg.Z w 0) := by
  have h := hw.1
  rw [rows_holds, initRows_holds cfg hx] at h
  refine ⟨h.1, ?_⟩
  have h1 := loop_forall cfg hc (fun k s ch cur => cfg.ifcn.Solves (w.x k s cfg.xLast) (w.x (k+1) ch)
    (w.u k (cfg.sU s)) (w.z k ch) (q.tvp k) (q.p cur) (w.x (k+1) ch cfg.xLast))
  have h2 := h.2.1
  simp only [dynRows_holds] at h2
  rw [h1] at h2
  intro k hk hist hh r hr
  have := h2 k hk hist hh r hr
  rw [discrete_solves m cfg hif hx] at this
  exact this

/-- **C04**, general discretisation: for any integrator the equality rows are exactly one system of interval equations
per stage, history and realisation, linking the node of the history to the node of the extended history. -/
theorem C04_rows_iff_any_discretisation (cfg : MpcCfg K d) (hc : 0 < cfg.c) (hx : ∀ i, 0 < cfg.sx i)
    (w : OptX K d) (q : OptP K d) (hnl : cfg.nl = []) :
    (∀ r ∈ cfg.rows w q, r.Holds) ↔
      cfg.X w 0 [] = q.x0 ∧
      ∀ k < cfg.N, ∀ h, IsHistory cfg.c cfg.nRobust k h → ∀ r, MayOccur cfg.c cfg.nRobust k h r →
        let ch := number cfg.c (extend cfg.nRobust k h r)
        cfg.ifcn.Solves (w.x k (number cfg.c h) cfg.xLast) (w.x (k+1) ch) (w.u k (cfg.sU (number cfg.c h))) (w.z k ch)
          (q.tvp k) (q.p r) (w.x (k+1) ch cfg.xLast) := by
  rw [rows_holds, initRows_holds cfg hx]
  have h1 := loop_forall cfg hc (fun k s ch cur => cfg.ifcn.Solves (w.x k s cfg.xLast) (w.x (k+1) ch)
    (w.u k (cfg.sU s)) (w.z k ch) (q.tvp k) (q.p cur) (w.x (k+1) ch cfg.xLast))
  simp only [dynRows_holds]
  rw [h1]
  have h3 : ∀ ksb ∈ cfg.loop, ∀ r ∈ cfg.nlRowsAt w q ksb.1 ksb.2.1 ksb.2.2, r.Holds := by
    intro ksb _ r hr
    simp [MpcCfg.nlRowsAt, nlRows, hnl] at hr
  exact ⟨fun h => ⟨h.1, h.2.1⟩, fun h => ⟨h.1, h.2, h3⟩⟩

/-- **C05** non-anticipativity: two scenarios that agree in what has been realised (inside the robust horizon) up to
stage `k` are at the same node, hence share the input variable of stage `k`; scenarios that differ there have
different input variables (no coupling beyond non-anticipativity), unless `open_loop` is set, in which case all
scenarios share the stage's input. -/
theorem C05_nonanticipative (cfg : MpcCfg K d) (hc : 0 < cfg.c) {rs rs' : List Nat} {s s' : Nat}
    (hp : cfg.Path rs s) (hp' : cfg.Path rs' s') (hl : rs.length = rs'.length) :
    (rs.take cfg.nRobust = rs'.take cfg.nRobust → cfg.sU s = cfg.sU s') ∧
    (cfg.openLoop = false → cfg.sU s = cfg.sU s' → rs.take cfg.nRobust = rs'.take cfg.nRobust) ∧
    (cfg.openLoop = true → cfg.sU s = 0) := by
  obtain ⟨_, hh, rfl⟩ := path_history cfg hc hp
  obtain ⟨_, hh', rfl⟩ := path_history cfg hc hp'
  refine ⟨fun h => by rw [h], ?_, fun h => by simp [MpcCfg.sU, h]⟩
  intro ho he
  simp only [MpcCfg.sU, ho] at he
  exact number_inj cfg.c _ _ (by simp [hl]) hh.2 hh'.2 (by simpa using he)

/-- the realised parameter freezes after the robust horizon along every path -/
theorem C02_path_parameter_freezes (cfg : MpcCfg K d) (hc : 0 < cfg.c) {rs : List Nat} {s b : Nat}
    (hp : cfg.Path rs s) (hl : rs.length < cfg.N) (hb : b < nBranches cfg.c cfg.nRobust rs.length)
    (hk : cfg.nRobust ≤ rs.length) :
    cfg.cur rs.length s b = (rs.take cfg.nRobust).getLastD 0 := by
  obtain ⟨_, hh, rfl⟩ := path_history cfg hc hp
  have ho := treeTables_offset cfg.N cfg.nRobust cfg.c hc hl (isHistory_number_lt hh)
  have hoff := offset_history hh
  unfold MpcCfg.cur MpcCfg.tree
  have hb0 : b = 0 := by unfold nBranches at hb; rw [if_neg (by omega)] at hb; omega
  rw [ho, hoff, if_neg (by omega), hb0]; simp

/-- **C06** bounds in physical units.  A point respects `lb_opt_x`/`ub_opt_x` iff, for every stage and scenario
number that exists: states at stages `1..N-1` respect the state bounds (on all points of the preceding interval when
`cons_check_colloc_points`, else at the node), nodes at stage `N` the terminal bounds, algebraic states and inputs theirs, and
slacks lie in `[0, maximum_violation]`. -/
theorem C06_bounds_iff_physical (cfg : MpcCfg K d)
    (hx : ∀ i, 0 < cfg.sx i) (hu : ∀ i, 0 < cfg.su i) (hz : ∀ i, 0 < cfg.sz i)
    (hn : (cfg.nl.map (·.name)).Nodup) (w : OptX K d) :
    cfg.InBounds w ↔
      (∀ k, 1 ≤ k → k < cfg.N → ∀ s < cfg.nMax, ∀ i ≤ cfg.xLast, (cfg.consColloc = true ∨ i = cfg.xLast) → ∀ j,
        (cfg.xlb j).le (cfg.xPhys w k s i j) ∧ (cfg.xub j).ge (cfg.xPhys w k s i j)) ∧
      (∀ s < cfg.nMax, ∀ j, (cfg.xtlb j).le (cfg.xPhys w cfg.N s cfg.xLast j) ∧
        (cfg.xtub j).ge (cfg.xPhys w cfg.N s cfg.xLast j)) ∧
      (∀ k < cfg.N, ∀ s < cfg.nMax, ∀ i ≤ cfg.zLast, (cfg.consColloc = true ∨ i = 0) → ∀ j,
        (cfg.zlb j).le (cfg.zPhys w k s i j) ∧ (cfg.zub j).ge (cfg.zPhys w k s i j)) ∧
      (∀ k < cfg.N, ∀ s < cfg.nU, ∀ j, (cfg.ulb j).le (cfg.uPhys w k s j) ∧ (cfg.uub j).ge (cfg.uPhys w k s j)) ∧
      (∀ k < cfg.nEps, ∀ s < cfg.nMax, ∀ sl ∈ cfg.nl, sl.soft = true → ∀ i < sl.dim,
        0 ≤ w.eps k s sl.name i ∧ sl.maxViolation.ge (w.eps k s sl.name i)) := by
  have hX : ∀ k s i j, cfg.xPhys w k s i j = w.x k s i j * cfg.sx j := fun _ _ _ _ => rfl
  have hZ : ∀ k s i j, cfg.zPhys w k s i j = w.z k s i j * cfg.sz j := fun _ _ _ _ => rfl
  have hU : ∀ k s j, cfg.uPhys w k s j = w.u k s j * cfg.su j := fun _ _ _ => rfl
  have lx : ∀ k s i j, (cfg.lbx.x k s i j).le (w.x k s i j) ↔
      (1 ≤ k ∧ k < cfg.N ∧ (cfg.consColloc = true ∨ i = cfg.xLast) → (cfg.xlb j).le (cfg.xPhys w k s i j)) ∧
      (k = cfg.N ∧ i = cfg.xLast → (cfg.xtlb j).le (cfg.xPhys w k s i j)) := by
    intro k s i j
    simp only [hX, ← Bound.divBy_le _ (hx j)]
    unfold MpcCfg.lbx MpcCfg.updateBounds OptXBounds.const
    by_cases h1 : k = cfg.N ∧ i = cfg.xLast
    · have h2 : ¬ (1 ≤ k ∧ k < cfg.N ∧ (cfg.consColloc = true ∨ i = cfg.xLast)) := by omega
      simp only [h1, and_self, if_true, true_imp_iff]
      simp
    · simp only [h1, if_false, false_imp_iff, and_true]
      by_cases hcc : cfg.consColloc = true
      · simp only [hcc, if_true, true_or, and_true]
        split_ifs with h3
        · simp [h3]
        · simp [h3, Bound.le]
      · simp only [hcc, false_or, Bool.false_eq_true, if_false]
        split_ifs with h3
        · simp [h3]
        · simp [h3, Bound.le]
  have ux : ∀ k s i j, (cfg.ubx.x k s i j).ge (w.x k s i j) ↔
      (1 ≤ k ∧ k < cfg.N ∧ (cfg.consColloc = true ∨ i = cfg.xLast) → (cfg.xub j).ge (cfg.xPhys w k s i j)) ∧
      (k = cfg.N ∧ i = cfg.xLast → (cfg.xtub j).ge (cfg.xPhys w k s i j)) := by
    intro k s i j
    simp only [hX, ← Bound.divBy_ge _ (hx j)]
    unfold MpcCfg.ubx MpcCfg.updateBounds OptXBounds.const
    by_cases h1 : k = cfg.N ∧ i = cfg.xLast
    · have h2 : ¬ (1 ≤ k ∧ k < cfg.N ∧ (cfg.consColloc = true ∨ i = cfg.xLast)) := by omega
      simp only [h1, and_self, if_true, true_imp_iff]
      simp
    · simp only [h1, if_false, false_imp_iff, and_true]
      by_cases hcc : cfg.consColloc = true
      · simp only [hcc, if_true, true_or, and_true]
        split_ifs with h3
        · simp [h3]
        · simp [h3, Bound.ge]
      · simp only [hcc, false_or, Bool.false_eq_true, if_false]
        split_ifs with h3
        · simp [h3]
        · simp [h3, Bound.ge]
  have lz : ∀ k s i j, (cfg.lbx.z k s i j).le (w.z k s i j) ↔
      ((cfg.consColloc = true ∨ i = 0) → (cfg.zlb j).le (cfg.zPhys w k s i j)) := by
    intro k s i j
    simp only [hZ, ← Bound.divBy_le _ (hz j)]
    unfold MpcCfg.lbx MpcCfg.updateBounds OptXBounds.const
    by_cases hcc : cfg.consColloc = true
    · simp [hcc]
    · simp only [hcc, false_or, Bool.false_eq_true, if_false]
      split_ifs with h3
      · simp [h3]
      · simp [h3, Bound.le]
  have uz : ∀ k s i j, (cfg.ubx.z k s i j).ge (w.z k s i j) ↔
      ((cfg.consColloc = true ∨ i = 0) → (cfg.zub j).ge (cfg.zPhys w k s i j)) := by
    intro k s i j
    simp only [hZ, ← Bound.divBy_ge _ (hz j)]
    unfold MpcCfg.ubx MpcCfg.updateBounds OptXBounds.const
    by_cases hcc : cfg.consColloc = true
    · simp [hcc]
    · simp only [hcc, false_or, Bool.false_eq_true, if_false]
      split_ifs with h3
      · simp [h3]
      · simp [h3, Bound.ge]
  have lu : ∀ k s j, (cfg.lbx.u k s j).le (w.u k s j) ↔ (cfg.ulb j).le (cfg.uPhys w k s j) := by
    intro k s j
    simp only [hU, ← Bound.divBy_le _ (hu j)]; rfl
  have uu : ∀ k s j, (cfg.ubx.u k s j).ge (w.u k s j) ↔ (cfg.uub j).ge (cfg.uPhys w k s j) := by
    intro k s j
    simp only [hU, ← Bound.divBy_ge _ (hu j)]; rfl
  unfold MpcCfg.InBounds
  simp only [lx, ux, lz, uz, lu, uu]
  have le : ∀ k s n i, cfg.lbx.eps k s n i = .fin 0 := fun _ _ _ _ => rfl
  have ue : ∀ k s n i, cfg.ubx.eps k s n i = epsUb cfg.nl n := fun _ _ _ _ => rfl
  simp only [le, ue, slackVars, List.mem_filter]
  constructor
  · rintro ⟨h1, h2, h3, h4⟩
    refine ⟨?_, ?_, ?_, h3, ?_⟩
    · intro k hk1 hk2 s hs i hi hcond j
      have := h1 k (by omega) s hs i hi j
      exact ⟨this.1.1 ⟨hk1, hk2, hcond⟩, this.2.1 ⟨hk1, hk2, hcond⟩⟩
    · intro s hs j
      have := h1 cfg.N le_rfl s hs cfg.xLast le_rfl j
      exact ⟨this.1.2 ⟨rfl, rfl⟩, this.2.2 ⟨rfl, rfl⟩⟩
    · intro k hk s hs i hi hcond j
      exact ⟨(h2 k hk s hs i hi j).1 hcond, (h2 k hk s hs i hi j).2 hcond⟩
    · intro k hk s hs sl hsl hsoft i hi
      have := h4 k hk s hs sl ⟨hsl, hsoft⟩ i hi
      rw [epsUb_eq cfg.nl hn sl hsl hsoft] at this
      exact this
  · rintro ⟨h1, h2, h3, h4, h5⟩
    refine ⟨?_, ?_, h4, ?_⟩
    · intro k hk s hs i hi j
      refine ⟨⟨fun hc => (h1 k hc.1 hc.2.1 s hs i hi hc.2.2 j).1, ?_⟩, ⟨fun hc => (h1 k hc.1 hc.2.1 s hs i hi hc.2.2 j).2, ?_⟩⟩
      · rintro ⟨rfl, rfl⟩; exact (h2 s hs j).1
      · rintro ⟨rfl, rfl⟩; exact (h2 s hs j).2
    · intro k hk s hs i hi j
      exact ⟨fun hc => (h3 k hk s hs i hi hc j).1, fun hc => (h3 k hk s hs i hi hc j).2⟩
    · rintro k hk s hs sl ⟨hsl, hsoft⟩ i hi
      rw [epsUb_eq cfg.nl hn sl hsl hsoft]
      exact h5 k hk s hs sl hsl hsoft i hi

/-- **C06**: the node of every history is within bounds (physical units), for every feasible point. -/
theorem C06_feasible_nodes_within_bounds (cfg : MpcCfg K d) (hc : 0 < cfg.c)
    (hx : ∀ i, 0 < cfg.sx i) (hu : ∀ i, 0 < cfg.su i) (hz : ∀ i, 0 < cfg.sz i)
    (hn : (cfg.nl.map (·.name)).Nodup) (w : OptX K d) (q : OptP K d) (hw : cfg.Feasible w q) :
    (∀ k, 1 ≤ k → k < cfg.N → ∀ h, IsHistory cfg.c cfg.nRobust k h → ∀ j,
      (cfg.xlb j).le (cfg.X w k h j) ∧ (cfg.xub j).ge (cfg.X w k h j)) ∧
    (∀ h, IsHistory cfg.c cfg.nRobust cfg.N h → ∀ j,
      (cfg.xtlb j).le (cfg.X w cfg.N h j) ∧ (cfg.xtub j).ge (cfg.X w cfg.N h j)) ∧
    (∀ k < cfg.N, ∀ h, IsHistory cfg.c cfg.nRobust k h → ∀ j,
      (cfg.ulb j).le (cfg.U w k h j) ∧ (cfg.uub j).ge (cfg.U w k h j)) := by
  have hB := (C06_bounds_iff_physical cfg hx hu hz hn w).mp hw.2
  have hlt : ∀ k h, IsHistory cfg.c cfg.nRobust k h → number cfg.c h < cfg.nMax := by
    intro k h hh
    refine lt_of_lt_of_le (isHistory_number_lt hh) ?_
    exact Nat.pow_le_pow_right hc (by omega)
  refine ⟨fun k h1 h2 h hh j => hB.1 k h1 h2 _ (hlt k h hh) _ le_rfl (Or.inr rfl) j,
    fun h hh j => hB.2.1 _ (hlt _ h hh) j, fun k hk h hh j => ?_⟩
  apply hB.2.2.2.1 k hk
  unfold MpcCfg.nU
  split_ifs
  · omega
  · exact hlt k h hh

/-- **C06**: the initial state is never bounded: any stage-0 states are as good as any others. -/
theorem C06_initial_state_unbounded (cfg : MpcCfg K d) (hN : 0 < cfg.N) (w : OptX K d) (x : Nat → Nat → Vec K d.nx) :
    cfg.InBounds { w with x := fun k s i => if k = 0 then x s i else w.x k s i } ↔ cfg.InBounds w := by
  have h0 : ∀ s i j v, (cfg.lbx.x 0 s i j).le v ∧ (cfg.ubx.x 0 s i j).ge v := by
    intro s i j v
    unfold MpcCfg.lbx MpcCfg.ubx MpcCfg.updateBounds OptXBounds.const
    have hne : ¬ (0 = cfg.N) := by omega
    by_cases hcc : cfg.consColloc = true <;> simp [hne, hcc, Bound.le, Bound.ge]
  unfold MpcCfg.InBounds
  refine and_congr ?_ Iff.rfl
  refine forall_congr' fun k => forall_congr' fun hk => forall_congr' fun s => forall_congr' fun hs =>
    forall_congr' fun i => forall_congr' fun hi => forall_congr' fun j => ?_
  by_cases hk0 : k = 0
  · subst hk0; exact ⟨fun _ => h0 _ _ _ _, fun _ => h0 _ _ _ _⟩
  · simp only [hk0, if_false]

/-- **C07** for every feasible point (default settings): hard constraints hold at every node and realisation; soft ones up to
some slack between 0 and the maximum violation. -/
theorem C07_feasible_respects_constraints (cfg : MpcCfg K d) (hc : 0 < cfg.c)
    (hx : ∀ i, 0 < cfg.sx i) (hu : ∀ i, 0 < cfg.su i) (hz : ∀ i, 0 < cfg.sz i)
    (hcol : cfg.nlColloc = false) (hn : (cfg.nl.map (·.name)).Nodup) (w : OptX K d) (q : OptP K d)
    (hw : cfg.Feasible w q) :
    ∀ k < cfg.N, ∀ h, IsHistory cfg.c cfg.nRobust k h → ∀ r, MayOccur cfg.c cfg.nRobust k h r →
      ∀ call ∈ cfg.nl, ∀ i < call.dim, ∃ e : K,
        (call.soft = false → e = 0) ∧ 0 ≤ e ∧ (call.soft = true → call.maxViolation.ge e) ∧
        call.ub.ge (call.expr (cfg.X w k h) (cfg.U w k h) (cfg.Z w 0 k h) (q.tvp k) (q.p r) i - e) := by
  intro k hk h hh r hr call hcall i hi
  have hrow := hw.1
  rw [rows_holds, nlRows_holds cfg hc hcol hn] at hrow
  have := hrow.2.2 k hk h hh r hr call hcall i hi
  by_cases hs : call.soft = true
  · rw [if_pos hs] at this
    have hB := ((C06_bounds_iff_physical cfg hx hu hz hn w).mp hw.2).2.2.2.2
    have hnm : number cfg.c h < cfg.nMax :=
      lt_of_lt_of_le (isHistory_number_lt hh) (Nat.pow_le_pow_right hc (by omega))
    have hke : (if cfg.singleSlack then 0 else k) < cfg.nEps := by
      unfold MpcCfg.nEps; split_ifs <;> omega
    have hb := hB _ hke _ hnm call hcall hs i hi
    exact ⟨_, by simp [hs], hb.1, fun _ => hb.2, this⟩
  · rw [if_neg hs] at this
    exact ⟨0, fun _ => rfl, le_rfl, fun h => absurd h hs, by simpa using this⟩

/-! ## Non-vacuity: a concrete feasible point of a robust problem

`x⁺ = x/2 + u + p`, `p ∈ {0,1}`, horizon 2, robust horizon 1, scaling `sx = 2`, `su = 3`, a hard and a soft constraint. -/

/-- dimensions of the example -/
def exDims : Dims := { nx := 1, nu := 1, nz := 0, ntv := 0, np := 1 }

/-- model of the example -/
def exModel : DaeModel ℚ exDims where
  rhs := fun x u _ _ p _ _ => x ⟨0, by decide⟩ / 2 + u ⟨0, by decide⟩ + p ⟨0, by decide⟩
  alg := fun _ _ z _ _ _ => z
  meas := fun _ _ _ _ _ v => v
  aux := fun _ _ _ _ _ i => i.elim0

/-- controller of the example -/
def exCfg : MpcCfg ℚ exDims where
  N := 2
  nRobust := 1
  c := 2
  ifcn := discreteIfcn exModel (fun _ => 2) (fun _ => 3) (fun _ => 1) 1
  sx := fun _ => 2
  su := fun _ => 3
  sz := fun _ => 1
  xlb := fun _ => .fin (-10)
  xub := fun _ => .fin 10
  ulb := fun _ => .fin (-1)
  uub := fun _ => .fin 1
  zlb := fun _ => .ninf
  zub := fun _ => .pinf
  xtlb := fun _ => .ninf
  xtub := fun _ => .fin 2
  nl := [{ name := "hard", dim := 1, expr := fun x _ _ _ _ _ => x ⟨0, by decide⟩, ub := .fin 20, penalty := 1 },
         { name := "soft", dim := 1, expr := fun x _ _ _ _ _ => x ⟨0, by decide⟩, ub := .fin 1, soft := true,
           penalty := 3, maxViolation := .fin 5 }]
  lterm := fun x u _ _ _ => x ⟨0, by decide⟩ ^ 2 + u ⟨0, by decide⟩ ^ 2
  mterm := fun x _ _ => x ⟨0, by decide⟩ ^ 2
  rterm := .factor fun _ => 1

/-- a feasible point of the example (scaled states: half the physical ones) -/
def exW : OptX ℚ exDims where
  x := fun k s _ _ => match k, s with
    | 0, _ => 1 / 2 | 1, 0 => 1 / 4 | 1, _ => 3 / 4 | _, 0 => 1 / 8 | _, _ => 7 / 8
  z := fun _ _ _ _ => 0
  u := fun _ _ _ => 0
  eps := fun _ s n _ => if n = "soft" ∧ s = 1 then 1 / 2 else 0

/-- parameters of the example -/
def exQ : OptP ℚ exDims where
  x0 := fun _ => 1
  tvp := fun _ _ => 0
  p := fun r _ => r
  uPrev := fun _ => 0

/-- The hypotheses of the C04–C07 theorems are met by a feasible point of a robust, scaled, soft-constrained problem. -/
example : exCfg.Feasible exW exQ ∧ exCfg.ifcn = discreteIfcn exModel exCfg.sx exCfg.su exCfg.sz 1 ∧ 0 < exCfg.c ∧
    (∀ i, 0 < exCfg.sx i) ∧ exCfg.nlColloc = false ∧ (exCfg.nl.map (·.name)).Nodup := by
  refine ⟨by decide +kernel, rfl, by decide, fun i => ?_, rfl, by decide⟩
  show (0 : ℚ) < 2
  norm_num

end DoMpc
