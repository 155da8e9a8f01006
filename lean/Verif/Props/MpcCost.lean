import Verif.Lemmas.MpcCost
import Verif.Props.MpcNlp

/-! # Properties C08, C09: objective of the MPC problem -/
set_option linter.unusedSectionVars false
namespace DoMpc
open Spec
variable {K : Type} [Field K] [LinearOrder K] [IsStrictOrderedRing K] {d : Dims}

theorem epsTerm_eq_slackCost (calls : List (NlCall K d)) (e : Eps K) : epsTerm calls e = slackCost calls e := by
  unfold epsTerm slackCost slackVars
  induction calls with
  | nil => simp
  | cons a t ih => by_cases ha : a.soft = true <;> simp [List.filter_cons, ha, ih]

theorem noAlgBranching_Z (cfg : MpcCfg K d) (hz : cfg.NoAlgBranching) (w : OptX K d) (i k : Nat) {h : List Nat} {r : Nat}
    (hh : IsHistory cfg.c cfg.nRobust k h) (hr : MayOccur cfg.c cfg.nRobust k h r) :
    cfg.Z w i k (extend cfg.nRobust k h r) = cfg.Z w i k h := by
  rcases hz with hz | hz | hz
  · funext j; exact absurd j.2 (by omega)
  · simp [extend, hz]
  · have h1 := isHistory_number_lt hh
    have h2 := isHistory_number_lt (isHistory_extend hh hr)
    simp only [nScenarios, hz, one_pow] at h1 h2
    unfold MpcCfg.Z
    rw [hz, show number 1 h = 0 by omega, show number 1 (extend cfg.nRobust k h r) = 0 by omega]

/-- The three parts of the objective. -/
theorem obj_split (cfg : MpcCfg K d) (hc : 0 < cfg.c) (w : OptX K d) (q : OptP K d) :
    cfg.obj w q = (cfg.loop.map fun ksb => cfg.econAt w q ksb.1 ksb.2.1 ksb.2.2).sum +
      (cfg.loop.map fun ksb => cfg.slackAt w ksb.1 ksb.2.1).sum +
      (cfg.loop.map fun ksb => cfg.rtermAt w q ksb.1 ksb.2.1 ksb.2.2).sum := by
  unfold MpcCfg.obj
  rw [sum_map_add', sum_map_add']

theorem econ_eq (cfg : MpcCfg K d) (hc : 0 < cfg.c) (hN : cfg.nRobust < cfg.N) (hz : cfg.NoAlgBranching)
    (w : OptX K d) (q : OptP K d) :
    (cfg.loop.map fun ksb => cfg.econAt w q ksb.1 ksb.2.1 ksb.2.2).sum =
      averageCost cfg.c cfg.N cfg.nRobust (cfg.stageCost w q) (cfg.leafCost w q) := by
  have h1 := loop_sum cfg hc (fun k s cur =>
    cfg.omega k * cfg.lterm (cfg.xPhys w k s cfg.xLast) (cfg.uPhys w k (cfg.sU s)) (cfg.zPhys w k s cfg.zLast) (q.tvp k) (q.p cur) +
    (if k = cfg.N - 1 then cfg.omega k * cfg.mterm (cfg.xPhys w (k + 1) s cfg.xLast) (q.tvp (k + 1)) (q.p cur) else 0))
  unfold MpcCfg.econAt
  rw [h1, branchSum_add, ← weighted_eq_average cfg.c cfg.N cfg.nRobust hc (by omega)]
  congr 1
  · unfold branchSum
    apply sum_map_congr
    intro k hk
    unfold MpcCfg.omega nScenarios
    rw [← sum_map_mul_left']
    apply sum_map_congr
    intro h hh
    rw [← sum_map_mul_left']
    apply sum_map_congr
    intro r hr
    congr 1
    unfold MpcCfg.stageCost
    rw [noAlgBranching_Z cfg hz w _ k ((mem_allHistories_iff ..).mp hh) ((mem_occurring ..).mp hr)]
    rfl
  · unfold branchSum
    have h2 : ((List.range cfg.N).map fun k => ((allHistories cfg.c (min k cfg.nRobust)).map fun h =>
        ((occurring cfg.c cfg.nRobust k h).map fun r => if k = cfg.N - 1 then cfg.omega k * cfg.mterm (cfg.xPhys w (k + 1) (number cfg.c h) cfg.xLast) (q.tvp (k + 1)) (q.p r) else 0).sum).sum).sum =
        ((List.range cfg.N).map fun k => if k = cfg.N - 1 then ((allHistories cfg.c (min k cfg.nRobust)).map fun h =>
        ((occurring cfg.c cfg.nRobust k h).map fun r => cfg.omega k * cfg.mterm (cfg.xPhys w (k + 1) (number cfg.c h) cfg.xLast) (q.tvp (k + 1)) (q.p r)).sum).sum else 0).sum := by
      apply sum_map_congr
      intro k _
      split_ifs with hk
      · rfl
      · simp only [sum_map_const, mul_zero]
    rw [h2, sum_last cfg.N (by omega)]
    rw [← sum_map_mul_left']
    apply sum_map_congr
    intro h hh
    rw [← sum_map_mul_left']
    apply sum_map_congr
    intro r hr
    unfold MpcCfg.omega nScenarios MpcCfg.leafCost MpcCfg.X
    rw [show cfg.N - 1 + 1 = cfg.N by omega]
    congr 2
    unfold extend
    rw [if_neg (by omega)]

/-- **C08** (partial: robust horizon shorter than the prediction horizon, and no algebraic states that differ between
branches).  The objective is the average over all scenarios of stage costs plus the terminal cost of the scenario's own leaf,
plus the (unweighted) slack penalties and input-change penalties of all branches. -/
theorem C08_objective_average_partial (cfg : MpcCfg K d) (hc : 0 < cfg.c) (hN : cfg.nRobust < cfg.N)
    (hz : cfg.NoAlgBranching) (w : OptX K d) (q : OptP K d) :
    cfg.obj w q = averageCost cfg.c cfg.N cfg.nRobust (cfg.stageCost w q) (cfg.leafCost w q) +
      branchSum cfg.c cfg.N cfg.nRobust (fun k h _ => slackCost cfg.nl (cfg.E w k h)) +
      (cfg.loop.map fun ksb => cfg.rtermAt w q ksb.1 ksb.2.1 ksb.2.2).sum := by
  rw [obj_split cfg hc, econ_eq cfg hc hN hz]
  congr 2
  have h1 := loop_sum cfg hc (fun k s _ => epsTerm cfg.nl (w.eps (cfg.kEps k) s))
  unfold MpcCfg.slackAt
  rw [h1]
  apply branchSum_congr
  intro k hk h _ r _
  rw [epsTerm_eq_slackCost, kEps_eq cfg hk]
  rfl

theorem number_replicate_zero (c n : Nat) : number c (List.replicate n 0) = 0 := by
  induction n with
  | zero => simp [number]
  | succ n ih => rw [List.replicate_succ', number_append, ih]; simp

/-- The previous input the code looks up, times the scaling, is the physical previous input. -/
theorem uOld_eq (cfg : MpcCfg K d) (hc : 0 < cfg.c) (hu : ∀ i, 0 < cfg.su i) (w : OptX K d) (q : OptP K d) {k : Nat}
    (hk : k < cfg.N) {h : List Nat} (hh : IsHistory cfg.c cfg.nRobust k h) :
    (if k = 0 then q.uPrev / cfg.su else w.u (k - 1) (cfg.par k (cfg.sU (number cfg.c h)))) =
      inputBefore cfg.nRobust q.uPrev (cfg.U w) k h / cfg.su := by
  unfold inputBefore
  by_cases h0 : k = 0
  · simp only [if_pos h0]
  · simp only [if_neg h0]
    have key : cfg.par k (cfg.sU (number cfg.c h)) =
        if cfg.openLoop then 0 else number cfg.c (previous cfg.nRobust k h) := by
      unfold MpcCfg.sU
      split_ifs with ho
      · have hh0 : IsHistory cfg.c cfg.nRobust k (List.replicate (min k cfg.nRobust) 0) :=
          ⟨by simp, fun b hb => by rw [List.eq_of_mem_replicate hb]; exact hc⟩
        have h4 := par_history cfg hc h0 hk hh0
        unfold previous at h4
        rwa [List.take_replicate, number_replicate_zero, number_replicate_zero] at h4
      · exact par_history cfg hc h0 hk hh
    rw [key]
    unfold MpcCfg.U MpcCfg.uPhys
    funext j
    simp only [Pi.mul_apply, Pi.div_apply]
    rw [mul_div_cancel_right₀ _ (hu j).ne']

/-- **C09**, default penalty: every branch of every node is charged `factor` times the squared change, in scaled units, from
the input of the node one stage earlier on the same scenario (from the input applied last at stage 0). -/
theorem C09_default_change_penalty (cfg : MpcCfg K d) (hc : 0 < cfg.c) (hu : ∀ i, 0 < cfg.su i) (r : Vec K d.nu)
    (hr : cfg.rterm = .factor r) (w : OptX K d) (q : OptP K d) :
    (cfg.loop.map fun ksb => cfg.rtermAt w q ksb.1 ksb.2.1 ksb.2.2).sum =
      branchSum cfg.c cfg.N cfg.nRobust fun k h _ =>
        (List.ofFn fun j => r j * ((cfg.U w k h j - inputBefore cfg.nRobust q.uPrev (cfg.U w) k h j) / cfg.su j) ^ 2).sum := by
  have h1 := loop_sum cfg hc (fun k s _ => (List.ofFn fun j => r j * (w.u k (cfg.sU s) j -
    (if k = 0 then q.uPrev / cfg.su else w.u (k - 1) (cfg.par k (cfg.sU s))) j) ^ 2).sum)
  unfold MpcCfg.rtermAt
  rw [hr]
  simp only
  rw [h1]
  apply branchSum_congr
  intro k hk h hh _ _
  rw [uOld_eq cfg hc hu w q hk hh]
  congr 2
  funext j
  have hne := (hu j).ne'
  congr 2
  unfold MpcCfg.U MpcCfg.uPhys MpcCfg.sU
  simp only [Pi.mul_apply, Pi.div_apply]
  field_simp

/-- **C09**, user penalty (partial: input scaling 1, no algebraic states that differ between branches): the user's function
receives the physical current input and the physical previous input of the same scenario.  What the code does in general
is shown by `C09_user_rterm_as_coded`. -/
theorem C09_user_rterm_partial (cfg : MpcCfg K d) (hc : 0 < cfg.c) (hu : ∀ i, cfg.su i = 1) (hz : cfg.NoAlgBranching)
    (f : Vec K d.nx → Vec K d.nu → Vec K d.nu → Vec K d.nz → Vec K d.ntv → Vec K d.np → K)
    (hr : cfg.rterm = .user f) (w : OptX K d) (q : OptP K d) :
    (cfg.loop.map fun ksb => cfg.rtermAt w q ksb.1 ksb.2.1 ksb.2.2).sum =
      branchSum cfg.c cfg.N cfg.nRobust fun k h r =>
        f (cfg.X w k h) (cfg.U w k h) (inputBefore cfg.nRobust q.uPrev (cfg.U w) k h)
          (cfg.Z w cfg.zLast k (extend cfg.nRobust k h r)) (q.tvp k) (q.p r) := by
  have h1 := loop_sum cfg hc (fun k s cur => f (cfg.xPhys w k s cfg.xLast) (cfg.uPhys w k (cfg.sU s))
    (if k = 0 then q.uPrev / cfg.su else w.u (k - 1) (cfg.par k (cfg.sU s))) (cfg.zPhys w k s cfg.zLast) (q.tvp k) (q.p cur))
  unfold MpcCfg.rtermAt
  rw [hr]
  simp only
  rw [h1]
  apply branchSum_congr
  intro k hk h hh r hr
  rw [uOld_eq cfg hc (fun i => by rw [hu i]; exact one_pos) w q hk hh, noAlgBranching_Z cfg hz w _ k hh hr]
  have : inputBefore cfg.nRobust q.uPrev (cfg.U w) k h / cfg.su = inputBefore cfg.nRobust q.uPrev (cfg.U w) k h := by
    funext j; rw [Pi.div_apply, hu j, div_one]
  rw [this]
  rfl

/-- What the user's `rterm` receives in general: the previous input divided by the input scaling, next to the physical current
input. -/
theorem C09_user_rterm_as_coded (cfg : MpcCfg K d) (hc : 0 < cfg.c) (hu : ∀ i, 0 < cfg.su i) (hz : cfg.NoAlgBranching)
    (f : Vec K d.nx → Vec K d.nu → Vec K d.nu → Vec K d.nz → Vec K d.ntv → Vec K d.np → K)
    (hr : cfg.rterm = .user f) (w : OptX K d) (q : OptP K d) :
    (cfg.loop.map fun ksb => cfg.rtermAt w q ksb.1 ksb.2.1 ksb.2.2).sum =
      branchSum cfg.c cfg.N cfg.nRobust fun k h r =>
        f (cfg.X w k h) (cfg.U w k h) (inputBefore cfg.nRobust q.uPrev (cfg.U w) k h / cfg.su)
          (cfg.Z w cfg.zLast k (extend cfg.nRobust k h r)) (q.tvp k) (q.p r) := by
  have h1 := loop_sum cfg hc (fun k s cur => f (cfg.xPhys w k s cfg.xLast) (cfg.uPhys w k (cfg.sU s))
    (if k = 0 then q.uPrev / cfg.su else w.u (k - 1) (cfg.par k (cfg.sU s))) (cfg.zPhys w k s cfg.zLast) (q.tvp k) (q.p cur))
  unfold MpcCfg.rtermAt
  rw [hr]
  simp only
  rw [h1]
  apply branchSum_congr
  intro k hk h hh r hr
  rw [uOld_eq cfg hc hu w q hk hh, noAlgBranching_Z cfg hz w _ k hh hr]
  rfl

/-- **C07** with the algebraic state of the branch on which the realisation occurs (partial: default settings, no algebraic
states that differ between branches): the statement a user expects. -/
theorem C07_feasible_branch_constraints_partial (cfg : MpcCfg K d) (hc : 0 < cfg.c)
    (hx : ∀ i, 0 < cfg.sx i) (hu : ∀ i, 0 < cfg.su i) (hz : ∀ i, 0 < cfg.sz i) (hab : cfg.NoAlgBranching)
    (hcol : cfg.nlColloc = false) (hn : (cfg.nl.map (·.name)).Nodup) (w : OptX K d) (q : OptP K d)
    (hw : cfg.Feasible w q) :
    ∀ k < cfg.N, ∀ h, IsHistory cfg.c cfg.nRobust k h → ∀ r, MayOccur cfg.c cfg.nRobust k h r →
      ∀ call ∈ cfg.nl, ∀ i < call.dim, ∃ e : K,
        (call.soft = false → e = 0) ∧ 0 ≤ e ∧ (call.soft = true → call.maxViolation.ge e) ∧
        call.ub.ge (call.expr (cfg.X w k h) (cfg.U w k h) (cfg.Z w 0 k (extend cfg.nRobust k h r)) (q.tvp k) (q.p r) i - e) := by
  intro k hk h hh r hr
  rw [noAlgBranching_Z cfg hab w 0 k hh hr]
  exact C07_feasible_respects_constraints cfg hc hx hu hz hcol hn w q hw k hk h hh r hr

/-! ## Where the claims fail in the code -/

/-- **C06 does not extend to the last interval**: although `cons_check_colloc_points` is on, the states inside the last
interval are not bounded at all: replacing them by anything keeps the point within the problem's bounds. -/
theorem C06_last_interval_interior_unbounded (cfg : MpcCfg K d) (w : OptX K d) (x : Nat → Nat → Vec K d.nx) :
    cfg.InBounds { w with x := fun k s i => if k = cfg.N ∧ i ≠ cfg.xLast then x s i else w.x k s i } ↔ cfg.InBounds w := by
  have h0 : ∀ s i j v, i ≠ cfg.xLast → (cfg.lbx.x cfg.N s i j).le v ∧ (cfg.ubx.x cfg.N s i j).ge v := by
    intro s i j v hi
    unfold MpcCfg.lbx MpcCfg.ubx MpcCfg.updateBounds OptXBounds.const
    by_cases hcc : cfg.consColloc = true <;> simp [hi, hcc, Bound.le, Bound.ge]
  unfold MpcCfg.InBounds
  refine and_congr ?_ Iff.rfl
  refine forall_congr' fun k => forall_congr' fun hk => forall_congr' fun s => forall_congr' fun hs =>
    forall_congr' fun i => forall_congr' fun hi => forall_congr' fun j => ?_
  by_cases hk0 : k = cfg.N ∧ i ≠ cfg.xLast
  · obtain ⟨rfl, h2⟩ := hk0; exact ⟨fun _ => h0 _ _ _ _ h2, fun _ => h0 _ _ _ _ h2⟩
  · simp only [hk0, if_false]

/-- `exCfg` with a robust horizon as long as the prediction horizon, no constraints and only a terminal cost `x`. -/
def exShort : MpcCfg ℚ exDims :=
  { exCfg with
    N := 1
    nl := []
    xtub := fun _ => .pinf
    lterm := fun _ _ _ _ _ => 0
    mterm := fun x _ _ => x ⟨0, by decide⟩
    rterm := .factor fun _ => 0 }

/-- a feasible point of `exShort`: leaves at 1/2 and 3/2 -/
def exShortW : OptX ℚ exDims where
  x := fun k s _ _ => match k, s with
    | 0, _ => 1 / 2 | _, 0 => 1 / 4 | _, _ => 3 / 4
  z := fun _ _ _ _ => 0
  u := fun _ _ _ => 0
  eps := fun _ _ _ _ => 0

/-- **C08 is false when `n_robust ≥ n_horizon`**: at a feasible point with two leaves the objective is the terminal cost of
leaf 0 alone (1/2) whereas the average over the scenarios is 1. -/
theorem C08_fails_full_robust_horizon :
    exShort.Feasible exShortW exQ ∧ exShort.obj exShortW exQ = 1 / 2 ∧
      averageCost exShort.c exShort.N exShort.nRobust (exShort.stageCost exShortW exQ) (exShort.leafCost exShortW exQ) = 1 := by
  refine ⟨by decide +kernel, by decide +kernel, by decide +kernel⟩

/-- a model with one algebraic state `z = p` -/
def exDaeDims : Dims := { nx := 1, nu := 1, nz := 1, ntv := 0, np := 1 }
def exDaeModel : DaeModel ℚ exDaeDims where
  rhs := fun x _ _ _ _ _ => x
  alg := fun _ _ z _ p _ _ => z ⟨0, by decide⟩ - p ⟨0, by decide⟩
  meas := fun _ _ _ _ _ v => v
  aux := fun _ _ _ _ _ i => i.elim0

/-- stage cost `z`, hard constraint `z ≤ 0`, two realisations 0 and 1 of `p` -/
def exDae : MpcCfg ℚ exDaeDims where
  N := 2
  nRobust := 1
  c := 2
  ifcn := discreteIfcn exDaeModel (fun _ => 1) (fun _ => 1) (fun _ => 1) 1
  sx := fun _ => 1
  su := fun _ => 1
  sz := fun _ => 1
  xlb := fun _ => .ninf
  xub := fun _ => .pinf
  ulb := fun _ => .ninf
  uub := fun _ => .pinf
  zlb := fun _ => .ninf
  zub := fun _ => .pinf
  xtlb := fun _ => .ninf
  xtub := fun _ => .pinf
  nl := []
  lterm := fun _ _ z _ _ => z ⟨0, by decide⟩
  mterm := fun _ _ _ => 0
  rterm := .factor fun _ => 0

/-- its only trajectory -/
def exDaeW : OptX ℚ exDaeDims where
  x := fun _ _ _ _ => 0
  z := fun _ s _ _ => s
  u := fun _ _ _ => 0
  eps := fun _ _ _ _ => 0

/-- parameters -/
def exDaeQ : OptP ℚ exDaeDims where
  x0 := fun _ => 0
  tvp := fun _ _ => 0
  p := fun r _ => r
  uPrev := fun _ => 0

/-- **C08 is false for models with algebraic states under branching**: the stage cost of every branch of the root is evaluated
with the algebraic state of branch 0. -/
theorem C08_fails_algebraic_states :
    exDae.Feasible exDaeW exDaeQ ∧ exDae.obj exDaeW exDaeQ = 1 / 2 ∧
      averageCost exDae.c exDae.N exDae.nRobust (exDae.stageCost exDaeW exDaeQ) (exDae.leafCost exDaeW exDaeQ) = 1 := by
  refine ⟨by decide +kernel, by decide +kernel, by decide +kernel⟩

/-- `exDae` at stage 0 only, with the hard constraint `z ≤ 0` -/
def exDaeCon : MpcCfg ℚ exDaeDims :=
  { exDae with
    N := 1
    nl := [{ name := "zmax", dim := 1, expr := fun _ _ z _ _ _ => z ⟨0, by decide⟩, ub := .fin 0, penalty := 1 }] }

/-- **C07 is false for models with algebraic states under branching**: a feasible point whose branch 1 violates the hard
constraint `z ≤ 0`. -/
theorem C07_fails_algebraic_states :
    exDaeCon.Feasible exDaeW exDaeQ ∧ MayOccur exDaeCon.c exDaeCon.nRobust 0 [] 1 ∧
      exDaeCon.Z exDaeW 0 0 (extend exDaeCon.nRobust 0 [] 1) ⟨0, by decide⟩ = 1 := by
  refine ⟨by decide +kernel, by simp [MayOccur, exDaeCon, exDae], by decide +kernel⟩

/-- `exCfg` with a violated hard constraint `x ≤ 0` and `nl_cons_check_colloc_points = True` -/
def exColl : MpcCfg ℚ exDims :=
  { exCfg with
    nl := [{ name := "hard", dim := 1, expr := fun x _ _ _ _ _ => x ⟨0, by decide⟩, ub := .fin 0, penalty := 1 }]
    nlColloc := true }

/-- **C07 is false with `nl_cons_check_colloc_points` on discrete-time models**: the constraints are dropped altogether; here
every state of a feasible point violates `x ≤ 0`. -/
theorem C07_fails_colloc_setting_discrete :
    exColl.Feasible exW exQ ∧ exColl.X exW 0 [] ⟨0, by decide⟩ = 1 ∧ exColl.X exW 1 [0] ⟨0, by decide⟩ = 1 / 2 := by
  refine ⟨by decide +kernel, by decide +kernel, by decide +kernel⟩

/-- The same for every discrete-time problem: with `nl_cons_check_colloc_points` the problem has no constraint rows from
`set_nl_cons` at all. -/
theorem C07_colloc_setting_discrete_drops_all (m : DaeModel K d) (cfg : MpcCfg K d)
    (hif : cfg.ifcn = discreteIfcn m cfg.sx cfg.su cfg.sz 1) (hcol : cfg.nlColloc = true) (w : OptX K d) (q : OptP K d) :
    cfg.rows w q = { cfg with nl := [] : MpcCfg K d }.rows w q := by
  have h0 : cfg.ifcn.ncoll = 0 := by rw [hif]; rfl
  have : ∀ k s b, cfg.nlRowsAt w q k s b = [] := by
    intro k s b; simp [MpcCfg.nlRowsAt, hcol, h0]
  have h2 : ∀ k s b, { cfg with nl := [] : MpcCfg K d }.nlRowsAt w q k s b = [] := by
    intro k s b; simp [MpcCfg.nlRowsAt, hcol, h0]
  unfold MpcCfg.rows
  simp only [this, h2]
  rfl

/-- user penalty `(u - u_prev)^2` with input scaling 2 -/
def exRt : MpcCfg ℚ exDims :=
  { exShort with
    nRobust := 0
    c := 1
    mterm := fun _ _ _ => 0
    rterm := .user fun _ u v _ _ _ => (u ⟨0, by decide⟩ - v ⟨0, by decide⟩) ^ 2 }

/-- parameters with previous input 3 -/
def exRtQ : OptP ℚ exDims := { exQ with uPrev := fun _ => 3 }

/-- keeping the input at 3 (scaled value 1) -/
def exRtW : OptX ℚ exDims := { exShortW with u := fun _ _ _ => 1 }

/-- **C09 is false for a user `rterm` when inputs are scaled**: keeping the input at its previous physical value 3 costs
`(3 - 1)^2 = 4` with input scaling 3. -/
theorem C09_fails_user_rterm_scaled :
    exRt.obj exRtW exRtQ = 4 ∧ exRt.U exRtW 0 [] = exRtQ.uPrev := by
  refine ⟨by decide +kernel, ?_⟩
  funext j
  simp [MpcCfg.U, MpcCfg.uPhys, exRt, exRtW, exRtQ, exShort, exCfg]

/-! ## Non-vacuity -/

/-- The hypotheses of `C08_objective_average_partial` are met by the robust example with two scenarios. -/
example : 0 < exCfg.c ∧ exCfg.nRobust < exCfg.N ∧ exCfg.NoAlgBranching ∧ exCfg.Feasible exW exQ :=
  ⟨by decide, by decide, Or.inl rfl, by decide +kernel⟩

end DoMpc
