import Verif.Props.MpcRun2

/-! # C12: the settings in which the returned input is not the first input of an optimal policy

`C12_first_input_of_optimal_policy_partial` excludes robust horizons as long as the prediction horizon and user penalties with scaled inputs.  In both
cases there are problems with solutions for which no global solver makes `make_step` return the first input of an optimal policy. -/
set_option linter.unusedSectionVars false
namespace DoMpc
open Spec

/-- `exRt` (user penalty `(u - u_prev)²`, input scaling 3, nothing else) without bounds on the input -/
def failRt : MpcCfg ℚ exDims := { exRt with ulb := fun _ => .ninf, uub := fun _ => .pinf }

/-- `n_robust = n_horizon = 1`, two realisations `p = 0, 1` of `x⁺ = x/2 + u + p`, terminal cost `x²` -/
def failRobust : MpcCfg ℚ exDims :=
  { exShort with ulb := fun _ => .ninf, uub := fun _ => .pinf, mterm := fun x _ _ => x ⟨0, by decide⟩ ^ 2 }

/-- the point with physical input `u` and the states that follow from it -/
def failW (u : ℚ) : OptX ℚ exDims where
  x := fun k s _ _ => match k, s with
    | 0, _ => 1 / 2 | _, s => (1 / 2 + u + s) / 2
  z := fun _ _ _ _ => 0
  u := fun _ _ _ => u / 3
  eps := fun _ _ _ _ => 0

theorem failRt_constraints : failRt.RegularConstraints exModel :=
  { discrete := rfl, cpos := by decide, sx := fun _ => (by decide +kernel : (0 : ℚ) < 2), su := fun _ => (by decide +kernel : (0 : ℚ) < 3),
    sz := fun _ => (by decide +kernel : (0 : ℚ) < 1), noColl := rfl, names := by decide, noAlg := Or.inl rfl, slack := rfl }

theorem failRobust_constraints : failRobust.RegularConstraints exModel :=
  { discrete := rfl, cpos := by decide, sx := fun _ => (by decide +kernel : (0 : ℚ) < 2), su := fun _ => (by decide +kernel : (0 : ℚ) < 3),
    sz := fun _ => (by decide +kernel : (0 : ℚ) < 1), noColl := rfl, names := by decide, noAlg := Or.inl rfl, slack := rfl }

/-- the only state and the only input -/
abbrev ix : Fin exDims.nx := ⟨0, by decide⟩
abbrev iu : Fin exDims.nu := ⟨0, by decide⟩

theorem failRt_obj (w : OptX ℚ exDims) : failRt.obj w exRtQ = (failRt.uPhys w 0 0 iu - 1) ^ 2 := by
  have hl : failRt.loop = [(0, 0, 0)] := by decide
  unfold MpcCfg.obj
  rw [hl]
  have h1 : failRt.econAt w exRtQ 0 0 0 = 0 := by simp [MpcCfg.econAt, failRt, exRt, exShort]
  have h2 : failRt.slackAt w 0 0 = 0 := rfl
  have h3 : failRt.rtermAt w exRtQ 0 0 0 = (failRt.uPhys w 0 0 iu - 3 / 3) ^ 2 := rfl
  simp only [List.map_cons, List.map_nil, List.sum_cons, List.sum_nil, h1, h2, h3]
  norm_num

theorem failRt_cost (π : Policy ℚ exDims) : (failRt.problem exModel exRtQ).cost π = (π.U 0 [] iu - 3) ^ 2 := by
  have h1 : allHistories 1 0 = [[]] := by decide
  have h2 : occurring 1 0 0 [] = [0] := by decide
  have h3 : failRt.changeTerm = fun _ u v _ _ _ => (u iu - v iu) ^ 2 := rfl
  unfold MultiStage.cost averageCost branchSum
  show (((allHistories 1 0).map (scenarioCost 1 0 (fun _ _ _ => 0) fun _ _ => 0)).sum / _) +
    ((List.range 1).map fun k => ((allHistories 1 (min k 0)).map fun h => ((occurring 1 0 k h).map fun _ => slackCost [] (π.E k h)).sum).sum).sum +
    ((List.range 1).map fun k => ((allHistories 1 (min k 0)).map fun h => ((occurring 1 0 k h).map fun r =>
      failRt.changeTerm (π.X k h) (π.U k h) (inputBefore 0 exRtQ.uPrev π.U k h) (π.Z k (extend 0 k h r)) (exRtQ.tvp k) (exRtQ.p r)).sum).sum).sum = _
  rw [h3]
  simp [h1, h2, scenarioCost, slackCost, inputBefore, exRtQ]

theorem failRobust_obj (w : OptX ℚ exDims) : failRobust.obj w exQ = failRobust.xPhys w 1 0 failRobust.xLast ix ^ 2 := by
  have hl : failRobust.loop = [(0, 0, 0), (0, 0, 1)] := by decide
  unfold MpcCfg.obj
  rw [hl]
  have h1 : ∀ b, failRobust.econAt w exQ 0 0 b = 1 / 2 * failRobust.xPhys w 1 0 failRobust.xLast ix ^ 2 := by
    intro b
    have ho : failRobust.omega 0 = 1 / 2 := by decide +kernel
    simp only [MpcCfg.econAt]
    rw [if_pos (show 0 = failRobust.N - 1 from rfl), ho]
    simp [failRobust, exShort]
  have h2 : failRobust.slackAt w 0 0 = 0 := rfl
  have h3 : ∀ b, failRobust.rtermAt w exQ 0 0 b = 0 := by
    intro b; simp [MpcCfg.rtermAt, failRobust, exShort]; decide +kernel
  simp only [List.map_cons, List.map_nil, List.sum_cons, List.sum_nil, h1, h2, h3]
  ring

theorem failRobust_cost (π : Policy ℚ exDims) (h : (failRobust.problem exModel exQ).Admissible π) :
    (failRobust.problem exModel exQ).cost π = ((1 / 2 + π.U 0 [] iu) ^ 2 + (3 / 2 + π.U 0 [] iu) ^ 2) / 2 := by
  have hd := h.dynamics
  have hx : ∀ r < 2, π.X 1 [r] ix = 1 / 2 + π.U 0 [] iu + r := by
    intro r hr
    have := (hd.2 0 (by decide) [] ⟨rfl, by simp⟩ r (by simpa [MayOccur, MpcCfg.problem, failRobust, exShort, exCfg] using hr)).2
    have h' := congrFun this ix
    have h0 := congrFun hd.1 ix
    change π.X 1 [r] ix = π.X 0 [] ix / 2 + π.U 0 [] iu + ((r : ℕ) : ℚ) at h'
    change π.X 0 [] ix = 1 at h0
    rw [h', h0]
  have h1 : allHistories 2 0 = [[]] := by decide
  have h2 : allHistories 2 1 = [[0], [1]] := by decide
  have h3 : failRobust.changeTerm = fun _ _ _ _ _ _ => 0 := by
    funext a b c e f g
    show (List.ofFn fun j : Fin exDims.nu => (0 : ℚ) * _).sum = 0
    simp; decide +kernel
  unfold MultiStage.cost averageCost branchSum
  show (((allHistories 2 1).map (scenarioCost 1 1 (fun _ _ _ => 0) fun h _ => π.X 1 h ix ^ 2)).sum / ((allHistories 2 1).length : ℚ)) +
    ((List.range 1).map fun k => ((allHistories 2 (min k 1)).map fun h => ((occurring 2 1 k h).map fun _ => slackCost [] (π.E k h)).sum).sum).sum +
    ((List.range 1).map fun k => ((allHistories 2 (min k 1)).map fun h => ((occurring 2 1 k h).map fun r =>
      failRobust.changeTerm (π.X k h) (π.U k h) (inputBefore 1 exQ.uPrev π.U k h) (π.Z k (extend 1 k h r)) (exQ.tvp k) (exQ.p r)).sum).sum).sum = _
  rw [h3]
  simp [h2, scenarioCost, slackCost]
  rw [hx 0 (by decide), hx 1 (by decide)]
  norm_num
  ring

/-- the returned input is the first input of no optimal policy, although both problems have solutions -/
def NeverOptimal (cfg : MpcCfg ℚ exDims) (q : OptP ℚ exDims) : Prop :=
  (∃ w, cfg.NlpOptimal w q) ∧ (∃ π, (cfg.problem exModel q).Optimal π) ∧
    ∀ w, cfg.NlpOptimal w q → ∀ π, (cfg.problem exModel q).Optimal π → cfg.uPhys w 0 0 ≠ π.U 0 []

/-- **C12 fails for a user penalty on input changes if the inputs are scaled** (previous input 3, scaling 3): the solver's problem makes `make_step`
return 1, the only optimal policy of the documented problem keeps the input at 3. -/
theorem C12_fails_user_rterm : failRt.RegularConstraints exModel ∧ failRt.nRobust < failRt.N ∧ NeverOptimal failRt exRtQ := by
  have f1 : failRt.Feasible (failW 1) exRtQ := by decide +kernel
  have f3 : failRt.Feasible (failW 3) exRtQ := by decide +kernel
  have o1 : failRt.obj (failW 1) exRtQ = 0 := by decide +kernel
  have a3 := feasible_is_admissible failRt exModel failRt_constraints _ _ f3
  have c3 : (failRt.problem exModel exRtQ).cost (failRt.policy (failW 3)) = 0 := by
    rw [failRt_cost]; decide +kernel
  refine ⟨failRt_constraints, by decide, ⟨failW 1, f1, fun w' _ => ?_⟩, ⟨_, a3, fun π _ => ?_⟩, fun w hw π hπ he => ?_⟩
  · rw [o1, failRt_obj]; positivity
  · rw [c3, failRt_cost]; positivity
  · have h1 := hw.2 _ f1
    have h2 := hπ.2 _ a3
    rw [o1, failRt_obj] at h1
    rw [c3, failRt_cost, ← he] at h2
    nlinarith

/-- **C12 fails if the robust horizon is as long as the prediction horizon**: only the first leaf counts, `make_step` returns -1/2, the only optimal policy
starts with -1. -/
theorem C12_fails_full_robust_horizon : failRobust.RegularConstraints exModel ∧ NeverOptimal failRobust exQ := by
  have f1 : failRobust.Feasible (failW (-1 / 2)) exQ := by decide +kernel
  have f2 : failRobust.Feasible (failW (-1)) exQ := by decide +kernel
  have o1 : failRobust.obj (failW (-1 / 2)) exQ = 0 := by decide +kernel
  have a2 := feasible_is_admissible failRobust exModel failRobust_constraints _ _ f2
  have c2 : (failRobust.problem exModel exQ).cost (failRobust.policy (failW (-1))) = 1 / 4 := by
    rw [failRobust_cost _ a2]; decide +kernel
  have hx : ∀ w, failRobust.Feasible w exQ → failRobust.xPhys w 1 0 failRobust.xLast ix = 1 / 2 + failRobust.uPhys w 0 0 iu := by
    intro w hw
    have hd := (feasible_is_admissible failRobust exModel failRobust_constraints _ _ hw).dynamics
    have h' := congrFun (hd.2 0 (by decide) [] ⟨rfl, by simp⟩ 0 (by simp [MayOccur, MpcCfg.problem, failRobust, exShort, exCfg])).2 ix
    have h0 := congrFun hd.1 ix
    change failRobust.xPhys w 1 0 failRobust.xLast ix = failRobust.xPhys w 0 0 failRobust.xLast ix / 2 + failRobust.uPhys w 0 0 iu + ((0 : ℕ) : ℚ) at h'
    change failRobust.xPhys w 0 0 failRobust.xLast ix = 1 at h0
    rw [h', h0]; norm_num
  refine ⟨failRobust_constraints, ⟨_, f1, fun w' _ => ?_⟩, ⟨_, a2, fun π hπ => ?_⟩, fun w hw π hπ he => ?_⟩
  · rw [o1, failRobust_obj]; positivity
  · rw [c2, failRobust_cost _ hπ]; nlinarith [sq_nonneg (π.U 0 [] iu + 1)]
  · have h1 := hw.2 _ f1
    have h2 := hπ.2 _ a2
    rw [o1, failRobust_obj, hx w hw.1] at h1
    rw [c2, failRobust_cost _ hπ.1, ← he] at h2
    nlinarith

/-- The same for `make_step`: with these settings, whatever state the controller is in, no call with a solver that returns a global minimiser returns the
first input of an optimal policy for the state, the previous input and the parameters of the call. -/
theorem C12_fails_make_step (E : MpcEnv ℚ exDims) (q : OptP ℚ exDims) (hE : E.model = exModel) (hn : NeverOptimal E.cfg q) (st : MpcSt ℚ exDims)
    (call : Call ℚ exDims E.nLagr) (u : Vec ℚ exDims.nu) (hok : E.outputs st [call] = [.ok u]) (hx : call.x0 = List.ofFn q.x0) (hu : st.u0 = q.uPrev)
    (htv : E.tvpFun st.t0 = q.tvp) (hp : E.pFun st.t0 = q.p) (hopt : ∀ a, (E.queries st [call])[0]? = some a → E.cfg.NlpOptimal (call.S a).x a.p) :
    ∀ π, (E.cfg.problem E.model q).Optimal π → u ≠ π.U 0 [] := by
  obtain ⟨a, ha, a1, a2, a3, a4, a5, a6⟩ := C14_warm_start E st [call] [u] hok 0 (by simp)
  have hq : a.p = q := by
    have e1 : a.p.x0 = q.x0 := by
      have := a1.trans hx
      funext j
      have h' := congrArg (fun l => l[j.1]?) this
      simpa using h'
    have e2 : a.p.tvp = q.tvp := by rw [a2]; simpa using htv
    have e3 : a.p.p = q.p := by rw [a3]; simpa using hp
    have e4 : a.p.uPrev = q.uPrev := (a4 rfl).1.trans hu
    cases q; cases hap : a.p; rw [hap] at e1 e2 e3 e4; simp only at e1 e2 e3 e4; subst e1 e2 e3 e4; rfl
  intro π hπ
  have h := hopt a ha
  rw [hq] at h
  rw [hE] at hπ
  have := hn.2.2 _ h π hπ
  simp only [List.getElem?_cons_zero, Option.some.injEq] at a6
  rw [a6]
  exact this

/-- the controller with `failRobust`, and a solver that returns the minimiser of the problem above -/
def failEnv : MpcEnv ℚ exDims where
  model := exModel
  cfg := failRobust
  tStep := 1
  tvpFun := fun _ => exQ.tvp
  pFun := fun _ => exQ.p
  nOptX := 0
  nOptP := 0
  nOptAux := 0
  nLagr := 0
  flatX := fun _ i => i.elim0
  flatP := fun _ i => i.elim0
  flatAux := fun _ _ i => i.elim0
def failSolver (_ : SolverArgs ℚ exDims) : SolverResult ℚ exDims 0 := ⟨failW (-1 / 2), fun i => i.elim0, [], []⟩

/-- Non-vacuity: a call that returns, with a solver that finds the minimum. -/
example : ∃ u, failEnv.outputs (failEnv.fresh 0 0 0 0) [⟨[1], failSolver⟩] = [.ok u] ∧ u iu = -1 / 2 ∧
    ∀ a, (failEnv.queries (failEnv.fresh 0 0 0 0) [⟨[1], failSolver⟩])[0]? = some a → failEnv.cfg.NlpOptimal (failSolver a).x a.p := by
  refine ⟨failRobust.uPhys (failW (-1 / 2)) 0 0, rfl, by decide +kernel, ?_⟩
  intro a ha
  cases ha
  refine ⟨by decide +kernel, fun w' _ => ?_⟩
  have h0 : failRobust.obj (failW (-1 / 2)) exQ = 0 := by decide +kernel
  have h1 : (0 : ℚ) ≤ failRobust.obj w' exQ := by rw [failRobust_obj]; positivity
  exact le_trans (le_of_eq h0) h1

end DoMpc
