import Verif.Props.MpcRun
import Verif.Props.MpcOptimal
import Mathlib.Tactic.NormNum
import Mathlib.Tactic.Linarith

/-! # Properties C12 (closed loop), C18 (MPC), C52, C54 -/
set_option linter.unusedSectionVars false
namespace DoMpc
open Spec
variable {K : Type} [Field K] [LinearOrder K] [IsStrictOrderedRing K] {d : Dims}

/-- **C12** for whole runs (partial: see `Regular`): in every sequence of successful calls, if in call `i` the solver answers with a global
minimiser of the problem it is given, the input returned by call `i` is the first input of an optimal policy of the multi-stage
problem for the state passed to call `i`, the input returned by call `i-1` and the parameters of time `t0 + i t_step`. -/
theorem C12_make_step_optimal_partial (E : MpcEnv K d) (hR : E.cfg.Regular E.model) (st : MpcSt K d) (calls : List (Call K d E.nLagr))
    (us : List (Vec K d.nu)) (hok : E.outputs st calls = us.map .ok) (i : Nat) (hi : i < calls.length)
    (hopt : ∀ a, (E.queries st calls)[i]? = some a → E.cfg.NlpOptimal (calls[i].S a).x a.p) :
    ∃ (q : OptP K d) (π : Policy K d),
      List.ofFn q.x0 = calls[i].x0 ∧ (q.uPrev = if i = 0 then st.u0 else us.getD (i - 1) 0) ∧
      q.tvp = E.tvpFun (st.t0 + i * E.tStep) ∧ q.p = E.pFun (st.t0 + i * E.tStep) ∧
      (E.cfg.problem E.model q).Optimal π ∧ us[i]? = some (π.U 0 []) := by
  obtain ⟨a, ha, a1, a2, a3, a4, a5, a6⟩ := C14_warm_start E st calls us hok i hi
  obtain ⟨h1, h2⟩ := C12_first_input_of_optimal_policy_partial E.cfg E.model hR _ a.p (hopt a ha)
  refine ⟨a.p, E.cfg.policy (calls[i].S a).x, a1, ?_, a2, a3, h1, by rw [a6, h2]⟩
  split_ifs with h0
  · exact (a4 h0).1
  · obtain ⟨b, hb, -⟩ := C14_warm_start E st calls us hok (i - 1) (by omega)
    have := (a5 (i - 1) (by omega) b hb).1
    rw [List.getD_eq_getElem?_getD, this]; rfl

/-- the parts of the controller that a solver which only looks at the problem parameters can depend on -/
def MpcSt.Alike (s1 s2 : MpcSt K d) : Prop := s1.setup = s2.setup ∧ s1.t0 = s2.t0 ∧ s1.u0 = s2.u0 ∧ s1.data.Same s2.data

theorem alike_step (E : MpcEnv K d) (S : SolverArgs K d → SolverResult K d E.nLagr) (hS : ∀ a b, a.p = b.p → S a = S b)
    {s1 s2 : MpcSt K d} (h : s1.Alike s2) (x0 : List K) :
    (E.makeStep S s1 x0).2 = (E.makeStep S s2 x0).2 ∧ (E.makeStep S s1 x0).1.Alike (E.makeStep S s2 x0).1 := by
  obtain ⟨h1, h2, h3, h4⟩ := h
  unfold MpcEnv.makeStep
  rw [h1]
  split
  · exact ⟨rfl, h1, h2, h3, h4⟩
  · split
    · rename_i hs hl
      simp only [MpcSt.solve, MpcSt.solverArgs]
      rw [h2, h3]
      rw [hS { x0 := s1.optX, p := ⟨fun i => x0.get (i.cast hl.symm), E.tvpFun s2.t0, E.pFun s2.t0, s2.u0⟩,
               lam := if s1.initialRun then some (s1.lamG, s1.lamX) else none }
             { x0 := s2.optX, p := ⟨fun i => x0.get (i.cast hl.symm), E.tvpFun s2.t0, E.pFun s2.t0, s2.u0⟩,
               lam := if s2.initialRun then some (s2.lamG, s2.lamX) else none } rfl]
      generalize hrec : E.record _ _ _ _ = rec'
      have hsame := h4.update rec'
      cases e1 : s1.data.update rec' with
      | mk D1 r1 =>
        cases e2 : s2.data.update rec' with
        | mk D2 r2 =>
          rw [e1, e2] at hsame
          obtain ⟨hD, hr⟩ := hsame
          simp only at hr
          subst hr
          cases r1 with
          | none => exact ⟨rfl, rfl, rfl, rfl, hD⟩
          | some e => exact ⟨rfl, rfl, rfl, rfl, hD⟩
    · exact ⟨rfl, h1, h2, h3, h4⟩

/-- **C18** for the MPC (partial): after `reset_history` the log is empty and the time is 0; for every sequence of calls the controller
returns what a freshly set-up controller *with the same previous input `u0`* returns and logs the same, *provided* the solver's answer
depends only on the problem parameters (not on its starting point or multipliers).  Missing in the code: `u0`, the initial guess and the
multipliers are kept (see `C18_fails_mpc`). -/
theorem C18_mpc_reset_partial (E : MpcEnv K d) (nE : Nat) (st : MpcSt K d) (hset : st.setup = true) (hD : st.data.fields = E.fields nE)
    (calls : List (Call K d E.nLagr)) (hS : ∀ c ∈ calls, ∀ a b, a.p = b.p → c.S a = c.S b) :
    st.resetHistory.t0 = 0 ∧ (∀ k, (st.data.width k).isSome → st.resetHistory.data.rows k = []) ∧
    E.outputs st.resetHistory calls = E.outputs (E.fresh nE st.x0 st.u0 st.z0) calls ∧
    (E.after st.resetHistory calls).data.Same (E.after (E.fresh nE st.x0 st.u0 st.z0) calls).data := by
  have h0 : ∀ k, (st.data.width k).isSome → st.resetHistory.data.rows k = [] := by
    intro k hk
    simp [MpcSt.resetHistory, Data.initStorage, hk]
  refine ⟨rfl, h0, ?_⟩
  have hal : st.resetHistory.Alike (E.fresh nE st.x0 st.u0 st.z0) := by
    refine ⟨hset, rfl, rfl, hD, fun k hk => ?_⟩
    exact h0 k hk
  revert hal
  generalize st.resetHistory = s1
  generalize E.fresh nE st.x0 st.u0 st.z0 = s2
  intro hal
  induction calls generalizing s1 s2 with
  | nil => exact ⟨rfl, hal.2.2.2⟩
  | cons c cs ih =>
    obtain ⟨h1, h2⟩ := alike_step E c.S (hS c (by simp)) hal c.x0
    obtain ⟨i1, i2⟩ := ih (fun c' hc' => hS c' (by simp [hc'])) _ _ h2
    exact ⟨by simp only [MpcEnv.outputs]; rw [h1, i1], i2⟩

/-- After `reset_history` the next solver call still starts from the last solution and, if any call was made before, from its
multipliers, and still uses the input returned last as previous input. -/
theorem C18_mpc_reset_keeps (st : MpcSt K d) :
    st.resetHistory.optX = st.optX ∧ st.resetHistory.initialRun = st.initialRun ∧ st.resetHistory.lamG = st.lamG ∧
    st.resetHistory.lamX = st.lamX ∧ st.resetHistory.u0 = st.u0 ∧ st.resetHistory.x0 = st.x0 := ⟨rfl, rfl, rfl, rfl, rfl, rfl⟩

/-- dimensions, model, controller of the run-time counterexamples: one state, one input, horizon 1, cost `(u-x)²+(u-u_prev)²` -/
def rtDims : Dims := { nx := 1, nu := 1, nz := 0, ntv := 0, np := 0 }
instance : NeZero rtDims.nx := ⟨by decide⟩
instance : NeZero rtDims.nu := ⟨by decide⟩
instance : Unique (Fin rtDims.nx) := inferInstanceAs (Unique (Fin 1))
instance : Unique (Fin rtDims.nu) := inferInstanceAs (Unique (Fin 1))
def rtModel : DaeModel ℚ rtDims where
  rhs := fun _ u _ _ _ _ => u
  alg := fun _ _ z _ _ _ => z
  meas := fun _ _ _ _ _ v => v
  aux := fun _ _ _ _ _ i => i.elim0
def rtCfg : MpcCfg ℚ rtDims where
  N := 1
  nRobust := 0
  c := 1
  ifcn := discreteIfcn rtModel (fun _ => 1) (fun _ => 1) (fun _ => 1) 1
  sx := fun _ => 1
  su := fun _ => 1
  sz := fun _ => 1
  xlb := fun _ => .ninf
  xub := fun _ => .pinf
  ulb := fun _ => .ninf
  uub := fun _ => .pinf
  zlb := fun _ => .ninf
  zub := fun _ => .pinf
  xtlb := fun _ => .ninf
  xtub := fun _ => .pinf
  nl := []
  lterm := fun x u _ _ _ => (u 0 - x 0) ^ 2
  mterm := fun _ _ _ => 0
  rterm := .factor fun _ => 1
def rtEnv (stats : List String) : MpcEnv ℚ rtDims where
  model := rtModel
  cfg := rtCfg
  tStep := 1
  tvpFun := fun _ _ _ => 0
  pFun := fun _ _ _ => 0
  nOptX := 0
  nOptP := 0
  nOptAux := 0
  nLagr := 0
  flatX := fun _ i => i.elim0
  flatP := fun _ i => i.elim0
  flatAux := fun _ _ i => i.elim0
  storeStats := stats
/-- the exact minimiser `u = (x + u_prev)/2` -/
def rtSolver (stats : List (String × PyVal ℚ)) (a : SolverArgs ℚ rtDims) : SolverResult ℚ rtDims 0 where
  x := { x := fun k _ _ _ => if k = 0 then a.p.x0 0 else (a.p.x0 0 + a.p.uPrev 0) / 2
         z := fun _ _ _ i => i.elim0
         u := fun _ _ _ => (a.p.x0 0 + a.p.uPrev 0) / 2
         eps := fun _ _ _ _ => 0 }
  lamG := fun i => i.elim0
  lamX := []
  stats := stats

theorem rt_regular : rtCfg.Regular rtModel :=
  { discrete := rfl, cpos := by decide, sx := fun _ => one_pos, su := fun _ => one_pos, sz := fun _ => one_pos, noColl := rfl
    names := by decide, horizon := by decide, noAlg := Or.inl rfl, slack := rfl, rterm := fun f h => by simp [rtCfg] at h }

theorem rt_obj (w : OptX ℚ rtDims) (q : OptP ℚ rtDims) :
    rtCfg.obj w q = (w.u 0 0 0 - w.x 0 0 0 0) ^ 2 + (w.u 0 0 0 - q.uPrev 0) ^ 2 := by
  have hl : rtCfg.loop = [(0, 0, 0)] := by decide
  unfold MpcCfg.obj
  rw [hl]
  simp [MpcCfg.econAt, MpcCfg.slackAt, MpcCfg.rtermAt, rtCfg, MpcCfg.omega, nScenarios, MpcCfg.xPhys, MpcCfg.uPhys, MpcCfg.sU,
    epsTerm, slackVars, MpcCfg.xLast, discreteIfcn]
  show (List.ofFn (n := 1) fun j => (w.u 0 0 j - q.uPrev j) ^ 2).sum = _
  simp only [List.ofFn_succ, List.ofFn_zero, List.sum_cons, List.sum_nil, add_zero]
  rfl

/-- the example solver returns a global minimiser of every problem it is given -/
theorem rt_optimal (stats : List (String × PyVal ℚ)) (a : SolverArgs ℚ rtDims) : rtCfg.NlpOptimal (rtSolver stats a).x a.p := by
  have hfeas : ∀ w q, rtCfg.Feasible w q → w.x 0 0 0 0 = q.x0 0 := by
    intro w q hw
    have := (C12_feasible_is_admissible rtCfg rtModel rt_regular w q hw).dynamics.1
    have := congrFun this 0
    simpa [MpcCfg.problem, MpcCfg.policy, MpcCfg.X, MpcCfg.xPhys, rtCfg, number, MpcCfg.xLast, discreteIfcn] using this
  have n1 : Bound.divBy (.ninf : Bound ℚ) 1 = .ninf := by decide +kernel
  have p1 : Bound.divBy (.pinf : Bound ℚ) 1 = .pinf := by decide +kernel
  refine ⟨?_, ?_⟩
  · refine ⟨?_, ?_⟩
    · rw [C04_C07_rows_iff_discrete rtModel rtCfg rfl (by decide) (fun _ => one_pos) rfl (by decide)]
      refine ⟨⟨?_, ?_⟩, ?_⟩
      · funext i
        have : i = 0 := Subsingleton.elim (α := Fin 1) i 0
        subst this
        simp [MpcCfg.X, MpcCfg.xPhys, rtCfg, number, rtSolver]
      · intro k hk h hh r hr
        have hk0 : k = 0 := by simpa [rtCfg] using hk
        subst hk0
        refine ⟨Subsingleton.elim (α := Fin 0 → ℚ) _ _, ?_⟩
        funext i
        simp [MpcCfg.X, MpcCfg.U, MpcCfg.uPhys, MpcCfg.xPhys, rtCfg, rtSolver, rtModel]
        exact (mul_one _).symm
      · intro k hk h hh r hr call hc
        simp [rtCfg] at hc
    · refine ⟨?_, ?_, ?_, ?_⟩
      · intro k _ s _ i _ j
        simp only [MpcCfg.lbx, MpcCfg.ubx, MpcCfg.updateBounds, rtCfg, OptXBounds.const, n1, p1, ite_self]
        exact ⟨trivial, trivial⟩
      · intro k _ s _ i _ j; exact j.elim0
      · intro k _ s _ j
        simp only [MpcCfg.lbx, MpcCfg.ubx, MpcCfg.updateBounds, rtCfg, OptXBounds.const, n1, p1, ite_self]
        exact ⟨trivial, trivial⟩
      · intro k _ s _ sl hsl; simp [slackVars, rtCfg] at hsl
  · intro w' hw'
    rw [rt_obj, rt_obj, hfeas w' a.p hw']
    have : (rtSolver stats a).x.u 0 0 0 = (a.p.x0 0 + a.p.uPrev 0) / 2 := rfl
    rw [this]
    have h2 : (rtSolver stats a).x.x 0 0 0 0 = a.p.x0 0 := rfl
    rw [h2]
    nlinarith [sq_nonneg (w'.u 0 0 0 - (a.p.x0 0 + a.p.uPrev 0) / 2)]

/-- Non-vacuity of C13, C14, C12: two successful calls with an optimal solver. -/
example : ((rtEnv []).outputs ((rtEnv []).fresh 0 0 0 0) [⟨[1], rtSolver []⟩, ⟨[1], rtSolver []⟩]).map
    (fun r => r.toOption.map fun u => u 0) = [some (1/2), some (3/4)] := by decide +kernel

/-- **C18 fails for the MPC**: although the solver is exact and depends only on the problem parameters, the controller after one step and
`reset_history` answers the same measured state differently than the fresh controller did. -/
theorem C18_fails_mpc :
    let E := rtEnv []
    let st := E.fresh 0 0 0 0
    let used := (E.after st [⟨[1], rtSolver []⟩]).resetHistory
    E.outputs used [⟨[1], rtSolver []⟩] ≠ E.outputs st [⟨[1], rtSolver []⟩] := by
  intro E st used h
  have : (fun r : Except String (Vec ℚ 1) => match r with | .ok u => u 0 | .error _ => 0) <$> E.outputs used [⟨[1], rtSolver []⟩] =
      (fun r : Except String (Vec ℚ 1) => match r with | .ok u => u 0 | .error _ => 0) <$> E.outputs st [⟨[1], rtSolver []⟩] := by
    rw [h]
  revert this
  decide +kernel

/-- **C54 fails**: `return_status` is on the list of statistics that may be stored, but as it is a string, `make_step` raises; by then the
state and input have been logged although the call failed and the time has not advanced, so the next call logs the same time
again. -/
theorem C54_fails_return_status :
    let E := rtEnv ["return_status"]
    let st := E.fresh 0 0 0 0
    let r := E.makeStep (rtSolver [("return_status", .other)]) st [1]
    "return_status" ∈ validStats ∧ r.2.toOption.isNone ∧
    r.1.data.rows "_x" = [[1]] ∧ r.1.t0 = 0 ∧
    (E.makeStep (rtSolver []) r.1 [1]).1.data.rows "_time" = [[0], [0]] := by
  refine ⟨by decide, ?_, ?_, ?_, ?_⟩ <;> decide +kernel

/-- **C52**, exact: the logged auxiliary expressions are evaluated at the measured state, the returned input, the last collocation point's
algebraic state and the parameters of the *last* uncertainty combination (the nominal ones only if there is no robust horizon). -/
theorem C52_logged_aux_exact (cfg : MpcCfg K d) (m : DaeModel K d) (hc : 0 < cfg.c) (hN : 0 < cfg.N) (hx : ∀ i, 0 < cfg.sx i)
    (w : OptX K d) (q : OptP K d) (hrows : ∀ r ∈ cfg.rows w q, r.Holds) :
    cfg.auxAt m w q 0 0 = m.aux q.x0 (cfg.uPhys w 0 0) (cfg.zPhys w 0 0 cfg.zLast) (q.tvp 0)
      (q.p (if cfg.nRobust = 0 then 0 else cfg.c - 1)) := by
  have hx0 : cfg.xPhys w 0 0 cfg.xLast = q.x0 :=
    (initRows_holds cfg hx w q).mp ((rows_holds cfg w q).mp hrows).1
  have hb := branches_map cfg hc hN (h := []) (by simp [IsHistory]) (fun _ r => r)
  simp only [List.map_id'] at hb
  have hs : cfg.sU 0 = 0 := by unfold MpcCfg.sU; split_ifs <;> rfl
  have hf : cfg.auxAt m w q 0 0 = ((List.range (nBranches cfg.c cfg.nRobust 0)).map (fun b => cfg.cur 0 (number cfg.c []) b)).foldl
      (fun _ r => m.aux q.x0 (cfg.uPhys w 0 0) (cfg.zPhys w 0 0 cfg.zLast) (q.tvp 0) (q.p r)) 0 := by
    unfold MpcCfg.auxAt
    rw [List.foldl_map, hx0, hs]
    rfl
  rw [hf, hb]
  unfold occurring
  by_cases hr : cfg.nRobust = 0
  · simp [hr]
  · rw [if_pos (by omega), if_neg hr]
    obtain ⟨n, hn⟩ : ∃ n, cfg.c = n + 1 := ⟨cfg.c - 1, by omega⟩
    rw [hn, List.range_succ, List.foldl_append]
    simp

/-- **C52** (partial): without a robust horizon, or with a single realisation, and a discrete-time model, if the solver's point satisfies
its equality rows, the auxiliary expressions logged by `make_step` are those of the logged state, input, algebraic state and
parameters. -/
theorem C52_logged_aux_partial (cfg : MpcCfg K d) (m : DaeModel K d) (hc : 0 < cfg.c) (hN : 0 < cfg.N) (hx : ∀ i, 0 < cfg.sx i)
    (hif : cfg.ifcn = discreteIfcn m cfg.sx cfg.su cfg.sz 1) (hnom : cfg.nRobust = 0 ∨ cfg.c = 1) (w : OptX K d) (q : OptP K d)
    (hrows : ∀ r ∈ cfg.rows w q, r.Holds) :
    cfg.auxAt m w q 0 0 = m.aux q.x0 (cfg.uPhys w 0 0) (cfg.zPhys w 0 0 0) (q.tvp 0) (q.p 0) := by
  rw [C52_logged_aux_exact cfg m hc hN hx w q hrows]
  have hz : cfg.zLast = 0 := by unfold MpcCfg.zLast; rw [hif]; rfl
  have hp : (if cfg.nRobust = 0 then 0 else cfg.c - 1) = 0 := by
    split_ifs with h
    · rfl
    · rcases hnom with h' | h'
      · exact absurd h' h
      · omega
  rw [hz, hp]

/-- **C52 fails** with a robust horizon: in the robust example with the parameter itself as auxiliary expression, the log pairs the
nominal parameter 0 with the auxiliary value 1. -/
theorem C52_fails_robust :
    ∃ (m : DaeModel ℚ { exDims with naux := 1 }) (cfg : MpcCfg ℚ { exDims with naux := 1 }) (w : OptX ℚ { exDims with naux := 1 })
      (q : OptP ℚ { exDims with naux := 1 }),
      (∀ x u z tv p, m.aux x u z tv p = p) ∧ cfg.ifcn = discreteIfcn m cfg.sx cfg.su cfg.sz 1 ∧ cfg.Feasible w q ∧
      q.p 0 ⟨0, by decide⟩ = 0 ∧ cfg.auxAt m w q 0 0 ⟨0, by decide⟩ = 1 := by
  let m : DaeModel ℚ { exDims with naux := 1 } := { exModel with aux := fun _ _ _ _ p => p }
  refine ⟨m, { N := 2, nRobust := 1, c := 2, ifcn := discreteIfcn m (fun _ => 2) (fun _ => 3) (fun _ => 1) 1
               sx := fun _ => 2, su := fun _ => 3, sz := fun _ => 1
               xlb := fun _ => .ninf, xub := fun _ => .pinf, ulb := fun _ => .ninf, uub := fun _ => .pinf
               zlb := fun _ => .ninf, zub := fun _ => .pinf, xtlb := fun _ => .ninf, xtub := fun _ => .pinf
               nl := [], lterm := fun _ _ _ _ _ => 0, mterm := fun _ _ _ => 0, rterm := .factor fun _ => 0 },
    ⟨exW.x, exW.z, exW.u, exW.eps⟩, ⟨exQ.x0, exQ.tvp, exQ.p, exQ.uPrev⟩, fun _ _ _ _ _ => rfl, rfl, ?_, ?_, ?_⟩ <;> decide +kernel

end DoMpc
