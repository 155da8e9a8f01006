import Verif.Props.LiveCost

/-!
# C113 for continuous-time models
-/
set_option linter.unusedSectionVars false
namespace DoMpc
open Spec Polynomial
variable {K : Type} [Field K] [LinearOrder K] [IsStrictOrderedRing K] {d : Dims}

section
variable (T : SimTools K d) (mk : Vec K d.nx → Vec K d.nu → Vec K d.nz → Ifcn K d) (s : Scheme K) (m : DaeModel K d)

theorem CostCalls.collRegular (htau : s.tau 0 = 0) (hinj : ∀ i ≤ s.deg, ∀ j ≤ s.deg, s.tau i = s.tau j → i = j)
    (hmk : ∀ sx su sz, setupCollocation m sx su sz 1 s.deg s.ni s.tau s.tStep = .ok (mk sx su sz)) {S : MpcSettings} {calls : List (MpcOp K d)} (hp : CostCalls S calls)
    (ob : Objective K d) (hlt : ∀ x u z z' tv p, ob.lterm x u z tv p = ob.lterm x u z' tv p) :
    (wantedCfg mk S calls ob).CollRegular m s.deg s.ni s.tau s.tStep :=
  { setup := hmk _ _ _, tau0 := htau, tauInj := hinj, cpos := hp.plain.cpos, sx := fun j => hp.plain.scaling (.x j), su := fun j => hp.plain.scaling (.u j),
    sz := fun j => hp.plain.scaling (.z j), noColl := hp.plain.noColl, names := hp.plain.names, noAlg := hp.plain.noAlg, slack := hp.plain.slack, horizon := hp.plain.horizon,
    lterm := hlt, rterm := fun f hf => by
      change lastOf rtermOf calls (.factor fun _ => 0) = .user f at hf
      rw [hp.change] at hf
      cases hf }

/-- A turn of the loop with a solver that finds minimisers. -/
theorem turn_optimal_coll (htau : s.tau 0 = 0) (hinj : ∀ i ≤ s.deg, ∀ j ≤ s.deg, s.tau i = s.tau j → i = j)
    (hmk : ∀ sx su sz, setupCollocation m sx su sz 1 s.deg s.ni s.tau s.tStep = .ok (mk sx su sz))
    (E : MpcEnv K d) (hE : E.tStep = s.tStep) (hst : ∀ s ∈ E.storeStats, s ∈ validStats) (S : MpcSettings) (ops : List (MpcOp K d)) (ob : Objective K d) (nEps : Nat)
    (hT : ContinuousPlant s m T) (sops : List (SimOp K d)) (x0 : Vec K d.nx) (u0 : Vec K d.nu) (es) (h) (l : LiveLoop K d)
    (hi : LoopInv T mk E S ops ob nEps sops x0 u0 es h l) (hp : CostCalls S (ops ++ boundsSet es))
    (hlt : ∀ x u z z' tv p, ob.lterm x u z tv p = ob.lterm x u z' tv p)
    (hP : PredictsPlant sops E.tStep (lastOf settingsOf (ops ++ boundsSet es) S).c (lastOf settingsOf (ops ++ boundsSet es) S).nRobust E.tvpFun E.pFun)
    (Sv : Solver K d E.nLagr) (hn : ReportsNumbers E.storeStats Sv) :
    let t := (turns h : K) * E.tStep
    let q : OptP K d := ⟨lastOf plantState h x0, E.tvpFun t, E.pFun t, lastOf inputGiven h u0⟩
    let problem := configuredColl S (ops ++ boundsSet es) ob m s.deg s.ni s.tau s.tStep q
    FindsMinimiser l.ctrl.obj q Sv → (∃ π, problem.Admissible π) →
      ∃ π r y, problem.Optimal π ∧ MayOccur problem.c problem.nR 0 [] r ∧ lastOf simParamOf sops (fun _ => 0) t = E.pFun t r ∧
        (l.turn T E Sv).2 = .ok (π.U 0 [], y) ∧ asState y = π.X 1 (extend problem.nR 0 [] r) := by
  intro t q problem hf hπ
  have hm : StateMeasured T.model := hT.model ▸ hT.measured
  obtain ⟨pb, a, y, hpb, ha, hu, hy⟩ := turn_ok T mk E hst S ops ob nEps sops x0 u0 es h l hi hm Sv hn
  obtain ⟨es', h', hcI, hb⟩ := hi.ctrl
  have haft := hcI.after
  rw [hb] at haft
  have hR := CostCalls.collRegular mk s m htau hinj hmk hp ob hlt
  have hpr : (wantedCfg mk S (ops ++ boundsSet es) ob).collProblem m s.deg s.ni s.tau s.tStep q = problem := wantedCfg_collProblem mk s m S (ops ++ boundsSet es) ob q
  have hex : ∃ w, Spec.SolverFeasible l.ctrl.obj w q := by
    obtain ⟨π, hπ⟩ := hπ
    rw [← hpr] at hπ
    exact ⟨_, (after_feasible mk S _ ob l.ctrl.obj haft _ q).2 (C12_admissible_is_feasible_collocation hR q π hπ).1⟩
  have hmin := hf pb hpb a ha hex
  obtain ⟨π, e1, e2, e3⟩ := C12_first_input_collocation_partial hR _ q ((after_minimises mk S _ ob l.ctrl.obj haft _ q).1 hmin)
  rw [hpr] at e1
  have hu0 : l.ctrl.obj.returnedInput (Sv pb a).x = π.U 0 [] := by
    rw [e3]
    exact congrArg (fun v => (Sv pb a).x.u 0 0 * v) haft.su
  obtain ⟨r, hr, hrp⟩ := hP.params t
  refine ⟨π, r, y, e1, hr, hrp, by rw [hu, hu0], ?_⟩
  have hN : 0 < problem.N := by
    have := hp.plain.horizon
    show 0 < (lastOf settingsOf (ops ++ boundsSet es) S).N
    omega
  have hdyn := e1.1.dynamics 0 hN [] ⟨by simp, by simp⟩ r hr
  rw [hy, hu0]
  have htv : E.tvpFun t 0 = lastOf simTvpOf sops (fun _ => 0) t := (hP.tvp t).symm
  have hx : π.X 0 [] = lastOf plantState h x0 := e1.1.start
  change s.Interval m (π.X 0 []) (π.U 0 []) (E.tvpFun t 0) (E.pFun t r) (π.X 1 _) _ _ at hdyn
  rw [hx, htv, ← hrp] at hdyn
  have hsame : SameContinuousPlant s m (⟨T.model, T.build E.tStep, E.tStep, lastOf simTvpOf sops fun _ => 0, lastOf simParamOf sops fun _ => 0⟩ : SimEnv K d) := by
    obtain ⟨integ, g1, g2⟩ := hT.integ
    exact ⟨hT.model, ⟨integ, by rw [hE]; exact g1, g2⟩⟩
  exact continuous_simulate hsame hdyn l.sim.st.simZ

include mk in
/-- The plan for the next turn costs less, by the stage cost of this one. -/
theorem next_cheaper_coll (E : MpcEnv K d) (S : MpcSettings) (calls : List (MpcOp K d)) (ob : Objective K d) (hp : CostCalls S calls)
    (hS : LyapunovTerminalColl s S calls ob m E.tStep E.tvpFun E.pFun)
    (hC : ConsistentTime E.tStep (lastOf settingsOf calls S).N (lastOf settingsOf calls S).c (lastOf settingsOf calls S).nRobust E.tvpFun E.pFun)
    (t : K) (x : Vec K d.nx) (uLast uLast' : Vec K d.nu) (π : CollPolicy K d)
    (hadm : (configuredColl S calls ob m s.deg s.ni s.tau s.tStep ⟨x, E.tvpFun t, E.pFun t, uLast⟩).Admissible π) :
    let problem' := configuredColl S calls ob m s.deg s.ni s.tau s.tStep ⟨π.X 1 [], E.tvpFun (t + E.tStep), E.pFun (t + E.tStep), uLast'⟩
    ∃ π', problem'.Admissible π' ∧
      ob.lterm x (π.U 0 []) (π.ζ 0 [] 0 0) (E.tvpFun t 0) (E.pFun t 0) + problem'.policyCost π' ≤
        (configuredColl S calls ob m s.deg s.ni s.tau s.tStep ⟨x, E.tvpFun t, E.pFun t, uLast⟩).policyCost π := by
  set cfg := wantedCfg mk S calls ob with hcfg
  have hpr := fun q => wantedCfg_collProblem mk s m S calls ob q
  rw [← hpr] at hadm
  simp only [← hpr]
  let EM : MpcEnv K d := { E with cfg := cfg, model := m }
  have hin : ∀ x, Within EM.cfg.xtlb EM.cfg.xtub x → Within EM.cfg.xlb EM.cfg.xub x := hS.inside
  have hnom : EM.cfg.nRobust = 0 := hp.nominal
  have hNpos : 0 < EM.cfg.N := by
    have := hp.plain.horizon
    show 0 < (lastOf settingsOf calls S).N
    omega
  have hr : MayOccur (lastOf settingsOf calls S).c (lastOf settingsOf calls S).nRobust 0 [] 0 := by rw [hp.nominal]; exact mayOccur_zero.mpr rfl
  have hcon : ConsistentPredictions EM := ⟨hC.tvp, fun t => hC.params t 0 hr⟩
  have hist : ∀ k, IsHistory EM.cfg.c EM.cfg.nRobust k [] := fun k => by rw [hnom]; exact isHistory_zero.mpr rfl
  have hterm : InTerminalBounds S calls (π.X EM.cfg.N []) := hadm.terminal [] (hist _)
  obtain ⟨u, x', P, ζ, k1, k2, k3, k4, k5, k6, k7⟩ := hS.decrease t _ hterm
  have hk : KeepsTerminalAlong s EM.cfg EM.model (EM.tvpFun t EM.cfg.N) (EM.pFun t 0) (π.X EM.cfg.N []) u x' P ζ := ⟨k2, k1, k3, k4, k5, k6⟩
  have hover : EM.cfg.consColloc = true → NoOvershoot s EM.cfg EM.model (EM.tvpFun t (EM.cfg.N - 1)) (EM.pFun t 0) :=
    fun hcc x u x' P ζ h1 h2 h3 h4 => hS.overshoot hcc t x u x' P ζ h1 h2 h3 h4
  have hsl := slackCost_nonneg_of EM.cfg.nl (π.E 0 []) hp.penalty fun call hcall hs i hi => (hadm.slacks 0 hNpos [] (hist _) call hcall hs i hi).1
  have hx : π.X 0 [] = x := hadm.start
  have h1 := shiftColl_admissible (EM := EM) hnom hNpos hcon t hover hin hS.noSlack ⟨x, E.tvpFun t, E.pFun t, uLast⟩
    ⟨π.X 1 [], E.tvpFun (t + E.tStep), E.pFun (t + E.tStep), uLast'⟩ rfl rfl rfl rfl π hadm rfl u x' P ζ hk
  have h2 := shift_cost (EM := EM) hnom hNpos hcon t hp.change ⟨x, E.tvpFun t, E.pFun t, uLast⟩
    ⟨π.X 1 [], E.tvpFun (t + E.tStep), E.pFun (t + E.tStep), uLast'⟩ rfl rfl rfl rfl π.atNodes hsl u (ζ 0 0) x' k7
  rw [← shiftColl_atNodes EM.cfg.N π u x' P ζ] at h2
  have hx' : π.atNodes.X 0 [] = x := hx
  rw [hx'] at h2
  exact ⟨_, h1, h2⟩

end

/-- **C113** (continuous-time models, collocation): the same for a plant whose integrator solves the collocation equations exactly, a stage cost that does not depend on
algebraic states, and a terminal cost that falls by the stage cost along the collocation polynomials; with `cons_check_colloc_points` under the condition of C112 on
overshooting.  The last part needs costs that are not negative. -/
theorem C113_cost_collocation (S : MpcSettings) (m : DaeModel K d) (mk : Vec K d.nx → Vec K d.nu → Vec K d.nz → Ifcn K d) (s : Scheme K)
    (htau : s.tau 0 = 0) (hinj : ∀ i ≤ s.deg, ∀ j ≤ s.deg, s.tau i = s.tau j → i = j)
    (hmk : ∀ sx su sz, setupCollocation m sx su sz 1 s.deg s.ni s.tau s.tStep = .ok (mk sx su sz))
    (E : MpcEnv K d) (hE : E.tStep = s.tStep) (hst : ∀ s ∈ E.storeStats, s ∈ validStats) (ops : List (MpcOp K d))
    (hc : ∀ op ∈ ops, Configures op) (T : SimTools K d) (hT : ContinuousPlant s m T) (sops : List (SimOp K d)) (hsc : ∀ op ∈ sops, SimConfigures op)
    (hP : PredictsPlant sops E.tStep (lastOf settingsOf ops S).c (lastOf settingsOf ops S).nRobust E.tvpFun E.pFun)
    (hC : ConsistentTime E.tStep (lastOf settingsOf ops S).N (lastOf settingsOf ops S).c (lastOf settingsOf ops S).nRobust E.tvpFun E.pFun)
    (nEps : Nat) (x0 : Vec K d.nx) (u0 : Vec K d.nu) (z0 : Vec K d.nz) (es1 es2 : List (LoopEv K d E.nLagr)) (he1 : ∀ e ∈ es1, FairEv e) :
    let o1 := (MpcObj.new S : MpcObj K d).run mk ops
    let s1 := (SimObj.new : SimObj K d).run T sops
    let l0 := LiveLoop.start T E (o1.exec mk .setup).1 (s1.exec T .setup).1 nEps x0 u0 z0
    let calls := ops ++ boundsSet es1
    let o := (l0.run T mk E es1).ctrl.obj
    (o1.exec mk .setup).2 = none → (s1.exec T .setup).2 = none → CostCalls S calls →
      ∃ ob, lastOf (fun op => (objectiveOf op).map some) ops none = some ob ∧
        ((∀ x u z z' tv p, ob.lterm x u z tv p = ob.lterm x u z' tv p) → LyapunovTerminalColl s S calls ob m E.tStep E.tvpFun E.pFun →
        (∀ e ∈ es2, OptimalEv o E.storeStats e) →
        let problem : List (LoopRow K d E.nLagr) → CollStage K d := fun h =>
          configuredColl S calls ob m s.deg s.ni s.tau s.tStep ⟨lastOf plantState h x0, E.tvpFun (turns h * E.tStep), E.pFun (turns h * E.tStep), lastOf inputGiven h u0⟩
        let h1 := l0.history T mk E es1
        let costs := turnCosts (stageCost ob.lterm (fun _ _ _ _ => 0) (lastOf simTvpOf sops fun _ => 0) (lastOf simParamOf sops fun _ => 0)) E.tStep (lastOf plantState h1 x0)
          (turns h1) ((l0.run T mk E es1).history T mk E es2)
        ∀ π, (problem h1).Admissible π →
          (∃ π', (problem (l0.history T mk E (es1 ++ es2))).Admissible π' ∧
            costs.sum + (problem (l0.history T mk E (es1 ++ es2))).policyCost π' ≤ (problem h1).policyCost π) ∧
          ((∀ x u z tv p, 0 ≤ ob.lterm x u z tv p) → (∀ x tv p, 0 ≤ ob.mterm x tv p) →
            costs.sum ≤ (problem h1).policyCost π ∧ ∀ η, η * (costs.countP (η ≤ ·) : ℕ) ≤ (problem h1).policyCost π)) := by
  intro o1 s1 l0 calls o hs hss hp
  obtain ⟨ob, hob, hi0⟩ := loop_start T mk E S ops hc hs sops hsc hss hP.step nEps x0 u0 z0
  refine ⟨ob, hob, ?_⟩
  intro hlt hS he2 problem h1 costs π hπ
  have hm : StateMeasured T.model := hT.model ▸ hT.measured
  have hi1 := loop_run T mk E S ops ob nEps sops x0 u0 hm es1 [] [] l0 hi0 he1
  rw [List.nil_append, List.nil_append] at hi1
  have hset : lastOf settingsOf (ops ++ boundsSet es1) S = lastOf settingsOf ops S := by
    obtain ⟨es', -, -, hb⟩ := hi1.ctrl
    rw [← hb]; exact settings_bounds S ops es'
  rw [← hset] at hP hC
  have after : ∀ es h l, LoopInv T mk E S ops ob nEps sops x0 u0 es h l → boundsSet es = boundsSet es1 → After mk S calls ob l.ctrl.obj := by
    intro es h l hi hbs
    obtain ⟨es', h', hcI, hb⟩ := hi.ctrl
    have := hcI.after
    rwa [hb, hbs] at this
  have ho := after _ _ _ hi1 rfl
  have hlastq : ∀ (q : OptP K d) u (π : Policy K d), (configured S calls ob m { q with uPrev := u }).cost π = (configured S calls ob m q).cost π := by
    intro q u π
    rw [cost_nominal _ hp.nominal, cost_nominal _ hp.nominal]
    simp only [configured, change_zero hp]
  have key := cost_core T mk E S ops ob nEps hm sops x0 u0 (boundsSet es1)
    (fun q v => ∃ π, (configuredColl S calls ob m s.deg s.ni s.tau s.tStep q).Admissible π ∧ (configuredColl S calls ob m s.deg s.ni s.tau s.tStep q).policyCost π ≤ v)
    (stageCost ob.lterm (fun _ _ _ _ => 0) (lastOf simTvpOf sops fun _ => 0) (lastOf simParamOf sops fun _ => 0))
    (fun q u v ⟨π, hπ, a2⟩ => ⟨π, ⟨hπ.start, hπ.dynamics, hπ.states, hπ.inside, hπ.terminal, hπ.inputs, hπ.algebraic, hπ.constraints, hπ.slacks, hπ.oneInput⟩, by
      have := hlastq q u π.atNodes
      exact this.le.trans a2⟩) o
    (fun es h l hi hbs Sv hn hf v ⟨π0, b1, b2⟩ => by
      have haft := after _ _ _ hi hbs
      have hpb := after_problem _ S _ ob _ _ haft ho
      have hf' : ∀ q, FindsMinimiser l.ctrl.obj q Sv := by
        intro q pb hpb' a ha ⟨w, hw⟩
        rw [after_feasible _ S _ ob _ haft] at hw
        rw [after_minimises _ S _ ob _ haft]
        have := hf q pb (hpb ▸ hpb') a ha ⟨w, (after_feasible _ S _ ob _ ho _ _).2 hw⟩
        rwa [after_minimises _ S _ ob _ ho] at this
      have key := turn_optimal_coll T mk s m htau hinj hmk E hE hst S ops ob nEps hT sops x0 u0 es h l hi
      rw [hbs] at key
      obtain ⟨π, r, y, a1, a2, a3, a4, a5⟩ := key hp hlt hP Sv hn (hf' _) ⟨π0, b1⟩
      change MayOccur (lastOf settingsOf calls S).c (lastOf settingsOf calls S).nRobust 0 [] r at a2
      rw [hp.nominal] at a2
      obtain rfl := mayOccur_zero.mp a2
      have hext : extend (lastOf settingsOf calls S).nRobust 0 [] 0 = [] := by rw [hp.nominal]; exact extend_zero _ _ _
      change asState y = π.X 1 (extend (lastOf settingsOf calls S).nRobust 0 [] 0) at a5
      rw [hext] at a5
      obtain ⟨π', d1, d2⟩ := next_cheaper_coll mk s m E S calls ob hp hS hC _ _ _ (π.U 0 []) π a1.1
      refine ⟨_, y, a4, _, ?_, π', by rw [a5]; exact d1, le_rfl⟩
      have hmin := a1.2 π0 b1
      unfold stageCost
      rw [hP.tvp, a3, a5, hlt _ _ 0 (π.ζ 0 [] 0 0)]
      exact le_trans d2 (le_trans hmin b2))
    es2 _ _ _ hi1 rfl he2 _ ⟨π, hπ, le_rfl⟩
  obtain ⟨v', e1, π', e2, e3⟩ := key
  have hh : l0.history T mk E es1 ++ (l0.run T mk E es1).history T mk E es2 = l0.history T mk E (es1 ++ es2) := (loop_history_append T mk E es1 es2 l0).symm
  rw [hh] at e2 e3
  have e1' : costs.sum + v' ≤ (problem h1).policyCost π := e1
  have e3' : (problem (l0.history T mk E (es1 ++ es2))).policyCost π' ≤ v' := e3
  have hmain : costs.sum + (problem (l0.history T mk E (es1 ++ es2))).policyCost π' ≤ (problem h1).policyCost π := by linarith
  refine ⟨⟨π', e2, hmain⟩, fun hl hmt => ?_⟩
  have hpos := fun q => configured_cost_nonneg hp ob m q π'.atNodes hl hmt (fun k hk call hcall hs i hi => (e2.slacks k hk [] (by
    show IsHistory (lastOf settingsOf calls S).c (lastOf settingsOf calls S).nRobust k []
    rw [hp.nominal]; exact isHistory_zero.mpr rfl) call hcall hs i hi).1)
  have hsum : costs.sum ≤ (problem h1).policyCost π := le_trans (le_add_of_nonneg_right (hpos _)) hmain
  exact ⟨hsum, fun η => le_trans (count_large η costs (turnCosts_nonneg _ _ (fun _ _ _ => hl _ _ _ _ _) _ _ _)) hsum⟩

end DoMpc
