import Verif.Spec.LiveCost
import Verif.Props.LiveSafeColl
import Verif.Props.Stability
import Verif.Props.Convergence

/-!
# C113: what a configured loop costs
-/
set_option linter.unusedSectionVars false
namespace DoMpc
open Spec
variable {K : Type} [Field K] [LinearOrder K] [IsStrictOrderedRing K] {d : Dims}

theorem optimal_point {n : Nat} (o : MpcObj K d) (Sv : Solver K d n) (h : ∀ q, FindsMinimiser o q Sv) : FindsPoint o Sv :=
  fun pb hpb a hw => (h a.p pb hpb a rfl hw).1

theorem optimal_safe {n : Nat} (o : MpcObj K d) (names : List String) (e : LoopEv K d n) (h : OptimalEv o names e) : SafeEv o names e := by
  cases e with
  | turn Sv => exact ⟨optimal_point o Sv h.1, h.2⟩
  | restart x => exact h
  | ctrl e => exact h
  | sim op => exact h

theorem turnCosts_append {n : Nat} (c : K → Vec K d.nx → Vec K d.nu → K) (dt : K) (x0 : Vec K d.nx) (h2 : List (LoopRow K d n)) :
    ∀ (h1 : List (LoopRow K d n)) (h : List (LoopRow K d n)), (∀ e ∈ h1, ∀ x, e.1 ≠ .restart x) →
      turnCosts c dt (lastOf plantState h x0) (turns h) (h1 ++ h2) =
        turnCosts c dt (lastOf plantState h x0) (turns h) h1 ++ turnCosts c dt (lastOf plantState (h ++ h1) x0) (turns (h ++ h1)) h2 := by
  intro h1
  induction h1 with
  | nil => intro h _; simp [turnCosts]
  | cons e h1 ih =>
    intro h hr
    have key := ih (h ++ [e]) (fun e' h' => hr e' (by simp [h']))
    rw [List.append_assoc] at key
    have hre := hr e (by simp)
    obtain ⟨ev, r⟩ := e
    by_cases ht : turned (ev, r) = true
    · cases ev with
      | turn Sv =>
        match r, ht with
        | some (.ok (u, y)), _ =>
          rw [turns_turn h _ hre rfl] at key
          have hx : lastOf plantState (h ++ [(LoopEv.turn Sv, some (Except.ok (u, y)))]) x0 = asState y := by rw [lastOf_snoc]; rfl
          rw [hx] at key
          simp only [List.cons_append, turnCosts, key]
          rfl
      | _ => simp [turned] at ht
    · have ht' : turned (ev, r) = false := by simpa using ht
      rw [turns_other h _ hre ht'] at key
      have hp : plantState (ev, r) = none := by
        cases ev with
        | restart x => exact absurd rfl (hre x)
        | turn Sv =>
          match r with
          | some (.ok (u, y)) => simp [turned] at ht'
          | some (.error _) => rfl
          | none => rfl
        | ctrl e => rfl
        | sim op => rfl
      rw [lastOf_snoc_none _ _ _ _ hp] at key
      have hc : ∀ (x : Vec K d.nx) k (l : List (LoopRow K d n)), turnCosts c dt x k ((ev, r) :: l) = turnCosts c dt x k l := by
        intro x k l
        cases ev with
        | restart x => rfl
        | turn Sv =>
          match r with
          | some (.ok (u, y)) => simp [turned] at ht'
          | some (.error _) => rfl
          | none => rfl
        | ctrl e => rfl
        | sim op => rfl
      rw [List.cons_append, hc, hc, key]
      rfl

section
variable (T : SimTools K d) (mk : Vec K d.nx → Vec K d.nu → Vec K d.nz → Ifcn K d)

/-- A quantity `Adm q v` ("there is a plan of cost at most `v`") that each turn decreases by its cost. -/
theorem cost_core (E : MpcEnv K d) (S : MpcSettings) (ops : List (MpcOp K d)) (ob : Objective K d) (nEps : Nat) (hm : StateMeasured T.model)
    (sops : List (SimOp K d)) (x0 : Vec K d.nx) (u0 : Vec K d.nu) (bs : List (MpcOp K d)) (Adm : OptP K d → K → Prop) (c : K → Vec K d.nx → Vec K d.nu → K)
    (hlast : ∀ q u v, Adm q v → Adm { q with uPrev := u } v)
    (o : MpcObj K d)
    (hstep : ∀ es h l, LoopInv T mk E S ops ob nEps sops x0 u0 es h l → boundsSet es = bs → ∀ Sv, ReportsNumbers E.storeStats Sv → (∀ q, FindsMinimiser o q Sv) → ∀ v,
      Adm ⟨lastOf plantState h x0, E.tvpFun ((turns h : K) * E.tStep), E.pFun ((turns h : K) * E.tStep), lastOf inputGiven h u0⟩ v →
      ∃ u y, (l.turn T E Sv).2 = .ok (u, y) ∧ ∃ v', c ((turns h : K) * E.tStep) (lastOf plantState h x0) u + v' ≤ v ∧
        Adm ⟨asState y, E.tvpFun ((turns h : K) * E.tStep + E.tStep), E.pFun ((turns h : K) * E.tStep + E.tStep), u⟩ v')
    (es2 : List (LoopEv K d E.nLagr)) :
    ∀ es h l, LoopInv T mk E S ops ob nEps sops x0 u0 es h l → boundsSet es = bs → (∀ e ∈ es2, OptimalEv o E.storeStats e) → ∀ v,
    Adm ⟨lastOf plantState h x0, E.tvpFun ((turns h : K) * E.tStep), E.pFun ((turns h : K) * E.tStep), lastOf inputGiven h u0⟩ v →
    let h' := h ++ l.history T mk E es2
    ∃ v', (turnCosts c E.tStep (lastOf plantState h x0) (turns h) (l.history T mk E es2)).sum + v' ≤ v ∧
      Adm ⟨lastOf plantState h' x0, E.tvpFun ((turns h' : K) * E.tStep), E.pFun ((turns h' : K) * E.tStep), lastOf inputGiven h' u0⟩ v' := by
  induction es2 with
  | nil => intro es h l hi hb _ v hπ; exact ⟨v, by simp [LiveLoop.history, turnCosts], by simpa [LiveLoop.history] using hπ⟩
  | cons e es2 ih =>
    intro es h l hi hb he v hπ h'
    have hee := he e (by simp)
    obtain ⟨f1, f2⟩ := safe_fair o E.storeStats e (optimal_safe o _ e hee)
    have hi' := loop_exec T mk E S ops ob nEps sops x0 u0 es h l hi hm e f1
    have hb' : boundsSet (es ++ [e]) = bs := by rw [boundsSet_snoc, f2, List.append_nil, hb]
    have hre : ∀ x, e ≠ .restart x := by
      rintro x rfl
      exact hee.elim
    have happ := turnCosts_append c E.tStep x0 ((l.exec T mk E e).1.history T mk E es2) [(e, (l.exec T mk E e).2)] h
      (by intro e' he' x; rw [List.mem_singleton] at he'; subst he'; exact hre x)
    have hh : h' = (h ++ [(e, (l.exec T mk E e).2)]) ++ (l.exec T mk E e).1.history T mk E es2 := by simp [h', LiveLoop.history]
    have step : ∃ v1, (turnCosts c E.tStep (lastOf plantState h x0) (turns h) [(e, (l.exec T mk E e).2)]).sum + v1 ≤ v ∧
        Adm ⟨lastOf plantState (h ++ [(e, (l.exec T mk E e).2)]) x0, E.tvpFun ((turns (h ++ [(e, (l.exec T mk E e).2)]) : K) * E.tStep),
          E.pFun ((turns (h ++ [(e, (l.exec T mk E e).2)]) : K) * E.tStep), lastOf inputGiven (h ++ [(e, (l.exec T mk E e).2)]) u0⟩ v1 := by
      have other : ∀ r, plantState (e, r) = none → turned (e, r) = false →
          Adm ⟨lastOf plantState (h ++ [(e, r)]) x0, E.tvpFun ((turns (h ++ [(e, r)]) : K) * E.tStep), E.pFun ((turns (h ++ [(e, r)]) : K) * E.tStep),
            lastOf inputGiven (h ++ [(e, r)]) u0⟩ v := by
        intro r h2 h3
        rw [lastOf_snoc_none _ _ _ _ h2, turns_other h (e, r) hre h3]
        exact hlast _ _ _ hπ
      cases e with
      | restart x => exact hee.elim
      | ctrl e => exact ⟨v, by simp [turnCosts], other _ rfl rfl⟩
      | sim op => exact ⟨v, by simp [turnCosts], other _ rfl rfl⟩
      | turn Sv =>
        obtain ⟨u, y, a1, v', a2, a3⟩ := hstep es h l hi hb Sv hee.2 hee.1 v hπ
        have hex : (l.exec T mk E (.turn Sv)).2 = some (.ok (u, y)) := congrArg some a1
        rw [hex]
        have hx : lastOf plantState (h ++ [(.turn Sv, some (.ok (u, y)))]) x0 = asState y := by rw [lastOf_snoc]; rfl
        have ht := turns_turn h (.turn Sv, some (.ok (u, y))) (by simp) rfl
        rw [hx, ht]
        have e1 : (((turns h + 1 : ℕ) : K)) * E.tStep = (turns h : K) * E.tStep + E.tStep := by push_cast; ring
        rw [e1]
        exact ⟨v', by simpa [turnCosts] using a2, hlast _ _ _ a3⟩
    obtain ⟨v1, b1, b2⟩ := step
    obtain ⟨v2, c1, c2⟩ := ih _ _ _ hi' hb' (fun e' h' => he e' (by simp [h'])) v1 b2
    refine ⟨v2, ?_, by rw [hh]; exact c2⟩
    have e2 : l.history T mk E (e :: es2) = [(e, (l.exec T mk E e).2)] ++ (l.exec T mk E e).1.history T mk E es2 := rfl
    rw [e2, happ, List.sum_append]
    linarith

end

section
variable (T : SimTools K d) (m : DaeModel K d)

/-- A turn of the loop with a solver that finds minimisers. -/
theorem turn_optimal (E : MpcEnv K d) (hst : ∀ s ∈ E.storeStats, s ∈ validStats) (S : MpcSettings) (ops : List (MpcOp K d)) (ob : Objective K d) (nEps : Nat)
    (hT : DiscretePlant m T) (sops : List (SimOp K d)) (x0 : Vec K d.nx) (u0 : Vec K d.nu) (es) (h) (l : LiveLoop K d)
    (hi : LoopInv T (fun sx su sz => discreteIfcn m sx su sz 1) E S ops ob nEps sops x0 u0 es h l) (hp : PlainCalls S (ops ++ boundsSet es))
    (hP : PredictsPlant sops E.tStep (lastOf settingsOf (ops ++ boundsSet es) S).c (lastOf settingsOf (ops ++ boundsSet es) S).nRobust E.tvpFun E.pFun)
    (Sv : Solver K d E.nLagr) (hn : ReportsNumbers E.storeStats Sv) :
    let t := (turns h : K) * E.tStep
    let q : OptP K d := ⟨lastOf plantState h x0, E.tvpFun t, E.pFun t, lastOf inputGiven h u0⟩
    let problem := configured S (ops ++ boundsSet es) ob m q
    FindsMinimiser l.ctrl.obj q Sv → (∃ π, problem.Admissible π) →
      ∃ π r y, problem.Optimal π ∧ MayOccur problem.c problem.nR 0 [] r ∧ lastOf simParamOf sops (fun _ => 0) t = E.pFun t r ∧
        (l.turn T E Sv).2 = .ok (π.U 0 [], y) ∧ asState y = π.X 1 (extend problem.nR 0 [] r) := by
  intro t q problem hf hπ
  have hm : StateMeasured T.model := hT.model ▸ hT.measured
  obtain ⟨pb, a, y, hpb, ha, hu, hy⟩ := turn_ok T _ E hst S ops ob nEps sops x0 u0 es h l hi hm Sv hn
  obtain ⟨es', h', hcI, hb⟩ := hi.ctrl
  have haft := hcI.after
  rw [hb] at haft
  have hR := plain_regular S (ops ++ boundsSet es) ob m hp
  have hpr : (wantedCfg (fun sx su sz => discreteIfcn m sx su sz 1) S (ops ++ boundsSet es) ob).problem m q = problem := wantedCfg_problem _ S (ops ++ boundsSet es) ob m q
  have hex : ∃ w, Spec.SolverFeasible l.ctrl.obj w q := by
    rw [← hpr, ← C12_solver_problem_feasible_iff _ m hR q] at hπ
    obtain ⟨w, hw⟩ := hπ
    exact ⟨w, (after_feasible _ S _ ob l.ctrl.obj haft w q).2 hw⟩
  have hmin := hf pb hpb a ha hex
  obtain ⟨e1, e2⟩ := C12_first_input_of_optimal_policy_partial _ m hR _ q ((after_minimises _ S _ ob l.ctrl.obj haft _ q).1 hmin)
  rw [hpr] at e1
  set π := (wantedCfg (fun sx su sz => discreteIfcn m sx su sz 1) S (ops ++ boundsSet es) ob).policy (Sv pb a).x with hπdef
  have hu0 : l.ctrl.obj.returnedInput (Sv pb a).x = π.U 0 [] := by
    rw [← e2]
    exact congrArg (fun v => (Sv pb a).x.u 0 0 * v) haft.su
  obtain ⟨r, hr, hrp⟩ := hP.params t
  refine ⟨π, r, y, e1, hr, hrp, by rw [hu, hu0], ?_⟩
  have hN : 0 < problem.N := by
    have := hp.horizon
    show 0 < (lastOf settingsOf (ops ++ boundsSet es) S).N
    omega
  obtain ⟨d1, d2⟩ := e1.1.dynamics
  obtain ⟨d3, d4⟩ := d2 0 hN [] ⟨by simp, by simp⟩ r hr
  rw [hy, hu0]
  have htv : E.tvpFun t 0 = lastOf simTvpOf sops (fun _ => 0) t := (hP.tvp t).symm
  have hx : π.X 0 [] = lastOf plantState h x0 := d1
  change m.alg (π.X 0 []) (π.U 0 []) _ (E.tvpFun t 0) (E.pFun t r) 0 = 0 at d3
  change π.X 1 _ = m.rhs (π.X 0 []) (π.U 0 []) _ (E.tvpFun t 0) (E.pFun t r) 0 at d4
  rw [hx, htv, ← hrp] at d3 d4
  have hsame : SamePlant m (⟨T.model, T.build E.tStep, E.tStep, lastOf simTvpOf sops fun _ => 0, lastOf simParamOf sops fun _ => 0⟩ : SimEnv K d) := by
    obtain ⟨root, g1, g2⟩ := hT.root
    exact ⟨hT.model, ⟨root, g1 _, g2⟩, hT.unique⟩
  rw [d4]
  exact congrArg Prod.fst (simulate_eq hsame d3 l.sim.st.simZ)

/-- The plan for the next turn costs less, by the stage cost of this one. -/
theorem next_cheaper (E : MpcEnv K d) (S : MpcSettings) (calls : List (MpcOp K d)) (ob : Objective K d) (hp : CostCalls S calls)
    (hS : LyapunovTerminal S calls ob m E.tStep E.tvpFun E.pFun)
    (hC : ConsistentTime E.tStep (lastOf settingsOf calls S).N (lastOf settingsOf calls S).c (lastOf settingsOf calls S).nRobust E.tvpFun E.pFun)
    (t : K) (x : Vec K d.nx) (uLast uLast' : Vec K d.nu) (π : Policy K d)
    (hadm : (configured S calls ob m ⟨x, E.tvpFun t, E.pFun t, uLast⟩).Admissible π) :
    let problem' := configured S calls ob m ⟨π.X 1 [], E.tvpFun (t + E.tStep), E.pFun (t + E.tStep), uLast'⟩
    ∃ π', problem'.Admissible π' ∧
      ob.lterm x (π.U 0 []) (π.Z 0 []) (E.tvpFun t 0) (E.pFun t 0) + problem'.cost π' ≤ (configured S calls ob m ⟨x, E.tvpFun t, E.pFun t, uLast⟩).cost π := by
  set cfg := wantedCfg (fun sx su sz => discreteIfcn m sx su sz 1) S calls ob with hcfg
  have hpr := fun q => wantedCfg_problem (fun sx su sz => discreteIfcn m sx su sz 1) S calls ob m q
  rw [← hpr] at hadm
  simp only [← hpr]
  let EM : MpcEnv K d := { E with cfg := cfg, model := m }
  have hin : ∀ x, Within EM.cfg.xtlb EM.cfg.xtub x → Within EM.cfg.xlb EM.cfg.xub x := hS.inside
  have hnom : EM.cfg.nRobust = 0 := hp.nominal
  have hNpos : 0 < EM.cfg.N := by
    have := hp.plain.horizon
    show 0 < (lastOf settingsOf calls S).N
    omega
  have hr : MayOccur (lastOf settingsOf calls S).c (lastOf settingsOf calls S).nRobust 0 [] 0 := by rw [hp.nominal]; exact mayOccur_zero.mpr rfl
  have hcon : ConsistentPredictions EM := ⟨hC.tvp, fun t => hC.params t 0 hr⟩
  have hist : ∀ k, IsHistory EM.cfg.c EM.cfg.nRobust k [] := fun k => by rw [hnom]; exact isHistory_zero.mpr rfl
  have hterm : InTerminalBounds S calls (π.X EM.cfg.N []) := hadm.terminal [] (hist _)
  obtain ⟨u, z, k1, k2, k3, k4, k5, k6⟩ := hS.decrease t _ hterm
  have hk : KeepsTerminal EM.cfg EM.model (EM.tvpFun t EM.cfg.N) (EM.pFun t 0) (π.X EM.cfg.N []) u z := ⟨k2, k1, k3, k4, k5⟩
  have hsl := slackCost_nonneg_of EM.cfg.nl (π.E 0 []) hp.penalty fun call hcall hs i hi => (hadm.slacks 0 hNpos [] (hist _) call hcall hs i hi).1
  have hx : π.X 0 [] = x := hadm.dynamics.1
  have h1 := shift_admissible (EM := EM) hnom hNpos hcon t hin hS.noSlack ⟨x, E.tvpFun t, E.pFun t, uLast⟩
    ⟨π.X 1 [], E.tvpFun (t + E.tStep), E.pFun (t + E.tStep), uLast'⟩ rfl rfl rfl rfl π hadm rfl u z hk
  have h2 := shift_cost (EM := EM) hnom hNpos hcon t hp.change ⟨x, E.tvpFun t, E.pFun t, uLast⟩
    ⟨π.X 1 [], E.tvpFun (t + E.tStep), E.pFun (t + E.tStep), uLast'⟩ rfl rfl rfl rfl π hsl u z _ k6
  rw [hx] at h2
  exact ⟨_, h1, h2⟩

end

/-- **C113** (discrete-time models): configure controller and simulator by any calls, `setup()` both, and do anything with them (`es1`).  Nominal controller without penalty on
input changes, plant equal to the model, a terminal cost that falls by the stage cost inside the terminal bounds.  If `π` is any admissible plan at that point, then whatever
happens in this episode from there on (`es2`), with solvers that find global minimisers, the stage costs of the turns in `es2` and the cost of some admissible plan after them
are together at most the cost of `π`. -/
theorem C113_cost (S : MpcSettings) (m : DaeModel K d) (E : MpcEnv K d) (hst : ∀ s ∈ E.storeStats, s ∈ validStats) (ops : List (MpcOp K d))
    (hc : ∀ op ∈ ops, Configures op) (T : SimTools K d) (hT : DiscretePlant m T) (sops : List (SimOp K d)) (hsc : ∀ op ∈ sops, SimConfigures op)
    (hP : PredictsPlant sops E.tStep (lastOf settingsOf ops S).c (lastOf settingsOf ops S).nRobust E.tvpFun E.pFun)
    (hC : ConsistentTime E.tStep (lastOf settingsOf ops S).N (lastOf settingsOf ops S).c (lastOf settingsOf ops S).nRobust E.tvpFun E.pFun)
    (ζ : Vec K d.nx → Vec K d.nu → Vec K d.ntv → Vec K d.np → Vec K d.nz) (hζ : ∀ x u z tv p, m.alg x u z tv p 0 = 0 → ζ x u tv p = z)
    (nEps : Nat) (x0 : Vec K d.nx) (u0 : Vec K d.nu) (z0 : Vec K d.nz) (es1 es2 : List (LoopEv K d E.nLagr)) (he1 : ∀ e ∈ es1, FairEv e) :
    let mk := fun sx su sz => discreteIfcn m sx su sz 1
    let o1 := (MpcObj.new S : MpcObj K d).run mk ops
    let s1 := (SimObj.new : SimObj K d).run T sops
    let l0 := LiveLoop.start T E (o1.exec mk .setup).1 (s1.exec T .setup).1 nEps x0 u0 z0
    let calls := ops ++ boundsSet es1
    let o := (l0.run T mk E es1).ctrl.obj
    (o1.exec mk .setup).2 = none → (s1.exec T .setup).2 = none → CostCalls S calls →
      ∃ ob, lastOf (fun op => (objectiveOf op).map some) ops none = some ob ∧
        (LyapunovTerminal S calls ob m E.tStep E.tvpFun E.pFun →
        (∀ e ∈ es2, OptimalEv o E.storeStats e) →
        let problem : List (LoopRow K d E.nLagr) → MultiStage K d := fun h =>
          configured S calls ob m ⟨lastOf plantState h x0, E.tvpFun (turns h * E.tStep), E.pFun (turns h * E.tStep), lastOf inputGiven h u0⟩
        let h1 := l0.history T mk E es1
        let costs := turnCosts (stageCost ob.lterm ζ (lastOf simTvpOf sops fun _ => 0) (lastOf simParamOf sops fun _ => 0)) E.tStep (lastOf plantState h1 x0) (turns h1)
          ((l0.run T mk E es1).history T mk E es2)
        ∀ π, (problem h1).Admissible π →
          ∃ π', (problem (l0.history T mk E (es1 ++ es2))).Admissible π' ∧ costs.sum + (problem (l0.history T mk E (es1 ++ es2))).cost π' ≤ (problem h1).cost π) := by
  intro mk o1 s1 l0 calls o hs hss hp
  obtain ⟨ob, hob, hi0⟩ := loop_start T mk E S ops hc hs sops hsc hss hP.step nEps x0 u0 z0
  refine ⟨ob, hob, ?_⟩
  intro hS he2 problem h1 costs π hπ
  have hm : StateMeasured T.model := hT.model ▸ hT.measured
  have hi1 := loop_run T mk E S ops ob nEps sops x0 u0 hm es1 [] [] l0 hi0 he1
  rw [List.nil_append, List.nil_append] at hi1
  have hset : lastOf settingsOf (ops ++ boundsSet es1) S = lastOf settingsOf ops S := by
    obtain ⟨es', -, -, hb⟩ := hi1.ctrl
    rw [← hb]; exact settings_bounds S ops es'
  rw [← hset] at hP hC
  have after : ∀ es h l, LoopInv T mk E S ops ob nEps sops x0 u0 es h l → boundsSet es = boundsSet es1 → After mk S calls ob l.ctrl.obj := by
    intro es h l hi hbs
    obtain ⟨es', h', hcI, hb⟩ := hi.ctrl
    have := hcI.after
    rwa [hb, hbs] at this
  have ho := after _ _ _ hi1 rfl
  have hlastq : ∀ (q : OptP K d) u π, (configured S calls ob m q).Admissible π →
      (configured S calls ob m { q with uPrev := u }).Admissible π ∧ (configured S calls ob m { q with uPrev := u }).cost π = (configured S calls ob m q).cost π := by
    intro q u π hπ
    refine ⟨⟨hπ.dynamics, hπ.states, hπ.terminal, hπ.inputs, hπ.algebraic, hπ.constraints, hπ.slacks, hπ.oneInput⟩, ?_⟩
    have hch : ∀ x u v z tv p, changeWanted calls x u v z tv p = 0 := by
      intro x u v z tv p
      unfold changeWanted
      rw [hp.change]
      apply sum_zero_of
      intro y hy
      obtain ⟨j, rfl⟩ := List.mem_ofFn.mp hy
      exact zero_mul _
    rw [cost_nominal _ hp.nominal, cost_nominal _ hp.nominal]
    simp only [configured, hch]
  have key := cost_core T mk E S ops ob nEps hm sops x0 u0 (boundsSet es1)
    (fun q v => ∃ π, (configured S calls ob m q).Admissible π ∧ (configured S calls ob m q).cost π ≤ v)
    (stageCost ob.lterm ζ (lastOf simTvpOf sops fun _ => 0) (lastOf simParamOf sops fun _ => 0))
    (fun q u v ⟨π, a1, a2⟩ => ⟨π, (hlastq q u π a1).1, by rw [(hlastq q u π a1).2]; exact a2⟩) o
    (fun es h l hi hbs Sv hn hf v ⟨π0, b1, b2⟩ => by
      have haft := after _ _ _ hi hbs
      have hpb := after_problem _ S _ ob _ _ haft ho
      have hf' : ∀ q, FindsMinimiser l.ctrl.obj q Sv := by
        intro q pb hpb' a ha ⟨w, hw⟩
        rw [after_feasible _ S _ ob _ haft] at hw
        rw [after_minimises _ S _ ob _ haft]
        have := hf q pb (hpb ▸ hpb') a ha ⟨w, (after_feasible _ S _ ob _ ho _ _).2 hw⟩
        rwa [after_minimises _ S _ ob _ ho] at this
      have key := turn_optimal T m E hst S ops ob nEps hT sops x0 u0 es h l hi
      rw [hbs] at key
      obtain ⟨π, r, y, a1, a2, a3, a4, a5⟩ := key hp.plain hP Sv hn (hf' _) ⟨π0, b1⟩
      change MayOccur (lastOf settingsOf calls S).c (lastOf settingsOf calls S).nRobust 0 [] r at a2
      rw [hp.nominal] at a2
      obtain rfl := mayOccur_zero.mp a2
      have hext : extend (lastOf settingsOf calls S).nRobust 0 [] 0 = [] := by rw [hp.nominal]; exact extend_zero _ _ _
      change asState y = π.X 1 (extend (lastOf settingsOf calls S).nRobust 0 [] 0) at a5
      rw [hext] at a5
      obtain ⟨π', d1, d2⟩ := next_cheaper m E S calls ob hp hS hC _ _ _ (π.U 0 []) π a1.1
      refine ⟨_, y, a4, _, ?_, π', by rw [a5]; exact d1, le_rfl⟩
      have hmin := a1.2 π0 b1
      have hN : 0 < (lastOf settingsOf calls S).N := by have := hp.plain.horizon; omega
      obtain ⟨g1, g2⟩ := a1.1.dynamics
      obtain ⟨g3, -⟩ := g2 0 hN [] ⟨by simp, by simp⟩ 0 (by
        show MayOccur (lastOf settingsOf calls S).c (lastOf settingsOf calls S).nRobust 0 [] 0
        rw [hp.nominal]; exact mayOccur_zero.mpr rfl)
      change m.alg (π.X 0 []) (π.U 0 []) (π.Z 0 (extend (lastOf settingsOf calls S).nRobust 0 [] 0)) (E.tvpFun _ 0) (E.pFun _ 0) 0 = 0 at g3
      have hx : π.X 0 [] = lastOf plantState h x0 := g1
      rw [hext, hx] at g3
      have hz := hζ _ _ _ _ _ g3
      unfold stageCost
      rw [hP.tvp, a3, hz, a5]
      exact le_trans d2 (le_trans hmin b2))
    es2 _ _ _ hi1 rfl he2 _ ⟨π, hπ, le_rfl⟩
  obtain ⟨v', e1, π', e2, e3⟩ := key
  have hh : l0.history T mk E es1 ++ (l0.run T mk E es1).history T mk E es2 = l0.history T mk E (es1 ++ es2) := (loop_history_append T mk E es1 es2 l0).symm
  rw [hh] at e2 e3
  exact ⟨π', e2, by
    have : costs.sum + v' ≤ (problem h1).cost π := e1
    have e3' : (problem (l0.history T mk E (es1 ++ es2))).cost π' ≤ v' := e3
    linarith⟩

end DoMpc

namespace DoMpc
open Spec
variable {K : Type} [Field K] [LinearOrder K] [IsStrictOrderedRing K] {d : Dims}

/-- A nominal plan with non-negative stage and terminal costs does not have a negative cost. -/
theorem plan_cost_nonneg (P : MultiStage K d) (hR : P.nR = 0) (π : Policy K d) (hl : ∀ x u z tv p, 0 ≤ P.stage x u z tv p) (hm : ∀ x tv p, 0 ≤ P.terminal x tv p)
    (hch : ∀ x u v z tv p, P.change x u v z tv p = 0) (hpen : ∀ call ∈ P.cons, call.soft = true → 0 ≤ call.penalty)
    (hsl : ∀ k < P.N, ∀ call ∈ P.cons, call.soft = true → ∀ i < call.dim, 0 ≤ π.E k [] call.name i) : 0 ≤ P.cost π := by
  rw [cost_nominal _ hR]
  refine add_nonneg (add_nonneg (add_nonneg ?_ (hm _ _ _)) ?_) ?_
  · apply sum_nonneg_of
    intro v hv
    obtain ⟨k, -, rfl⟩ := List.mem_map.mp hv
    exact hl _ _ _ _ _
  · apply sum_nonneg_of
    intro v hv
    obtain ⟨k, hk, rfl⟩ := List.mem_map.mp hv
    exact slackCost_nonneg_of _ _ hpen (hsl k (List.mem_range.mp hk))
  · apply le_of_eq
    symm
    apply sum_zero_of
    intro v hv
    obtain ⟨k, -, rfl⟩ := List.mem_map.mp hv
    exact hch _ _ _ _ _ _

theorem change_zero {S : MpcSettings} {calls : List (MpcOp K d)} (hp : CostCalls S calls) (x u v z tv p) : changeWanted calls x u v z tv p = 0 := by
  unfold changeWanted
  rw [hp.change]
  apply sum_zero_of
  intro y hy
  obtain ⟨j, rfl⟩ := List.mem_ofFn.mp hy
  exact zero_mul _

theorem configured_cost_nonneg {S : MpcSettings} {calls : List (MpcOp K d)} (hp : CostCalls S calls) (ob : Objective K d) (m : DaeModel K d) (q : OptP K d) (π : Policy K d)
    (hl : ∀ x u z tv p, 0 ≤ ob.lterm x u z tv p) (hm : ∀ x tv p, 0 ≤ ob.mterm x tv p)
    (hsl : ∀ k < (lastOf settingsOf calls S).N, ∀ call ∈ calls.filterMap nlConsOf, call.soft = true → ∀ i < call.dim, 0 ≤ π.E k [] call.name i) :
    0 ≤ (configured S calls ob m q).cost π :=
  plan_cost_nonneg _ hp.nominal π hl hm (change_zero hp) hp.penalty hsl

theorem turnCosts_nonneg {n : Nat} (c : K → Vec K d.nx → Vec K d.nu → K) (dt : K) (hc : ∀ t x u, 0 ≤ c t x u) (h : List (LoopRow K d n)) :
    ∀ x k, ∀ v ∈ turnCosts c dt x k h, 0 ≤ v := by
  induction h with
  | nil => intro x k v hv; simp [turnCosts] at hv
  | cons e h ih =>
    intro x k v hv
    obtain ⟨ev, r⟩ := e
    cases ev with
    | turn Sv =>
      match r with
      | some (.ok (u, y)) =>
        simp only [turnCosts, List.mem_cons] at hv
        rcases hv with rfl | hv
        · exact hc _ _ _
        · exact ih _ _ v hv
      | some (.error _) => exact ih _ _ v hv
      | none => exact ih _ _ v hv
    | restart x => exact ih _ _ v hv
    | ctrl e => exact ih _ _ v hv
    | sim op => exact ih _ _ v hv

/-- few of the terms of a small sum are large -/
theorem count_large (η : K) : ∀ L : List K, (∀ v ∈ L, 0 ≤ v) → η * (L.countP (η ≤ ·) : ℕ) ≤ L.sum := by
  intro L
  induction L with
  | nil => simp
  | cons v L ih =>
    intro h
    have h1 := ih (fun w hw => h w (by simp [hw]))
    have h2 := h v (by simp)
    rw [List.countP_cons, List.sum_cons]
    by_cases hv : η ≤ v
    · simp only [hv, decide_true, if_true]
      push_cast
      linarith
    · simp only [hv, decide_false]
      push_cast
      simp
      linarith

/-- **C113** (the form used in practice): if stage and terminal costs are not negative, the total cost of all later turns of the episode is at most the cost of any
admissible plan at the beginning, and at most (cost of the plan)/η of these turns cost `η` or more. -/
theorem C113_bound (S : MpcSettings) (m : DaeModel K d) (E : MpcEnv K d) (hst : ∀ s ∈ E.storeStats, s ∈ validStats) (ops : List (MpcOp K d))
    (hc : ∀ op ∈ ops, Configures op) (T : SimTools K d) (hT : DiscretePlant m T) (sops : List (SimOp K d)) (hsc : ∀ op ∈ sops, SimConfigures op)
    (hP : PredictsPlant sops E.tStep (lastOf settingsOf ops S).c (lastOf settingsOf ops S).nRobust E.tvpFun E.pFun)
    (hC : ConsistentTime E.tStep (lastOf settingsOf ops S).N (lastOf settingsOf ops S).c (lastOf settingsOf ops S).nRobust E.tvpFun E.pFun)
    (ζ : Vec K d.nx → Vec K d.nu → Vec K d.ntv → Vec K d.np → Vec K d.nz) (hζ : ∀ x u z tv p, m.alg x u z tv p 0 = 0 → ζ x u tv p = z)
    (nEps : Nat) (x0 : Vec K d.nx) (u0 : Vec K d.nu) (z0 : Vec K d.nz) (es1 es2 : List (LoopEv K d E.nLagr)) (he1 : ∀ e ∈ es1, FairEv e) :
    let mk := fun sx su sz => discreteIfcn m sx su sz 1
    let o1 := (MpcObj.new S : MpcObj K d).run mk ops
    let s1 := (SimObj.new : SimObj K d).run T sops
    let l0 := LiveLoop.start T E (o1.exec mk .setup).1 (s1.exec T .setup).1 nEps x0 u0 z0
    let calls := ops ++ boundsSet es1
    let o := (l0.run T mk E es1).ctrl.obj
    (o1.exec mk .setup).2 = none → (s1.exec T .setup).2 = none → CostCalls S calls →
      ∃ ob, lastOf (fun op => (objectiveOf op).map some) ops none = some ob ∧
        (LyapunovTerminal S calls ob m E.tStep E.tvpFun E.pFun → (∀ x u z tv p, 0 ≤ ob.lterm x u z tv p) → (∀ x tv p, 0 ≤ ob.mterm x tv p) →
        (∀ e ∈ es2, OptimalEv o E.storeStats e) →
        let h1 := l0.history T mk E es1
        let t := (turns h1 : K) * E.tStep
        let problem := configured S calls ob m ⟨lastOf plantState h1 x0, E.tvpFun t, E.pFun t, lastOf inputGiven h1 u0⟩
        let costs := turnCosts (stageCost ob.lterm ζ (lastOf simTvpOf sops fun _ => 0) (lastOf simParamOf sops fun _ => 0)) E.tStep (lastOf plantState h1 x0) (turns h1)
          ((l0.run T mk E es1).history T mk E es2)
        ∀ π, problem.Admissible π → costs.sum ≤ problem.cost π ∧ ∀ η, η * (costs.countP (η ≤ ·) : ℕ) ≤ problem.cost π) := by
  intro mk o1 s1 l0 calls o hs hss hp
  obtain ⟨ob, hob, h⟩ := C113_cost S m E hst ops hc T hT sops hsc hP hC ζ hζ nEps x0 u0 z0 es1 es2 he1 hs hss hp
  refine ⟨ob, hob, ?_⟩
  intro hS hl hm he2 h1 t problem costs π hπ
  obtain ⟨π', e1, e2⟩ := h hS he2 π hπ
  have hpos := fun q => configured_cost_nonneg hp ob m q π' hl hm (fun k hk call hcall hs i hi => (e1.slacks k hk [] (by
    show IsHistory (lastOf settingsOf calls S).c (lastOf settingsOf calls S).nRobust k []
    rw [hp.nominal]; exact isHistory_zero.mpr rfl) call hcall hs i hi).1)
  have hsum : costs.sum ≤ problem.cost π := le_trans (le_add_of_nonneg_right (hpos _)) e2
  exact ⟨hsum, fun η => le_trans (count_large η costs (turnCosts_nonneg _ _ (fun _ _ _ => hl _ _ _ _ _) _ _ _)) hsum⟩

theorem CostCalls.safeTerminal {S : MpcSettings} {calls : List (MpcOp K d)} (hp : CostCalls S calls) {ob : Objective K d} {m : DaeModel K d} {dt : K}
    {tvp : K → Nat → Vec K d.ntv} {p : K → Nat → Vec K d.np} (h : LyapunovTerminal S calls ob m dt tvp p) : SafeTerminal S calls m tvp p where
  inside := h.inside
  noSlack := h.noSlack
  invariant := fun t x hx => by
    obtain ⟨u, z, k1, k2, k3, k4, k5, -⟩ := h.decrease t x hx
    refine ⟨u, k1, fun r hr => ?_⟩
    rw [hp.nominal] at hr
    obtain rfl := mayOccur_zero.mp hr
    exact ⟨z, k2, k3, k4, k5⟩

theorem history_noRestart (T : SimTools K d) (mk : Vec K d.nx → Vec K d.nu → Vec K d.nz → Ifcn K d) (E : MpcEnv K d) (es : List (LoopEv K d E.nLagr)) :
    ∀ l : LiveLoop K d, (∀ e ∈ es, ∀ x, e ≠ .restart x) → ∀ e ∈ l.history T mk E es, ∀ x, e.1 ≠ .restart x := by
  induction es with
  | nil => intro l _ e he; simp [LiveLoop.history] at he
  | cons e es ih =>
    intro l h e' he'
    simp only [LiveLoop.history, List.mem_cons] at he'
    rcases he' with rfl | he'
    · exact h e (by simp)
    · exact ih _ (fun a ha => h a (by simp [ha])) e' he'

/-- **C113** (the episode settles): an endless sequence of events after `es1`, the hypotheses of `C113_bound`, and a region `B` outside of which the stage cost is at least
`η > 0`.  From some event on every turn begins inside `B`. -/
theorem C113_settles [Archimedean K] (S : MpcSettings) (m : DaeModel K d) (E : MpcEnv K d) (hst : ∀ s ∈ E.storeStats, s ∈ validStats) (ops : List (MpcOp K d))
    (hc : ∀ op ∈ ops, Configures op) (T : SimTools K d) (hT : DiscretePlant m T) (sops : List (SimOp K d)) (hsc : ∀ op ∈ sops, SimConfigures op)
    (hP : PredictsPlant sops E.tStep (lastOf settingsOf ops S).c (lastOf settingsOf ops S).nRobust E.tvpFun E.pFun)
    (hC : ConsistentTime E.tStep (lastOf settingsOf ops S).N (lastOf settingsOf ops S).c (lastOf settingsOf ops S).nRobust E.tvpFun E.pFun)
    (nEps : Nat) (x0 : Vec K d.nx) (u0 : Vec K d.nu) (z0 : Vec K d.nz) (es1 : List (LoopEv K d E.nLagr)) (ev : Nat → LoopEv K d E.nLagr) (he1 : ∀ e ∈ es1, FairEv e) :
    let mk := fun sx su sz => discreteIfcn m sx su sz 1
    let o1 := (MpcObj.new S : MpcObj K d).run mk ops
    let s1 := (SimObj.new : SimObj K d).run T sops
    let l0 := LiveLoop.start T E (o1.exec mk .setup).1 (s1.exec T .setup).1 nEps x0 u0 z0
    let calls := ops ++ boundsSet es1
    let o := (l0.run T mk E es1).ctrl.obj
    (o1.exec mk .setup).2 = none → (s1.exec T .setup).2 = none → CostCalls S calls →
      ∃ ob, lastOf (fun op => (objectiveOf op).map some) ops none = some ob ∧
        (LyapunovTerminal S calls ob m E.tStep E.tvpFun E.pFun → (∀ x u z tv p, 0 ≤ ob.lterm x u z tv p) → (∀ x tv p, 0 ≤ ob.mterm x tv p) →
        (∀ i, OptimalEv o E.storeStats (ev i)) →
        let state : Nat → Vec K d.nx := fun i => lastOf plantState (l0.history T mk E (es1 ++ (List.range i).map ev)) x0
        let t := (turns (l0.history T mk E es1) : K) * E.tStep
        (∃ π, (configured S calls ob m ⟨state 0, E.tvpFun t, E.pFun t, lastOf inputGiven (l0.history T mk E es1) u0⟩).Admissible π) →
        ∀ (B : Vec K d.nx → Prop) (η : K), 0 < η → (∀ x, ¬ B x → ∀ u z tv p, η ≤ ob.lterm x u z tv p) → ∃ i0, ∀ i ≥ i0, ∀ Sv, ev i = .turn Sv → B (state i)) := by
  intro mk o1 s1 l0 calls o hs hss hp
  classical
  let ζ : Vec K d.nx → Vec K d.nu → Vec K d.ntv → Vec K d.np → Vec K d.nz := fun x u tv p => if h : ∃ z, m.alg x u z tv p 0 = 0 then h.choose else 0
  have hζ : ∀ x u z tv p, m.alg x u z tv p 0 = 0 → ζ x u tv p = z := by
    intro x u z tv p hz
    have hex : ∃ z, m.alg x u z tv p 0 = 0 := ⟨z, hz⟩
    have : ζ x u tv p = hex.choose := dif_pos hex
    rw [this]
    exact hT.unique _ _ _ _ _ _ hex.choose_spec hz
  have hb := fun es2 => C113_bound S m E hst ops hc T hT sops hsc hP hC ζ hζ nEps x0 u0 z0 es1 es2 he1 hs hss hp
  obtain ⟨ob, hob, -⟩ := hb []
  refine ⟨ob, hob, ?_⟩
  intro hS hl hm hev state t ⟨π, hπ⟩ B η hη hB
  have hmem : ∀ i, ∀ e ∈ (List.range i).map ev, OptimalEv o E.storeStats e := by
    intro i e he
    obtain ⟨j, -, rfl⟩ := List.mem_map.mp he
    exact hev j
  set h1 := l0.history T mk E es1 with hh1
  set c := stageCost ob.lterm ζ (lastOf simTvpOf sops fun _ => 0) (lastOf simParamOf sops fun _ => 0) with hcdef
  let hist : Nat → List (LoopRow K d E.nLagr) := fun i => (l0.run T mk E es1).history T mk E ((List.range i).map ev)
  let row : Nat → LoopRow K d E.nLagr := fun i => (ev i, ((l0.run T mk E (es1 ++ (List.range i).map ev)).exec T mk E (ev i)).2)
  have hsucc : ∀ i, hist (i + 1) = hist i ++ [row i] := by
    intro i
    simp only [hist, row]
    rw [List.range_succ, List.map_append, loop_history_append, loop_run_append]
    rfl
  have hnr : ∀ i, ∀ e ∈ hist i, ∀ x, e.1 ≠ .restart x := by
    intro i
    refine history_noRestart T mk E _ _ ?_
    intro e he x hx
    have := hmem i e he
    rw [hx] at this
    exact this.elim
  let cost : Nat → K := fun i => (turnCosts c E.tStep (lastOf plantState (h1 ++ hist i) x0) (turns (h1 ++ hist i)) [row i]).sum
  have hsum : ∀ i, (turnCosts c E.tStep (lastOf plantState h1 x0) (turns h1) (hist i)).sum = ((List.range i).map cost).sum := by
    intro i
    induction i with
    | zero => simp [hist, LiveLoop.history, turnCosts]
    | succ i ih =>
      rw [hsucc, turnCosts_append c E.tStep x0 [row i] (hist i) h1 (hnr i), List.sum_append, ih, List.range_succ, List.map_append, List.sum_append]
      simp [cost]
  have hpos : ∀ t x u, 0 ≤ c t x u := fun _ _ _ => hl _ _ _ _ _
  have hcpos : ∀ i, 0 ≤ cost i := fun i => sum_nonneg_of fun v hv => turnCosts_nonneg c E.tStep hpos _ _ _ v hv
  have hbound : ∀ i, ((List.range i).map cost).sum ≤ (configured S calls ob m ⟨state 0, E.tvpFun t, E.pFun t, lastOf inputGiven h1 u0⟩).cost π := by
    intro i
    rw [← hsum]
    obtain ⟨ob', hob', h⟩ := hb ((List.range i).map ev)
    obtain rfl : ob' = ob := by rw [hob] at hob'; exact (Option.some.inj hob').symm
    have hst0 : state 0 = lastOf plantState h1 x0 := by simp [state, hh1]
    rw [hst0] at hπ ⊢
    exact (h hS hl hm (hmem i) π hπ).1
  obtain ⟨i0, hi0⟩ := eventually_small cost _ η hcpos hη hbound
  refine ⟨i0, fun i hi Sv hSv => ?_⟩
  by_contra hno
  have hsmall := hi0 i hi
  obtain ⟨ob', hob', h⟩ := C112_for_ever S m E hst ops hc T hT sops hsc hP hC
    (.inl (by
      have := hp.nominal
      have hset : lastOf settingsOf (ops ++ boundsSet es1) S = lastOf settingsOf ops S := by
        obtain ⟨ob2, -, hi2⟩ := loop_start T mk E S ops hc hs sops hsc hss hP.step nEps x0 u0 z0
        have hi1 := loop_run T mk E S ops ob2 nEps sops x0 u0 (hT.model ▸ hT.measured) es1 [] [] l0 hi2 he1
        obtain ⟨es', -, -, hb⟩ := hi1.ctrl
        rw [List.nil_append] at hb
        rw [← hb]; exact settings_bounds S ops es'
      rw [← hset]; exact this)) nEps x0 u0 z0 es1 ((List.range i).map ev) he1 hs hss (PlainCalls.constraintCalls hp.plain) (CostCalls.safeTerminal hp hS)
      (fun e he => optimal_safe _ _ _ (hmem i e he))
  obtain rfl : ob' = ob := by rw [hob] at hob'; exact (Option.some.inj hob').symm
  have hst0 : state 0 = lastOf plantState h1 x0 := by simp [state, hh1]
  rw [hst0] at hπ
  have hopt := hev i
  rw [hSv] at hopt
  obtain ⟨u, y, k1, -⟩ := (h ⟨π, hπ⟩).2 Sv (optimal_point _ _ hopt.1) hopt.2
  have hrow : row i = (.turn Sv, some (.ok (u, y))) := by
    simp only [row]
    rw [hSv]
    exact congrArg (fun r => (LoopEv.turn Sv, some r)) k1
  have hcost : cost i = c ((turns (h1 ++ hist i) : K) * E.tStep) (lastOf plantState (h1 ++ hist i) x0) u := by
    simp only [cost]
    rw [hrow]
    simp [turnCosts]
  have hstate : lastOf plantState (h1 ++ hist i) x0 = state i := by
    simp only [state, hist]
    rw [loop_history_append]
  rw [hcost, hstate] at hsmall
  exact absurd (hB _ hno u _ _ _) (not_le.mpr hsmall)

end DoMpc

/-! ## Non-vacuity -/
namespace DoMpc
open Spec
namespace LifecycleExample

/-- as `beforeS`, without a penalty on input changes -/
def beforeC : List (MpcOp ℚ dm) := beforeS ++ [.setRterm (.factor fun _ => 0)]
/-- a turn, a bound set, a restart of the simulator at 1, a turn -/
def esC : List (LoopEv ℚ dm E.nLagr) := [.turn Sv, .ctrl (.config (.bound .upper (.x x0) (.fin 3))), .restart 1, .turn Sv]
def loopC : LiveLoop ℚ dm := LiveLoop.start T E (((MpcObj.new S).run mkD beforeC).exec mkD .setup).1 (((SimObj.new).run T sops).exec T .setup).1 0 1 0 0
def oC : MpcObj ℚ dm := (loopC.run T mkD E esC).ctrl.obj

theorem terminalC (s : Side) (j : Fin dm.nx) : terminalWanted (beforeC ++ boundsSet esC) (lastOf settingsOf (beforeC ++ boundsSet esC) S) s j =
    match s with | .lower => .ninf | .upper => .fin 1 := by
  have hj : j = x0 := Subsingleton.elim (α := Fin 1) _ _
  subst hj
  unfold terminalWanted
  cases s with
  | lower => split_ifs <;> decide +kernel
  | upper =>
    rw [if_neg]
    · decide +kernel
    · rintro ⟨h, -⟩
      have := h x0
      revert this
      decide +kernel

theorem inTerminalC (x : Vec ℚ dm.nx) : InTerminalBounds S (beforeC ++ boundsSet esC) x ↔ x x0 ≤ 1 := by
  unfold InTerminalBounds
  constructor
  · intro h
    have := (h x0).2
    rw [terminalC] at this
    exact this
  · intro h j
    have hj : j = x0 := Subsingleton.elim (α := Fin 1) _ _
    subst hj
    rw [terminalC, terminalC]
    exact ⟨trivial, h⟩

theorem stateBoundsC (x : Vec ℚ dm.nx) : InStateBounds (beforeC ++ boundsSet esC) x ↔ x x0 ≤ 3 := by
  have h1 : lastOf (boundOf .lower (.x x0)) (beforeC ++ boundsSet esC) .ninf = (.ninf : Bound ℚ) := by decide +kernel
  have h2 : lastOf (boundOf .upper (.x x0)) (beforeC ++ boundsSet esC) .pinf = (.fin 3 : Bound ℚ) := by decide +kernel
  unfold InStateBounds
  constructor
  · intro h
    have := (h x0).2
    rw [h2] at this
    exact this
  · intro h j
    have hj : j = x0 := Subsingleton.elim (α := Fin 1) _ _
    subst hj
    rw [h1, h2]
    exact ⟨trivial, h⟩

theorem inputBoundsC (u : Vec ℚ dm.nu) : InInputBounds (beforeC ++ boundsSet esC) u := by
  intro j
  have hj : j = u0 := Subsingleton.elim (α := Fin 1) _ _
  subst hj
  have h1 : lastOf (boundOf .lower (.u u0)) (beforeC ++ boundsSet esC) .ninf = (.ninf : Bound ℚ) := by decide +kernel
  have h2 : lastOf (boundOf .upper (.u u0)) (beforeC ++ boundsSet esC) .pinf = (.pinf : Bound ℚ) := by decide +kernel
  rw [h1, h2]
  exact ⟨trivial, trivial⟩

theorem consC : (beforeC ++ boundsSet esC).filterMap nlConsOf = [hard] := rfl

theorem admissibleC (ob' : Objective ℚ dm) (q : OptP ℚ dm) (hq : q.x0 x0 ≤ 1) : ∃ π, (configured S (beforeC ++ boundsSet esC) ob' model q).Admissible π := by
  refine ⟨⟨fun _ _ => q.x0, fun _ _ => 0, fun _ _ i => i.elim0, fun _ _ _ _ => 0⟩, ⟨rfl, ?_⟩, ?_, ?_, ?_, ?_, ?_, ?_, ?_⟩
  · intro k _ h _ r _
    refine ⟨funext fun i => i.elim0, ?_⟩
    funext i
    show q.x0 i = q.x0 i + 0
    rw [add_zero]
  · intro k _ _ h _
    exact (stateBoundsC q.x0).2 (by linarith)
  · intro h _
    exact (inTerminalC q.x0).2 hq
  · intro k _ h _
    exact inputBoundsC 0
  · intro k _ h _ j
    exact j.elim0
  · intro k _ h _ r _ call hcall i hi
    change call ∈ (beforeC ++ boundsSet esC).filterMap nlConsOf at hcall
    rw [consC, List.mem_singleton] at hcall
    subst hcall
    exact hq
  · intro k _ h _ call hcall hs
    change call ∈ (beforeC ++ boundsSet esC).filterMap nlConsOf at hcall
    rw [consC, List.mem_singleton] at hcall
    subst hcall
    cases hs
  · intro _ k _ h h' _ _
    rfl


theorem plainC : PlainCalls S (beforeC ++ boundsSet esC) where
  cpos := by decide
  horizon := by decide
  slack := rfl
  noColl := rfl
  noAlg := .inl rfl
  scaling := plainBefore.scaling
  names := by decide
  rterm := by
    intro f hf
    have : lastOf rtermOf (beforeC ++ boundsSet esC) (.factor fun _ => 0) = (.factor fun _ => 0 : RTerm ℚ dm) := rfl
    rw [this] at hf
    cases hf

theorem costC : CostCalls S (beforeC ++ boundsSet esC) where
  plain := plainC
  nominal := rfl
  change := rfl
  penalty := fun call hcall hs => by
    rw [consC, List.mem_singleton] at hcall
    subst hcall
    cases hs

theorem lyapunovC : LyapunovTerminal S (beforeC ++ boundsSet esC) ob model E.tStep E.tvpFun E.pFun where
  inside := fun x h => by
    rw [inTerminalC] at h
    rw [stateBoundsC]
    linarith
  noSlack := fun call hcall hs => by
    rw [consC, List.mem_singleton] at hcall
    subst hcall
    cases hs
  decrease := fun t x h => by
    refine ⟨fun _ => -x x0, fun i => i.elim0, inputBoundsC _, funext fun i => i.elim0, fun j => j.elim0, ?_, ?_, ?_⟩
    · intro call hcall i hi
      rw [consC, List.mem_singleton] at hcall
      subst hcall
      exact (inTerminalC x).1 h
    · rw [inTerminalC]
      show x x0 + -x x0 ≤ 1
      linarith
    · show x x0 * x x0 + (x x0 + -x x0) * (x x0 + -x x0) ≤ x x0 * x x0
      simp

/-- to the origin in one step -/
def deadbeat (q : OptP ℚ dm) : Policy ℚ dm :=
  ⟨fun k _ => if k = 0 then q.x0 else 0, fun k _ => if k = 0 then fun _ => -q.x0 x0 else 0, fun _ _ i => i.elim0, fun _ _ _ _ => 0⟩

theorem policy_costC (q : OptP ℚ dm) (π : Policy ℚ dm) (hπ : (configured S (beforeC ++ boundsSet esC) ob model q).Admissible π) :
    (configured S (beforeC ++ boundsSet esC) ob model q).cost π = q.x0 x0 * q.x0 x0 + π.X 1 [] x0 * π.X 1 [] x0 + π.X 2 [] x0 * π.X 2 [] x0 := by
  set P := configured S (beforeC ++ boundsSet esC) ob model q with hPdef
  have hN : P.N = 2 := rfl
  have hx : π.X 0 [] = q.x0 := hπ.dynamics.1
  rw [cost_nominal P rfl]
  have hch : ∀ x u v z tv p, P.change x u v z tv p = 0 := change_zero costC
  have hsl : ∀ e, slackCost P.cons e = 0 := by
    intro e
    unfold slackCost
    apply sum_zero_of
    intro y hy
    obtain ⟨call, hcall, rfl⟩ := List.mem_map.mp hy
    change call ∈ (beforeC ++ boundsSet esC).filterMap nlConsOf at hcall
    rw [consC, List.mem_singleton] at hcall
    subst hcall
    rfl
  have hst : ∀ x u z tv p, P.stage x u z tv p = x x0 * x x0 := fun _ _ _ _ _ => rfl
  have htm : ∀ x tv p, P.terminal x tv p = x x0 * x x0 := fun _ _ _ => rfl
  simp only [hch, hsl, hst, htm, hN]
  simp [List.range_succ, hx]

theorem deadbeat_optimal (q : OptP ℚ dm) (h : ∃ π, (configured S (beforeC ++ boundsSet esC) ob model q).Admissible π) :
    (configured S (beforeC ++ boundsSet esC) ob model q).Optimal (deadbeat q) := by
  set P := configured S (beforeC ++ boundsSet esC) ob model q with hPdef
  have hN : P.N = 2 := rfl
  have hcost := policy_costC q
  obtain ⟨π0, h0⟩ := h
  have hq : q.x0 x0 ≤ 1 := by
    have hx : π0.X 0 [] = q.x0 := h0.dynamics.1
    have := h0.constraints 0 (by rw [hN]; norm_num) [] ⟨by simp, by simp⟩ 0 (mayOccur_zero.mpr rfl) hard (by
      show hard ∈ (beforeC ++ boundsSet esC).filterMap nlConsOf
      rw [consC]; simp) 0 (by decide)
    change π0.X 0 [] x0 ≤ 1 at this
    rwa [hx] at this
  have hz1 : (1 : ℚ) ≥ (0 : ℚ) := by norm_num
  have hX : ∀ k, (deadbeat q).X k [] x0 ≤ 1 := by
    intro k
    show (if k = 0 then q.x0 else 0) x0 ≤ 1
    split_ifs
    · exact hq
    · exact hz1
  have hnil : ∀ k h, IsHistory P.c P.nR k h → h = [] := fun k h hh => isHistory_zero.mp hh
  have hadm : P.Admissible (deadbeat q) := by
    refine ⟨⟨rfl, ?_⟩, ?_, ?_, ?_, ?_, ?_, ?_, ?_⟩
    · intro k _ h hh r _
      refine ⟨funext fun i => i.elim0, ?_⟩
      funext i
      obtain rfl : i = x0 := Subsingleton.elim (α := Fin 1) _ _
      show (if k + 1 = 0 then q.x0 else 0) x0 = (if k = 0 then q.x0 else 0) x0 + (if k = 0 then fun _ => -q.x0 x0 else 0 : Vec ℚ dm.nu) u0
      rw [if_neg (by omega)]
      split_ifs
      · show (0 : ℚ) = q.x0 x0 + -q.x0 x0
        ring
      · show (0 : ℚ) = 0 + 0
        ring
    · intro k _ _ h hh
      exact (stateBoundsC _).2 (by have := hX k; rw [hnil k h hh]; linarith)
    · intro h hh
      exact (inTerminalC _).2 (by rw [hnil _ h hh]; exact hX _)
    · intro k _ h _
      exact inputBoundsC _
    · intro k _ h _ j
      exact j.elim0
    · intro k _ h hh r _ call hcall i hi
      change call ∈ (beforeC ++ boundsSet esC).filterMap nlConsOf at hcall
      rw [consC, List.mem_singleton] at hcall
      subst hcall
      rw [hnil k h hh]
      exact hX k
    · intro k _ h _ call hcall hs
      change call ∈ (beforeC ++ boundsSet esC).filterMap nlConsOf at hcall
      rw [consC, List.mem_singleton] at hcall
      subst hcall
      cases hs
    · intro _ k _ h h' _ _
      rfl
  refine ⟨hadm, fun π' hπ' => ?_⟩
  rw [hcost _ hadm, hcost _ hπ']
  have e1 : (deadbeat q).X 1 [] x0 = 0 := rfl
  have e2 : (deadbeat q).X 2 [] x0 = 0 := rfl
  rw [e1, e2]
  have := mul_self_nonneg (π'.X 1 [] x0)
  have := mul_self_nonneg (π'.X 2 [] x0)
  linarith

open Classical in
/-- a solver that finds a global minimiser if there is one -/
noncomputable def SvMin : Solver ℚ dm E.nLagr := fun _ a => ⟨if h : ∃ w, SolverMinimises oC w a.p then h.choose else wZero, fun i => i.elim0, [], []⟩

theorem SvMin_numbers : ReportsNumbers E.storeStats SvMin := fun _ _ s hs => by simp [SvMin] at hs

theorem afterC : After mkD S (beforeC ++ boundsSet esC) ob oC := by
  have hes : ∀ e ∈ esC, FairEv e := by
    intro e he
    simp only [esC, List.mem_cons, List.not_mem_nil, or_false] at he
    rcases he with rfl | rfl | rfl | rfl <;> trivial
  obtain ⟨ob', h1, h2⟩ := loop_start T mkD E S beforeC (by simp [beforeC, beforeS, before, Configures]) (by decide +kernel) sops (by simp [sops, SimConfigures])
    (by decide +kernel) rfl 0 1 0 0
  have h3 := loop_run T mkD E S beforeC ob' 0 sops 1 0 (plantT.model ▸ plantT.measured) esC [] [] _ h2 hes
  obtain ⟨es', h', hcI, hb⟩ := h3.ctrl
  have := hcI.after
  rw [hb, List.nil_append] at this
  obtain rfl : ob' = ob := by
    have : lastOf (fun op => (objectiveOf op).map some) beforeC none = some ob := rfl
    rw [this] at h1
    exact (Option.some.inj h1).symm
  exact this

theorem SvMin_finds (q : OptP ℚ dm) : FindsMinimiser oC q SvMin := by
  intro pb _ a ha hw
  have hR := plain_regular S (beforeC ++ boundsSet esC) ob model plainC
  have hpr : (wantedCfg (fun sx su sz => discreteIfcn model sx su sz 1) S (beforeC ++ boundsSet esC) ob).problem model q = configured S (beforeC ++ boundsSet esC) ob model q := wantedCfg_problem _ S _ ob model q
  have hex : ∃ w, SolverMinimises oC w a.p := by
    rw [ha]
    obtain ⟨w, hw⟩ := hw
    have h1 := C12_feasible_is_admissible _ model hR w q ((after_feasible _ S _ ob _ afterC w q).1 hw)
    rw [hpr] at h1
    have h2 := deadbeat_optimal q ⟨_, h1⟩
    rw [← hpr] at h2
    obtain ⟨k1, k2⟩ := C12_admissible_is_feasible _ model hR q _ h2.1
    refine ⟨_, (after_minimises _ S _ ob _ afterC _ q).2 ⟨k1, fun w' hw' => ?_⟩⟩
    change (wantedCfg (fun sx su sz => discreteIfcn model sx su sz 1) S (beforeC ++ boundsSet esC) ob).obj _ q ≤ (wantedCfg (fun sx su sz => discreteIfcn model sx su sz 1) S (beforeC ++ boundsSet esC) ob).obj _ q
    rw [k2, C12_objective_is_policy_cost _ model hR]
    exact h2.2 _ (C12_feasible_is_admissible _ model hR w' q hw')
  have : (SvMin pb a).x = hex.choose := dif_pos hex
  rw [this, ← ha]
  exact hex.choose_spec

/-- Non-vacuity of `C113_cost`, `C113_bound`, `C113_settles`: every hypothesis holds for these histories. -/
example : (turnCosts (stageCost ob.lterm (fun _ _ _ _ i => i.elim0) (fun _ => 0) (fun _ => 0)) 1 (lastOf plantState (loopC.history T mkD E esC) 1)
      (turns (loopC.history T mkD E esC)) ((loopC.run T mkD E esC).history T mkD E [.turn SvMin, .ctrl .guess, .turn SvMin])).sum ≤ 1 ∧
    ∃ i0, ∀ i ≥ i0, lastOf plantState (loopC.history T mkD E (esC ++ (List.range i).map fun _ => .turn SvMin)) 1 x0 *
      lastOf plantState (loopC.history T mkD E (esC ++ (List.range i).map fun _ => .turn SvMin)) 1 x0 < 1 / 100 := by
  have hes : ∀ e ∈ esC, FairEv e := by
    intro e he
    simp only [esC, List.mem_cons, List.not_mem_nil, or_false] at he
    rcases he with rfl | rfl | rfl | rfl <;> trivial
  have hes2 : ∀ e ∈ ([.turn SvMin, .ctrl .guess, .turn SvMin] : List (LoopEv ℚ dm E.nLagr)), OptimalEv oC E.storeStats e := by
    intro e he
    simp only [List.mem_cons, List.not_mem_nil, or_false] at he
    rcases he with rfl | rfl | rfl
    · exact ⟨SvMin_finds, SvMin_numbers⟩
    · trivial
    · exact ⟨SvMin_finds, SvMin_numbers⟩
  have hP : PredictsPlant sops E.tStep (lastOf settingsOf beforeC S).c (lastOf settingsOf beforeC S).nRobust E.tvpFun E.pFun :=
    ⟨rfl, fun _ => rfl, fun t => ⟨0, by unfold MayOccur; rw [if_neg (by decide +kernel)]; rfl, rfl⟩⟩
  have hC : ConsistentTime E.tStep (lastOf settingsOf beforeC S).N (lastOf settingsOf beforeC S).c (lastOf settingsOf beforeC S).nRobust E.tvpFun E.pFun :=
    ⟨fun _ _ _ => rfl, fun _ _ _ => rfl⟩
  have hconf : ∀ op ∈ beforeC, Configures op := by simp [beforeC, beforeS, before, Configures]
  have hx : lastOf plantState (loopC.history T mkD E esC) 1 = 1 := by decide +kernel
  have key : ∀ x : Vec ℚ dm.nx, x = 1 → x x0 ≤ 1 := by rintro x rfl; exact le_refl (1 : ℚ)
  have hob : ∀ ob', lastOf (fun op => (objectiveOf op).map some) beforeC none = some ob' → ob' = ob := by
    intro ob' h
    have : lastOf (fun op => (objectiveOf op).map some) beforeC none = some ob := rfl
    rw [this] at h
    exact (Option.some.inj h).symm
  have hl : ∀ x u z tv p, 0 ≤ ob.lterm x u z tv p := fun x _ _ _ _ => mul_self_nonneg (x x0)
  have hm : ∀ x tv p, 0 ≤ ob.mterm x tv p := fun x _ _ => mul_self_nonneg (x x0)
  constructor
  · obtain ⟨ob', hob', h⟩ := C113_bound S model E (by simp [E]) beforeC hconf T plantT sops (by simp [sops, SimConfigures]) hP hC (fun _ _ _ _ i => i.elim0)
      (fun _ _ _ _ _ _ => funext fun i => i.elim0) 0 1 0 0 esC [.turn SvMin, .ctrl .guess, .turn SvMin] hes (by decide +kernel) (by decide +kernel) costC
    obtain rfl := hob ob' hob'
    have hopt := deadbeat_optimal ⟨lastOf plantState (loopC.history T mkD E esC) 1, E.tvpFun ((turns (loopC.history T mkD E esC) : ℚ) * E.tStep), E.pFun ((turns (loopC.history T mkD E esC) : ℚ) * E.tStep), lastOf inputGiven (loopC.history T mkD E esC) 0⟩ (admissibleC ob _ (key _ hx))
    have h0 := (h lyapunovC hl hm hes2 _ hopt.1).1
    refine le_trans h0 ?_
    have hb := policy_costC _ _ hopt.1
    refine le_trans (le_of_eq hb) ?_
    show lastOf plantState (loopC.history T mkD E esC) 1 x0 * lastOf plantState (loopC.history T mkD E esC) 1 x0 + 0 * 0 + 0 * 0 ≤ 1
    rw [hx]
    simp
  · obtain ⟨ob', hob', h⟩ := C113_settles S model E (by simp [E]) beforeC hconf T plantT sops (by simp [sops, SimConfigures]) hP hC 0 1 0 0 esC (fun _ => .turn SvMin) hes
      (by decide +kernel) (by decide +kernel) costC
    obtain rfl := hob ob' hob'
    obtain ⟨i0, hi⟩ := h lyapunovC hl hm (fun _ => ⟨SvMin_finds, SvMin_numbers⟩) (admissibleC ob _ (key _ hx)) (fun x => x x0 * x x0 < 1 / 100) (1 / 100) (by norm_num)
      (fun x hx u z tv p => not_lt.1 hx)
    exact ⟨i0, fun i h => hi i h SvMin rfl⟩

end LifecycleExample
end DoMpc
