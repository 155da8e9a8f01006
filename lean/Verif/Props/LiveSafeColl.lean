import Verif.Props.LiveSafe

/-!
# C112 for continuous-time models
-/
set_option linter.unusedSectionVars false
namespace DoMpc
open Spec Polynomial
variable {K : Type} [Field K] [LinearOrder K] [IsStrictOrderedRing K] {d : Dims}

section
variable (T : SimTools K d) (mk : Vec K d.nx → Vec K d.nu → Vec K d.nz → Ifcn K d)

/-- Something (`Adm`) about the problem of the next turn that does not depend on the input applied last and that every turn keeps is kept by all events. -/
theorem safe_core (E : MpcEnv K d) (S : MpcSettings) (ops : List (MpcOp K d)) (ob : Objective K d) (nEps : Nat) (hm : StateMeasured T.model)
    (sops : List (SimOp K d)) (x0 : Vec K d.nx) (u0 : Vec K d.nu) (bs : List (MpcOp K d)) (Adm : OptP K d → Prop)
    (hlast : ∀ q u, Adm q → Adm { q with uPrev := u })
    (hstep : ∀ es h l, LoopInv T mk E S ops ob nEps sops x0 u0 es h l → boundsSet es = bs → ∀ Sv, ReportsNumbers E.storeStats Sv → FindsPoint l.ctrl.obj Sv →
      Adm ⟨lastOf plantState h x0, E.tvpFun ((turns h : K) * E.tStep), E.pFun ((turns h : K) * E.tStep), lastOf inputGiven h u0⟩ →
      ∃ u y, (l.turn T E Sv).2 = .ok (u, y) ∧
        Adm ⟨asState y, E.tvpFun ((turns h : K) * E.tStep + E.tStep), E.pFun ((turns h : K) * E.tStep + E.tStep), u⟩)
    (o : MpcObj K d) (ho : After mk S (ops ++ bs) ob o) (es2 : List (LoopEv K d E.nLagr)) :
    ∀ es h l, LoopInv T mk E S ops ob nEps sops x0 u0 es h l → boundsSet es = bs → (∀ e ∈ es2, SafeEv o E.storeStats e) →
    Adm ⟨lastOf plantState h x0, E.tvpFun ((turns h : K) * E.tStep), E.pFun ((turns h : K) * E.tStep), lastOf inputGiven h u0⟩ →
    let h' := h ++ l.history T mk E es2
    LoopInv T mk E S ops ob nEps sops x0 u0 (es ++ es2) h' (l.run T mk E es2) ∧ boundsSet (es ++ es2) = bs ∧
    Adm ⟨lastOf plantState h' x0, E.tvpFun ((turns h' : K) * E.tStep), E.pFun ((turns h' : K) * E.tStep), lastOf inputGiven h' u0⟩ := by
  induction es2 with
  | nil => intro es h l hi hb _ hπ; simpa [LiveLoop.history, LiveLoop.run] using ⟨hi, hb, hπ⟩
  | cons e es2 ih =>
    intro es h l hi hb he hπ
    have hee := he e (by simp)
    obtain ⟨f1, f2⟩ := safe_fair o E.storeStats e hee
    have hi' := loop_exec T mk E S ops ob nEps sops x0 u0 es h l hi hm e f1
    have hb' : boundsSet (es ++ [e]) = bs := by rw [boundsSet_snoc, f2, List.append_nil, hb]
    have other : ∀ r, (∀ x, e ≠ .restart x) → plantState (e, r) = none → turned (e, r) = false →
        Adm ⟨lastOf plantState (h ++ [(e, r)]) x0, E.tvpFun ((turns (h ++ [(e, r)]) : K) * E.tStep), E.pFun ((turns (h ++ [(e, r)]) : K) * E.tStep),
          lastOf inputGiven (h ++ [(e, r)]) u0⟩ := by
      intro r h1 h2 h3
      rw [lastOf_snoc_none _ _ _ _ h2, turns_other h (e, r) h1 h3]
      exact hlast _ _ hπ
    have hadm : Adm ⟨lastOf plantState (h ++ [(e, (l.exec T mk E e).2)]) x0, E.tvpFun ((turns (h ++ [(e, (l.exec T mk E e).2)]) : K) * E.tStep),
        E.pFun ((turns (h ++ [(e, (l.exec T mk E e).2)]) : K) * E.tStep), lastOf inputGiven (h ++ [(e, (l.exec T mk E e).2)]) u0⟩ := by
      cases e with
      | restart x => exact hee.elim
      | ctrl e => exact other _ (by simp) rfl rfl
      | sim op => exact other _ (by simp) rfl rfl
      | turn Sv =>
        obtain ⟨es', h'', hcI, hbb⟩ := hi.ctrl
        have haft := hcI.after
        rw [hbb, hb] at haft
        have hpb := after_problem _ S _ ob _ _ haft ho
        have hf : FindsPoint l.ctrl.obj Sv := by
          intro pb hpb' a ⟨w, hw⟩
          rw [after_feasible _ S _ ob _ haft] at hw ⊢
          have := hee.1 pb (hpb ▸ hpb') a ⟨w, (after_feasible _ S _ ob _ ho _ _).2 hw⟩
          rwa [after_feasible _ S _ ob _ ho] at this
        obtain ⟨u, y, a1, a2⟩ := hstep es h l hi hb Sv hee.2 hf hπ
        have hex : (l.exec T mk E (.turn Sv)).2 = some (.ok (u, y)) := congrArg some a1
        rw [hex]
        have hx : lastOf plantState (h ++ [(.turn Sv, some (.ok (u, y)))]) x0 = asState y := by rw [lastOf_snoc]; rfl
        have ht := turns_turn h (.turn Sv, some (.ok (u, y))) (by simp) rfl
        rw [hx, ht]
        have e1 : (((turns h + 1 : ℕ) : K)) * E.tStep = (turns h : K) * E.tStep + E.tStep := by push_cast; ring
        rw [e1]
        exact hlast _ _ a2
    have := ih _ _ _ hi' hb' (fun e' h' => he e' (by simp [h'])) hadm
    simpa [LiveLoop.history, LiveLoop.run] using this

variable (s : Scheme K) (m : DaeModel K d)

theorem calls_onScheme (htau : s.tau 0 = 0) (hinj : ∀ i ≤ s.deg, ∀ j ≤ s.deg, s.tau i = s.tau j → i = j)
    (hmk : ∀ sx su sz, setupCollocation m sx su sz 1 s.deg s.ni s.tau s.tStep = .ok (mk sx su sz))
    (S : MpcSettings) (calls : List (MpcOp K d)) (ob : Objective K d) (h : ConstraintCalls S calls) :
    (wantedCfg mk S calls ob).CollConstraints m s.deg s.ni s.tau s.tStep where
  setup := hmk _ _ _
  tau0 := htau
  tauInj := hinj
  cpos := h.cpos
  sx := fun j => h.scaling (.x j)
  su := fun j => h.scaling (.u j)
  sz := fun j => h.scaling (.z j)
  noColl := h.noColl
  names := h.names
  noAlg := h.noAlg
  slack := h.slack

theorem wantedCfg_collProblem (S : MpcSettings) (calls : List (MpcOp K d)) (ob : Objective K d) (q : OptP K d) :
    (wantedCfg mk S calls ob).collProblem m s.deg s.ni s.tau s.tStep q = configuredColl S calls ob m s.deg s.ni s.tau s.tStep q := by
  unfold MpcCfg.collProblem
  rw [wantedCfg_problem]
  rfl

/-- A turn of the loop with a solver that finds feasible points. -/
theorem turn_feasible_coll (htau : s.tau 0 = 0) (hinj : ∀ i ≤ s.deg, ∀ j ≤ s.deg, s.tau i = s.tau j → i = j)
    (hmk : ∀ sx su sz, setupCollocation m sx su sz 1 s.deg s.ni s.tau s.tStep = .ok (mk sx su sz))
    (E : MpcEnv K d) (hE : E.tStep = s.tStep) (hst : ∀ s ∈ E.storeStats, s ∈ validStats) (S : MpcSettings) (ops : List (MpcOp K d)) (ob : Objective K d) (nEps : Nat)
    (hT : ContinuousPlant s m T) (sops : List (SimOp K d)) (x0 : Vec K d.nx) (u0 : Vec K d.nu) (es) (h) (l : LiveLoop K d)
    (hi : LoopInv T mk E S ops ob nEps sops x0 u0 es h l) (hp : ConstraintCalls S (ops ++ boundsSet es))
    (hP : PredictsPlant sops E.tStep (lastOf settingsOf (ops ++ boundsSet es) S).c (lastOf settingsOf (ops ++ boundsSet es) S).nRobust E.tvpFun E.pFun)
    (Sv : Solver K d E.nLagr) (hn : ReportsNumbers E.storeStats Sv) (hf : FindsPoint l.ctrl.obj Sv) :
    let t := (turns h : K) * E.tStep
    let q : OptP K d := ⟨lastOf plantState h x0, E.tvpFun t, E.pFun t, lastOf inputGiven h u0⟩
    let problem := configuredColl S (ops ++ boundsSet es) ob m s.deg s.ni s.tau s.tStep q
    (∃ π, problem.Admissible π) →
      ∃ π r y, problem.Admissible π ∧ MayOccur problem.c problem.nR 0 [] r ∧ lastOf simParamOf sops (fun _ => 0) t = E.pFun t r ∧
        (l.turn T E Sv).2 = .ok (π.U 0 [], y) ∧ asState y = π.X 1 (extend problem.nR 0 [] r) := by
  intro t q problem hπ
  have hm : StateMeasured T.model := hT.model ▸ hT.measured
  obtain ⟨pb, a, y, hpb, ha, hu, hy⟩ := turn_ok T mk E hst S ops ob nEps sops x0 u0 es h l hi hm Sv hn
  obtain ⟨es', h', hcI, hb⟩ := hi.ctrl
  have haft := hcI.after
  rw [hb] at haft
  have hR := calls_onScheme mk s m htau hinj hmk S (ops ++ boundsSet es) ob hp
  have hpr : _ = problem := wantedCfg_collProblem mk s m S (ops ++ boundsSet es) ob q
  have hex : ∃ w, Spec.SolverFeasible l.ctrl.obj w a.p := by
    obtain ⟨π, hπ⟩ := hπ
    rw [← hpr] at hπ
    rw [ha]
    exact ⟨_, (after_feasible mk S _ ob l.ctrl.obj haft _ q).2 (admissible_is_feasible_coll hR q π hπ).1⟩
  have hw := hf pb hpb a hex
  rw [ha] at hw
  obtain ⟨Q, e1⟩ := C12_feasible_is_admissible_collocation hR _ q ((after_feasible mk S _ ob l.ctrl.obj haft _ q).1 hw)
  rw [hpr] at e1
  set π : CollPolicy K d := ⟨(wantedCfg mk S (ops ++ boundsSet es) ob).X (Sv pb a).x, (wantedCfg mk S (ops ++ boundsSet es) ob).U (Sv pb a).x,
    (wantedCfg mk S (ops ++ boundsSet es) ob).E (Sv pb a).x, Q,
    fun k h i j => (wantedCfg mk S (ops ++ boundsSet es) ob).Z (Sv pb a).x (i * (s.deg + 1) + j) k h⟩ with hπdef
  have hu0 : l.ctrl.obj.returnedInput (Sv pb a).x = π.U 0 [] := by
    have e2 : (Sv pb a).x.u 0 0 * (wantedCfg mk S (ops ++ boundsSet es) ob).su = π.U 0 [] := by
      rw [hπdef]
      simp [MpcCfg.U, number, MpcCfg.uPhys]
    rw [← e2]
    exact congrArg (fun v => (Sv pb a).x.u 0 0 * v) haft.su
  obtain ⟨r, hr, hrp⟩ := hP.params t
  refine ⟨π, r, y, e1, hr, hrp, by rw [hu, hu0], ?_⟩
  have hdyn := e1.dynamics 0 hp.horizon [] ⟨by simp, by simp⟩ r hr
  rw [hy, hu0]
  have htv : E.tvpFun t 0 = lastOf simTvpOf sops (fun _ => 0) t := (hP.tvp t).symm
  have hx : π.X 0 [] = lastOf plantState h x0 := e1.start
  change s.Interval m (π.X 0 []) (π.U 0 []) (E.tvpFun t 0) (E.pFun t r) (π.X 1 _) _ _ at hdyn
  rw [hx, htv, ← hrp] at hdyn
  have hsame : SameContinuousPlant s m (⟨T.model, T.build E.tStep, E.tStep, lastOf simTvpOf sops fun _ => 0, lastOf simParamOf sops fun _ => 0⟩ : SimEnv K d) := by
    obtain ⟨integ, g1, g2⟩ := hT.integ
    exact ⟨hT.model, ⟨integ, by rw [hE]; exact g1, g2⟩⟩
  exact continuous_simulate hsame hdyn l.sim.st.simZ

/-- What an admissible policy says about the turn in which its first input is applied. -/
theorem policy_safe_coll (E : MpcEnv K d) (S : MpcSettings) (calls : List (MpcOp K d)) (ob : Objective K d) (sops : List (SimOp K d)) (hp : ConstraintCalls S calls)
    (t : K) (x : Vec K d.nx) (uLast : Vec K d.nu) (π : CollPolicy K d) (r : Nat) (y : Vec K d.ny)
    (htv : lastOf simTvpOf sops (fun _ => 0) t = E.tvpFun t 0)
    (hadm : (configuredColl S calls ob m s.deg s.ni s.tau s.tStep ⟨x, E.tvpFun t, E.pFun t, uLast⟩).Admissible π)
    (hr : MayOccur (lastOf settingsOf calls S).c (lastOf settingsOf calls S).nRobust 0 [] r) (hrp : lastOf simParamOf sops (fun _ => 0) t = E.pFun t r)
    (hy : asState y = π.X 1 (extend (lastOf settingsOf calls S).nRobust 0 [] r)) :
    SafeTurnColl s S calls m x (lastOf simTvpOf sops (fun _ => 0) t) (lastOf simParamOf sops (fun _ => 0) t) (π.U 0 []) y := by
  have hN := hp.horizon
  have h0 : IsHistory (lastOf settingsOf calls S).c (lastOf settingsOf calls S).nRobust 0 [] := ⟨by simp, by simp⟩
  have h1 := isHistory_extend h0 hr
  have hdyn := hadm.dynamics 0 hN [] h0 r hr
  have hx : π.X 0 [] = x := hadm.start
  have hcon := hadm.constraints 0 hN [] h0 r hr
  have hsl := hadm.slacks 0 hN [] h0
  change s.Interval m (π.X 0 []) (π.U 0 []) (E.tvpFun t 0) (E.pFun t r) (π.X 1 _) _ _ at hdyn
  change ∀ call ∈ calls.filterMap nlConsOf, ∀ i < call.dim, if call.soft then
      call.ub.ge (call.expr (π.X 0 []) (π.U 0 []) _ (E.tvpFun t 0) (E.pFun t r) i - _) else call.ub.ge (call.expr (π.X 0 []) (π.U 0 []) _ (E.tvpFun t 0) (E.pFun t r) i) at hcon
  change ∀ call ∈ calls.filterMap nlConsOf, _ at hsl
  rw [hx, ← htv, ← hrp] at hdyn hcon
  refine ⟨_, _, by rw [hy]; exact hdyn, hadm.inputs 0 hN [] h0, fun i hi j hj hij => hadm.algebraic 0 hN _ h1 i hi j hj hij, ?_, ?_⟩
  · rw [hy]
    split_ifs with hN1
    · have := hadm.terminal _ (show IsHistory _ _ (configuredColl S calls ob m s.deg s.ni s.tau s.tStep _).N _ by
        show IsHistory _ _ (lastOf settingsOf calls S).N _
        rw [hN1]; exact h1)
      have e : (configuredColl S calls ob m s.deg s.ni s.tau s.tStep ⟨x, E.tvpFun t, E.pFun t, uLast⟩).N = 1 := hN1
      rw [e] at this
      exact this
    · exact ⟨hadm.states 1 le_rfl (by show 1 < (lastOf settingsOf calls S).N; omega) _ h1,
        fun hcc i hi j hj hij => hadm.inside hcc 0 (by show 0 + 1 < (lastOf settingsOf calls S).N; omega) _ h1 i hi j hj hij⟩
  · intro call hcall i hi
    have h2 := hcon call hcall i hi
    cases hsoft : call.soft with
    | false =>
      rw [hsoft] at h2
      simp only [Bool.false_eq_true, if_false] at h2 ⊢
      exact h2
    | true =>
      rw [hsoft] at h2
      have h3 := hsl call hcall hsoft i hi
      simp only [if_true] at h2 ⊢
      exact ⟨_, h3.1, h3.2, h2⟩

/-- The problem of the next turn has an admissible policy, too. -/
theorem next_admissible_coll (htau : s.tau 0 = 0) (hinj : ∀ i ≤ s.deg, ∀ j ≤ s.deg, s.tau i = s.tau j → i = j)
    (hmk : ∀ sx su sz, setupCollocation m sx su sz 1 s.deg s.ni s.tau s.tStep = .ok (mk sx su sz))
    (E : MpcEnv K d) (S : MpcSettings) (calls : List (MpcOp K d)) (ob : Objective K d) (hp : ConstraintCalls S calls)
    (hrob : FullyRobust (lastOf settingsOf calls S)) (hS : SafeTerminalColl s S calls m E.tvpFun E.pFun)
    (hC : ConsistentTime E.tStep (lastOf settingsOf calls S).N (lastOf settingsOf calls S).c (lastOf settingsOf calls S).nRobust E.tvpFun E.pFun)
    (t : K) (x : Vec K d.nx) (uLast uLast' : Vec K d.nu) (π : CollPolicy K d) (r : Nat)
    (hadm : (configuredColl S calls ob m s.deg s.ni s.tau s.tStep ⟨x, E.tvpFun t, E.pFun t, uLast⟩).Admissible π)
    (hr : MayOccur (lastOf settingsOf calls S).c (lastOf settingsOf calls S).nRobust 0 [] r) :
    ∃ π', (configuredColl S calls ob m s.deg s.ni s.tau s.tStep
      ⟨π.X 1 (extend (lastOf settingsOf calls S).nRobust 0 [] r), E.tvpFun (t + E.tStep), E.pFun (t + E.tStep), uLast'⟩).Admissible π' := by
  set cfg := wantedCfg mk S calls ob with hcfg
  have hpr := fun q => wantedCfg_collProblem mk s m S calls ob q
  rw [← hpr] at hadm
  simp only [← hpr]
  let EM : MpcEnv K d := { E with cfg := cfg, model := m }
  have hin : ∀ x, Within EM.cfg.xtlb EM.cfg.xtub x → Within EM.cfg.xlb EM.cfg.xub x := hS.inside
  have hover : ∀ r, MayOccur (lastOf settingsOf calls S).c (lastOf settingsOf calls S).nRobust 0 [] r →
      EM.cfg.consColloc = true → NoOvershoot s EM.cfg EM.model (EM.tvpFun t (EM.cfg.N - 1)) (EM.pFun t r) :=
    fun r hr hcc x u x' P ζ h1 h2 h3 h4 => hS.overshoot hcc t r hr x u x' P ζ h1 h2 h3 h4
  rcases hrob with hnom | ⟨hrob, hol⟩
  · have hocc : ∀ r, MayOccur (lastOf settingsOf calls S).c (lastOf settingsOf calls S).nRobust 0 [] r ↔ r = 0 := fun r => by rw [hnom]; exact mayOccur_zero
    obtain rfl := (hocc r).1 hr
    have hcon : ConsistentPredictions EM := ⟨hC.tvp, fun t => hC.params t 0 hr⟩
    have hterm : InTerminalBounds S calls (π.X EM.cfg.N []) := hadm.terminal [] (by
      show IsHistory cfg.c cfg.nRobust cfg.N []
      have : cfg.nRobust = 0 := hnom
      rw [this]; exact isHistory_zero.mpr rfl)
    obtain ⟨u, k1, k2⟩ := hS.invariant t _ hterm
    obtain ⟨x', P, ζ, k3, k4, k5, k6, k7⟩ := k2 0 hr
    rw [hnom, extend_zero]
    exact ⟨_, shiftColl_admissible (EM := EM) hnom hp.horizon hcon t (hover 0 hr) hin hS.noSlack _ _ rfl rfl rfl rfl π hadm rfl u x' P ζ ⟨k3, k1, k4, k5, k6, k7⟩⟩
  · have hocc : ∀ r, MayOccur (lastOf settingsOf calls S).c (lastOf settingsOf calls S).nRobust 0 [] r ↔ r < (lastOf settingsOf calls S).c := fun r => by
      have := hp.horizon
      unfold MayOccur
      rw [if_pos (by omega)]
    have hcon : ConsistentRealisations EM := ⟨hC.tvp, fun t r hr => hC.params t r ((hocc r).2 hr)⟩
    have hinv := hS.invariant t
    choose! κ h1 h2 using hinv
    choose! xe Pe ζe h3 using h2
    have hext : extend (lastOf settingsOf calls S).nRobust 0 [] r = [r] := by
      have := hp.horizon
      unfold extend; rw [if_pos (by omega)]; rfl
    rw [hext]
    exact ⟨_, shiftRobustColl_admissible (EM := EM) hrob hp.horizon hol hcon t (fun hcc b hb => hover b ((hocc b).2 hb) hcc) hin hS.noSlack κ xe Pe ζe
      (fun x hx r hr => by
        obtain ⟨k3, k4, k5, k6, k7⟩ := h3 x hx r ((hocc r).2 hr)
        exact ⟨k3, h1 x hx, k4, k5, k6, k7⟩)
      hp.cpos _ _ rfl rfl rfl rfl π hadm r ((hocc r).1 hr) rfl⟩

end

/-- **C112** (continuous-time models, collocation): the same for a plant whose integrator solves the collocation equations exactly, and terminal bounds that are control invariant
along the collocation polynomials. -/
theorem C112_for_ever_collocation (S : MpcSettings) (m : DaeModel K d) (mk : Vec K d.nx → Vec K d.nu → Vec K d.nz → Ifcn K d) (s : Scheme K)
    (htau : s.tau 0 = 0) (hinj : ∀ i ≤ s.deg, ∀ j ≤ s.deg, s.tau i = s.tau j → i = j)
    (hmk : ∀ sx su sz, setupCollocation m sx su sz 1 s.deg s.ni s.tau s.tStep = .ok (mk sx su sz))
    (E : MpcEnv K d) (hE : E.tStep = s.tStep) (hst : ∀ s ∈ E.storeStats, s ∈ validStats) (ops : List (MpcOp K d))
    (hc : ∀ op ∈ ops, Configures op) (T : SimTools K d) (hT : ContinuousPlant s m T) (sops : List (SimOp K d)) (hsc : ∀ op ∈ sops, SimConfigures op)
    (hP : PredictsPlant sops E.tStep (lastOf settingsOf ops S).c (lastOf settingsOf ops S).nRobust E.tvpFun E.pFun)
    (hC : ConsistentTime E.tStep (lastOf settingsOf ops S).N (lastOf settingsOf ops S).c (lastOf settingsOf ops S).nRobust E.tvpFun E.pFun)
    (hrob : FullyRobust (lastOf settingsOf ops S))
    (nEps : Nat) (x0 : Vec K d.nx) (u0 : Vec K d.nu) (z0 : Vec K d.nz) (es1 es2 : List (LoopEv K d E.nLagr)) (he1 : ∀ e ∈ es1, FairEv e) :
    let o1 := (MpcObj.new S : MpcObj K d).run mk ops
    let s1 := (SimObj.new : SimObj K d).run T sops
    let l0 := LiveLoop.start T E (o1.exec mk .setup).1 (s1.exec T .setup).1 nEps x0 u0 z0
    let calls := ops ++ boundsSet es1
    let o := (l0.run T mk E es1).ctrl.obj
    let l := l0.run T mk E (es1 ++ es2)
    (o1.exec mk .setup).2 = none → (s1.exec T .setup).2 = none → ConstraintCalls S calls → SafeTerminalColl s S calls m E.tvpFun E.pFun →
    (∀ e ∈ es2, SafeEv o E.storeStats e) →
      ∃ ob, lastOf (fun op => (objectiveOf op).map some) ops none = some ob ∧
        let problem : List (LoopRow K d E.nLagr) → CollStage K d := fun h =>
          configuredColl S calls ob m s.deg s.ni s.tau s.tStep ⟨lastOf plantState h x0, E.tvpFun (turns h * E.tStep), E.pFun (turns h * E.tStep), lastOf inputGiven h u0⟩
        ((∃ π, (problem (l0.history T mk E es1)).Admissible π) →
          let h := l0.history T mk E (es1 ++ es2)
          let t := (turns h : K) * E.tStep
          (∃ π, (problem h).Admissible π) ∧
          ∀ Sv, FindsPoint o Sv → ReportsNumbers E.storeStats Sv →
            ∃ u y, (l.turn T E Sv).2 = .ok (u, y) ∧
              SafeTurnColl s S calls m (lastOf plantState h x0) (lastOf simTvpOf sops (fun _ => 0) t) (lastOf simParamOf sops (fun _ => 0) t) u y) := by
  intro o1 s1 l0 calls o l hs hss hp hS he2
  obtain ⟨ob, hob, hi0⟩ := loop_start T mk E S ops hc hs sops hsc hss hP.step nEps x0 u0 z0
  refine ⟨ob, hob, ?_⟩
  intro problem hπ h t
  have hm : StateMeasured T.model := hT.model ▸ hT.measured
  have hi1 := loop_run T mk E S ops ob nEps sops x0 u0 hm es1 [] [] l0 hi0 he1
  rw [List.nil_append, List.nil_append] at hi1
  have hset : lastOf settingsOf (ops ++ boundsSet es1) S = lastOf settingsOf ops S := by
    obtain ⟨es', -, -, hb⟩ := hi1.ctrl
    rw [← hb]; exact settings_bounds S ops es'
  rw [← hset] at hP hC hrob
  have after : ∀ es h l, LoopInv T mk E S ops ob nEps sops x0 u0 es h l → boundsSet es = boundsSet es1 → After mk S calls ob l.ctrl.obj := by
    intro es h l hi hbs
    obtain ⟨es', h', hcI, hb⟩ := hi.ctrl
    have := hcI.after
    rwa [hb, hbs] at this
  have ho := after _ _ _ hi1 rfl
  -- one turn
  have turn : ∀ es h l, LoopInv T mk E S ops ob nEps sops x0 u0 es h l → boundsSet es = boundsSet es1 → ∀ Sv, ReportsNumbers E.storeStats Sv → FindsPoint l.ctrl.obj Sv →
      (∃ π, (problem h).Admissible π) →
      ∃ π r y, (problem h).Admissible π ∧ MayOccur (lastOf settingsOf calls S).c (lastOf settingsOf calls S).nRobust 0 [] r ∧
        lastOf simParamOf sops (fun _ => 0) ((turns h : K) * E.tStep) = E.pFun ((turns h : K) * E.tStep) r ∧
        (l.turn T E Sv).2 = .ok (π.U 0 [], y) ∧ asState y = π.X 1 (extend (lastOf settingsOf calls S).nRobust 0 [] r) := by
    intro es h l hi hbs Sv hn hf hπ
    have key := turn_feasible_coll T mk s m htau hinj hmk E hE hst S ops ob nEps hT sops x0 u0 es h l hi
    rw [hbs] at key
    exact key hp hP Sv hn hf hπ
  obtain ⟨hi, hbs, hadm⟩ := safe_core T mk E S ops ob nEps hm sops x0 u0 (boundsSet es1)
    (fun q => ∃ π, (configuredColl S calls ob m s.deg s.ni s.tau s.tStep q).Admissible π)
    (fun q u ⟨π, hπ⟩ => ⟨π, hπ.start, hπ.dynamics, hπ.states, hπ.inside, hπ.terminal, hπ.inputs, hπ.algebraic, hπ.constraints, hπ.slacks, hπ.oneInput⟩)
    (fun es h l hi hbs Sv hn hf hπ => by
      obtain ⟨π, r, y, a1, a2, a3, a4, a5⟩ := turn es h l hi hbs Sv hn hf hπ
      refine ⟨_, y, a4, ?_⟩
      rw [a5]
      exact next_admissible_coll mk s m htau hinj hmk E S calls ob hp hrob hS hC _ _ _ _ π r a1 a2)
    o ho es2 _ _ _ hi1 rfl he2 hπ
  have hh : l0.history T mk E es1 ++ (l0.run T mk E es1).history T mk E es2 = h := (loop_history_append T mk E es1 es2 l0).symm
  have hl : (l0.run T mk E es1).run T mk E es2 = l := (loop_run_append T mk E es1 es2 l0).symm
  change LoopInv T mk E S ops ob nEps sops x0 u0 (es1 ++ es2) (l0.history T mk E es1 ++ (l0.run T mk E es1).history T mk E es2) ((l0.run T mk E es1).run T mk E es2) at hi
  rw [hh, hl] at hi
  change ∃ π, (problem (l0.history T mk E es1 ++ (l0.run T mk E es1).history T mk E es2)).Admissible π at hadm
  rw [hh] at hadm
  refine ⟨hadm, ?_⟩
  intro Sv hf hn
  have haft := after _ _ _ hi hbs
  have hpb := after_problem _ S _ ob _ _ haft ho
  have hf' : FindsPoint l.ctrl.obj Sv := by
    intro pb hpb' a ⟨w, hw⟩
    rw [after_feasible _ S _ ob _ haft] at hw ⊢
    have := hf pb (hpb ▸ hpb') a ⟨w, (after_feasible _ S _ ob _ ho _ _).2 hw⟩
    rwa [after_feasible _ S _ ob _ ho] at this
  obtain ⟨π, r, y, a1, a2, a3, a4, a5⟩ := turn (es1 ++ es2) h l hi hbs Sv hn hf' hadm
  exact ⟨_, y, a4, policy_safe_coll s m E S calls ob sops hp t _ _ π r y (hP.tvp t) a1 a2 a3 a5⟩

end DoMpc
