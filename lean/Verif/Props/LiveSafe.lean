import Verif.Spec.LiveSafe
import Verif.Props.LiveLoop
import Verif.Props.RobustFeasibility

/-!
# C112: a configured loop never gets stuck and keeps its constraints for ever
-/
set_option linter.unusedSectionVars false
namespace DoMpc
open Spec
variable {K : Type} [Field K] [LinearOrder K] [IsStrictOrderedRing K] {d : Dims}

/-- `PlainCalls` implies `ConstraintCalls` -/
theorem PlainCalls.constraintCalls {S : MpcSettings} {calls : List (MpcOp K d)} (h : PlainCalls S calls) : ConstraintCalls S calls :=
  ⟨h.cpos, by have := h.horizon; omega, h.slack, h.noColl, h.noAlg, h.scaling, h.names⟩

theorem calls_regular (S : MpcSettings) (calls : List (MpcOp K d)) (ob : Objective K d) (m : DaeModel K d) (h : ConstraintCalls S calls) :
    (wantedCfg (fun sx su sz => discreteIfcn m sx su sz 1) S calls ob).RegularConstraints m where
  discrete := rfl
  cpos := h.cpos
  sx := fun j => h.scaling (.x j)
  su := fun j => h.scaling (.u j)
  sz := fun j => h.scaling (.z j)
  noColl := h.noColl
  names := h.names
  noAlg := h.noAlg
  slack := h.slack

/-- Two objects after the same calls have the same problem. -/
theorem after_problem (mk : Vec K d.nx → Vec K d.nu → Vec K d.nz → Ifcn K d) (S : MpcSettings) (calls : List (MpcOp K d)) (ob : Objective K d) (o o' : MpcObj K d)
    (h : After mk S calls ob o) (h' : After mk S calls ob o') : o.problem = o'.problem := by
  obtain ⟨P, e1, e2, e3, -⟩ := h.prep
  obtain ⟨P', f1, f2, f3, -⟩ := h'.prep
  unfold MpcObj.problem
  rw [h.solver, h'.solver, e1, f1]
  simp only
  rw [e2, e3, f2, f3]

section
variable (T : SimTools K d) (m : DaeModel K d)

/-- A turn of the loop with a solver that finds feasible points. -/
theorem turn_feasible (E : MpcEnv K d) (hst : ∀ s ∈ E.storeStats, s ∈ validStats) (S : MpcSettings) (ops : List (MpcOp K d)) (ob : Objective K d) (nEps : Nat)
    (hT : DiscretePlant m T) (sops : List (SimOp K d)) (x0 : Vec K d.nx) (u0 : Vec K d.nu) (es) (h) (l : LiveLoop K d)
    (hi : LoopInv T (fun sx su sz => discreteIfcn m sx su sz 1) E S ops ob nEps sops x0 u0 es h l) (hp : ConstraintCalls S (ops ++ boundsSet es))
    (hP : PredictsPlant sops E.tStep (lastOf settingsOf (ops ++ boundsSet es) S).c (lastOf settingsOf (ops ++ boundsSet es) S).nRobust E.tvpFun E.pFun)
    (Sv : Solver K d E.nLagr) (hn : ReportsNumbers E.storeStats Sv) (hf : FindsPoint l.ctrl.obj Sv) :
    let t := (turns h : K) * E.tStep
    let q : OptP K d := ⟨lastOf plantState h x0, E.tvpFun t, E.pFun t, lastOf inputGiven h u0⟩
    let problem := configured S (ops ++ boundsSet es) ob m q
    (∃ π, problem.Admissible π) →
      ∃ π r y, problem.Admissible π ∧ MayOccur problem.c problem.nR 0 [] r ∧ lastOf simParamOf sops (fun _ => 0) t = E.pFun t r ∧
        (l.turn T E Sv).2 = .ok (π.U 0 [], y) ∧ asState y = π.X 1 (extend problem.nR 0 [] r) := by
  intro t q problem hπ
  have hm : StateMeasured T.model := hT.model ▸ hT.measured
  obtain ⟨pb, a, y, hpb, ha, hu, hy⟩ := turn_ok T _ E hst S ops ob nEps sops x0 u0 es h l hi hm Sv hn
  obtain ⟨es', h', hcI, hb⟩ := hi.ctrl
  have haft := hcI.after
  rw [hb] at haft
  have hR := calls_regular S (ops ++ boundsSet es) ob m hp
  have hpr : (wantedCfg (fun sx su sz => discreteIfcn m sx su sz 1) S (ops ++ boundsSet es) ob).problem m q = problem := wantedCfg_problem _ S (ops ++ boundsSet es) ob m q
  have hex : ∃ w, Spec.SolverFeasible l.ctrl.obj w a.p := by
    obtain ⟨π, hπ⟩ := hπ
    rw [← hpr] at hπ
    rw [ha]
    exact ⟨_, (after_feasible _ S _ ob l.ctrl.obj haft _ q).2 (admissible_is_feasible _ m hR q π hπ)⟩
  have hw := hf pb hpb a hex
  rw [ha] at hw
  have e1 := feasible_is_admissible _ m hR _ q ((after_feasible _ S _ ob l.ctrl.obj haft _ q).1 hw)
  rw [hpr] at e1
  set π := (wantedCfg (fun sx su sz => discreteIfcn m sx su sz 1) S (ops ++ boundsSet es) ob).policy (Sv pb a).x with hπdef
  have hu0 : l.ctrl.obj.returnedInput (Sv pb a).x = π.U 0 [] := by
    have e2 : (Sv pb a).x.u 0 0 * (wantedCfg (fun sx su sz => discreteIfcn m sx su sz 1) S (ops ++ boundsSet es) ob).su = π.U 0 [] := by
      rw [hπdef]
      simp [MpcCfg.policy, MpcCfg.U, number, MpcCfg.uPhys]
    rw [← e2]
    exact congrArg (fun v => (Sv pb a).x.u 0 0 * v) haft.su
  obtain ⟨r, hr, hrp⟩ := hP.params t
  refine ⟨π, r, y, e1, hr, hrp, by rw [hu, hu0], ?_⟩
  have hN : 0 < problem.N := hp.horizon
  obtain ⟨d1, d2⟩ := e1.dynamics
  obtain ⟨d3, d4⟩ := d2 0 hN [] ⟨by simp, by simp⟩ r hr
  rw [hy, hu0]
  have htv : E.tvpFun t 0 = lastOf simTvpOf sops (fun _ => 0) t := (hP.tvp t).symm
  have hx : π.X 0 [] = lastOf plantState h x0 := d1
  change m.alg (π.X 0 []) (π.U 0 []) _ (E.tvpFun t 0) (E.pFun t r) 0 = 0 at d3
  change π.X 1 _ = m.rhs (π.X 0 []) (π.U 0 []) _ (E.tvpFun t 0) (E.pFun t r) 0 at d4
  rw [hx, htv, ← hrp] at d3 d4
  have hsame : SamePlant m (⟨T.model, T.build E.tStep, E.tStep, lastOf simTvpOf sops fun _ => 0, lastOf simParamOf sops fun _ => 0⟩ : SimEnv K d) := by
    obtain ⟨root, g1, g2⟩ := hT.root
    exact ⟨hT.model, ⟨root, g1 _, g2⟩, hT.unique⟩
  rw [d4]
  exact congrArg Prod.fst (simulate_eq hsame d3 l.sim.st.simZ)

/-- What an admissible policy says about the turn in which its first input is applied. -/
theorem policy_safe (E : MpcEnv K d) (S : MpcSettings) (calls : List (MpcOp K d)) (ob : Objective K d) (sops : List (SimOp K d)) (hp : ConstraintCalls S calls)
    (t : K) (x : Vec K d.nx) (uLast : Vec K d.nu) (π : Policy K d) (r : Nat) (y : Vec K d.ny)
    (htv : lastOf simTvpOf sops (fun _ => 0) t = E.tvpFun t 0)
    (hadm : (configured S calls ob m ⟨x, E.tvpFun t, E.pFun t, uLast⟩).Admissible π)
    (hr : MayOccur (lastOf settingsOf calls S).c (lastOf settingsOf calls S).nRobust 0 [] r) (hrp : lastOf simParamOf sops (fun _ => 0) t = E.pFun t r)
    (hy : asState y = π.X 1 (extend (lastOf settingsOf calls S).nRobust 0 [] r)) :
    SafeTurn S calls m x (lastOf simTvpOf sops (fun _ => 0) t) (lastOf simParamOf sops (fun _ => 0) t) (π.U 0 []) y := by
  have hN := hp.horizon
  have h0 : IsHistory (lastOf settingsOf calls S).c (lastOf settingsOf calls S).nRobust 0 [] := ⟨by simp, by simp⟩
  have h1 := isHistory_extend h0 hr
  obtain ⟨d1, d2⟩ := hadm.dynamics
  obtain ⟨d3, d4⟩ := d2 0 hN [] h0 r hr
  have hx : π.X 0 [] = x := d1
  have hcon := hadm.constraints 0 hN [] h0 r hr
  have hsl := hadm.slacks 0 hN [] h0
  change m.alg (π.X 0 []) (π.U 0 []) _ (E.tvpFun t 0) (E.pFun t r) 0 = 0 at d3
  change π.X 1 _ = m.rhs (π.X 0 []) (π.U 0 []) _ (E.tvpFun t 0) (E.pFun t r) 0 at d4
  change ∀ call ∈ calls.filterMap nlConsOf, ∀ i < call.dim, if call.soft then
      call.ub.ge (call.expr (π.X 0 []) (π.U 0 []) _ (E.tvpFun t 0) (E.pFun t r) i - _) else call.ub.ge (call.expr (π.X 0 []) (π.U 0 []) _ (E.tvpFun t 0) (E.pFun t r) i) at hcon
  change ∀ call ∈ calls.filterMap nlConsOf, _ at hsl
  rw [hx, ← htv, ← hrp] at d3 d4 hcon
  refine ⟨_, d3, hy.trans d4, hadm.inputs 0 hN [] h0, hadm.algebraic 0 hN _ h1, ?_, ?_⟩
  · rw [hy]
    split_ifs with hN1
    · have := hadm.terminal _ (show IsHistory _ _ (configured S calls ob m _).N _ by
        show IsHistory _ _ (lastOf settingsOf calls S).N _
        rw [hN1]; exact h1)
      have e : (configured S calls ob m ⟨x, E.tvpFun t, E.pFun t, uLast⟩).N = 1 := hN1
      rw [e] at this
      exact this
    · exact hadm.states 1 le_rfl (by show 1 < (lastOf settingsOf calls S).N; omega) _ h1
  · intro call hcall i hi
    have h2 := hcon call hcall i hi
    cases hsoft : call.soft with
    | false => rw [hsoft] at h2; simpa using h2
    | true =>
      rw [hsoft] at h2
      have h3 := hsl call hcall hsoft i hi
      simp only [if_true] at h2 ⊢
      exact ⟨_, h3.1, h3.2, h2⟩

/-- The problem of the next turn has an admissible policy, too. -/
theorem next_admissible (E : MpcEnv K d) (S : MpcSettings) (calls : List (MpcOp K d)) (ob : Objective K d) (hp : ConstraintCalls S calls)
    (hrob : FullyRobust (lastOf settingsOf calls S)) (hS : SafeTerminal S calls m E.tvpFun E.pFun)
    (hC : ConsistentTime E.tStep (lastOf settingsOf calls S).N (lastOf settingsOf calls S).c (lastOf settingsOf calls S).nRobust E.tvpFun E.pFun)
    (t : K) (x : Vec K d.nx) (uLast uLast' : Vec K d.nu) (π : Policy K d) (r : Nat)
    (hadm : (configured S calls ob m ⟨x, E.tvpFun t, E.pFun t, uLast⟩).Admissible π)
    (hr : MayOccur (lastOf settingsOf calls S).c (lastOf settingsOf calls S).nRobust 0 [] r) :
    ∃ π', (configured S calls ob m ⟨π.X 1 (extend (lastOf settingsOf calls S).nRobust 0 [] r), E.tvpFun (t + E.tStep), E.pFun (t + E.tStep), uLast'⟩).Admissible π' := by
  set cfg := wantedCfg (fun sx su sz => discreteIfcn m sx su sz 1) S calls ob with hcfg
  have hpr := fun q => wantedCfg_problem (fun sx su sz => discreteIfcn m sx su sz 1) S calls ob m q
  rw [← hpr] at hadm
  simp only [← hpr]
  let EM : MpcEnv K d := { E with cfg := cfg, model := m }
  have hin : ∀ x, Within EM.cfg.xtlb EM.cfg.xtub x → Within EM.cfg.xlb EM.cfg.xub x := hS.inside
  rcases hrob with hnom | ⟨hrob, hol⟩
  · have hocc : ∀ r, MayOccur (lastOf settingsOf calls S).c (lastOf settingsOf calls S).nRobust 0 [] r ↔ r = 0 := fun r => by rw [hnom]; exact mayOccur_zero
    obtain rfl := (hocc r).1 hr
    have hcon : ConsistentPredictions EM := ⟨hC.tvp, fun t => hC.params t 0 hr⟩
    have hterm : InTerminalBounds S calls (π.X EM.cfg.N []) := hadm.terminal [] (by
      show IsHistory cfg.c cfg.nRobust cfg.N []
      have : cfg.nRobust = 0 := hnom
      rw [this]; exact isHistory_zero.mpr rfl)
    obtain ⟨u, k1, k2⟩ := hS.invariant t _ hterm
    obtain ⟨z, k3, k4, k5, k6⟩ := k2 0 hr
    rw [hnom, extend_zero]
    exact ⟨_, shift_admissible (EM := EM) hnom hp.horizon hcon t hin hS.noSlack _ _ rfl rfl rfl rfl π hadm rfl u z ⟨k3, k1, k4, k5, k6⟩⟩
  · have hocc : ∀ r, MayOccur (lastOf settingsOf calls S).c (lastOf settingsOf calls S).nRobust 0 [] r ↔ r < (lastOf settingsOf calls S).c := fun r => by
      have := hp.horizon
      unfold MayOccur
      rw [if_pos (by omega)]
    have hcon : ConsistentRealisations EM := ⟨hC.tvp, fun t r hr => hC.params t r ((hocc r).2 hr)⟩
    have hinv := hS.invariant t
    choose! κ h1 h2 using hinv
    choose! ζ h3 using h2
    have hext : extend (lastOf settingsOf calls S).nRobust 0 [] r = [r] := by
      have := hp.horizon
      unfold extend; rw [if_pos (by omega)]; rfl
    rw [hext]
    exact ⟨_, shiftRobust_admissible (EM := EM) hrob hp.horizon hol hcon t hin hS.noSlack κ ζ
      (fun x hx r hr => by
        obtain ⟨k3, k4, k5, k6⟩ := h3 x hx r ((hocc r).2 hr)
        exact ⟨k3, h1 x hx, k4, k5, k6⟩)
      hp.cpos _ _ rfl rfl rfl rfl π hadm r ((hocc r).1 hr) rfl⟩

theorem safe_fair {n : Nat} (o : MpcObj K d) (names : List String) (e : LoopEv K d n) (h : SafeEv o names e) : FairEv e ∧ boundsSet [e] = [] := by
  cases e with
  | restart x => exact h.elim
  | turn Sv => exact ⟨trivial, rfl⟩
  | sim op => exact ⟨h, rfl⟩
  | ctrl e =>
    cases e with
    | config op =>
      cases op with
      | bound s v b => exact h.elim
      | _ => exact ⟨h, rfl⟩
    | _ => exact ⟨h, rfl⟩

/-- One event keeps the existence of an admissible policy. -/
theorem safe_exec (E : MpcEnv K d) (hst : ∀ s ∈ E.storeStats, s ∈ validStats) (S : MpcSettings) (ops : List (MpcOp K d)) (ob : Objective K d) (nEps : Nat)
    (hT : DiscretePlant m T) (sops : List (SimOp K d)) (x0 : Vec K d.nx) (u0 : Vec K d.nu) (es) (h) (l : LiveLoop K d)
    (hi : LoopInv T (fun sx su sz => discreteIfcn m sx su sz 1) E S ops ob nEps sops x0 u0 es h l) (bs : List (MpcOp K d)) (hbs : boundsSet es = bs)
    (hp : ConstraintCalls S (ops ++ bs))
    (hP : PredictsPlant sops E.tStep (lastOf settingsOf (ops ++ bs) S).c (lastOf settingsOf (ops ++ bs) S).nRobust E.tvpFun E.pFun)
    (hrob : FullyRobust (lastOf settingsOf (ops ++ bs) S)) (hS : SafeTerminal S (ops ++ bs) m E.tvpFun E.pFun)
    (hC : ConsistentTime E.tStep (lastOf settingsOf (ops ++ bs) S).N (lastOf settingsOf (ops ++ bs) S).c (lastOf settingsOf (ops ++ bs) S).nRobust E.tvpFun E.pFun)
    (o : MpcObj K d) (ho : After (fun sx su sz => discreteIfcn m sx su sz 1) S (ops ++ bs) ob o) (e : LoopEv K d E.nLagr) (he : SafeEv o E.storeStats e)
    (hπ : ∃ π, (configured S (ops ++ bs) ob m ⟨lastOf plantState h x0, E.tvpFun ((turns h : K) * E.tStep), E.pFun ((turns h : K) * E.tStep), lastOf inputGiven h u0⟩).Admissible π) :
    let h' := h ++ [(e, (l.exec T (fun sx su sz => discreteIfcn m sx su sz 1) E e).2)]
    ∃ π, (configured S (ops ++ bs) ob m
      ⟨lastOf plantState h' x0, E.tvpFun ((turns h' : K) * E.tStep), E.pFun ((turns h' : K) * E.tStep), lastOf inputGiven h' u0⟩).Admissible π := by
  intro h'
  subst hbs
  -- the input applied last does not matter
  have anyLast : ∀ q q' : OptP K d, q.x0 = q'.x0 → q.tvp = q'.tvp → q.p = q'.p → ∀ π,
      (configured S (ops ++ boundsSet es) ob m q).Admissible π → (configured S (ops ++ boundsSet es) ob m q').Admissible π := by
    rintro ⟨a, b, c, e⟩ ⟨a', b', c', e'⟩ rfl rfl rfl π hπ
    exact ⟨hπ.dynamics, hπ.states, hπ.terminal, hπ.inputs, hπ.algebraic, hπ.constraints, hπ.slacks, hπ.oneInput⟩
  have other : (∀ x, e ≠ .restart x) → plantState (e, (l.exec T (fun sx su sz => discreteIfcn m sx su sz 1) E e).2) = none →
      turned (e, (l.exec T (fun sx su sz => discreteIfcn m sx su sz 1) E e).2) = false → ∃ π, (configured S (ops ++ boundsSet es) ob m
      ⟨lastOf plantState h' x0, E.tvpFun ((turns h' : K) * E.tStep), E.pFun ((turns h' : K) * E.tStep), lastOf inputGiven h' u0⟩).Admissible π := by
    intro h1 h2 h3
    obtain ⟨π, hπ⟩ := hπ
    refine ⟨π, anyLast _ _ ?_ ?_ ?_ π hπ⟩
    · exact (lastOf_snoc_none _ _ _ _ h2).symm
    · simp only; rw [turns_other h _ h1 h3]
    · simp only; rw [turns_other h _ h1 h3]
  cases e with
  | restart x => exact he.elim
  | ctrl e => exact other (by simp) rfl rfl
  | sim op => exact other (by simp) rfl rfl
  | turn Sv =>
    obtain ⟨es', h'', hcI, hb⟩ := hi.ctrl
    have haft := hcI.after
    rw [hb] at haft
    have hpb := after_problem _ S _ ob _ _ haft ho
    have hf : FindsPoint l.ctrl.obj Sv := by
      intro pb hpb' a ⟨w, hw⟩
      rw [after_feasible _ S _ ob _ haft] at hw ⊢
      have := he.1 pb (hpb ▸ hpb') a ⟨w, (after_feasible _ S _ ob _ ho _ _).2 hw⟩
      rwa [after_feasible _ S _ ob _ ho] at this
    obtain ⟨π, r, y, a1, a2, a3, a4, a5⟩ := turn_feasible T m E hst S ops ob nEps hT sops x0 u0 es h l hi hp hP Sv he.2 hf hπ
    have hex : (l.exec T (fun sx su sz => discreteIfcn m sx su sz 1) E (.turn Sv)).2 = some (.ok (π.U 0 [], y)) := congrArg some a4
    have ht := turns_turn h (.turn Sv, some (.ok (π.U 0 [], y))) (by simp) rfl
    have hx : lastOf plantState (h ++ [(.turn Sv, some (.ok (π.U 0 [], y)))]) x0 = asState y := by rw [lastOf_snoc]; rfl
    obtain ⟨π', hπ'⟩ := next_admissible m E S _ ob hp hrob hS hC _ _ _ (lastOf inputGiven h' u0) π r a1 a2
    refine ⟨π', anyLast _ _ ?_ ?_ ?_ π' hπ'⟩
    · show π.X 1 _ = lastOf plantState h' x0
      simp only [h']
      rw [hex, hx]; exact a5.symm
    · show E.tvpFun _ = E.tvpFun _
      simp only [h']
      rw [hex, ht]; push_cast; congr 1; ring
    · show E.pFun _ = E.pFun _
      simp only [h']
      rw [hex, ht]; push_cast; congr 1; ring

/-- … and so does a sequence of events. -/
theorem safe_run (E : MpcEnv K d) (hst : ∀ s ∈ E.storeStats, s ∈ validStats) (S : MpcSettings) (ops : List (MpcOp K d)) (ob : Objective K d) (nEps : Nat)
    (hT : DiscretePlant m T) (sops : List (SimOp K d)) (x0 : Vec K d.nx) (u0 : Vec K d.nu) (bs : List (MpcOp K d)) (hp : ConstraintCalls S (ops ++ bs))
    (hP : PredictsPlant sops E.tStep (lastOf settingsOf (ops ++ bs) S).c (lastOf settingsOf (ops ++ bs) S).nRobust E.tvpFun E.pFun)
    (hrob : FullyRobust (lastOf settingsOf (ops ++ bs) S)) (hS : SafeTerminal S (ops ++ bs) m E.tvpFun E.pFun)
    (hC : ConsistentTime E.tStep (lastOf settingsOf (ops ++ bs) S).N (lastOf settingsOf (ops ++ bs) S).c (lastOf settingsOf (ops ++ bs) S).nRobust E.tvpFun E.pFun)
    (o : MpcObj K d) (ho : After (fun sx su sz => discreteIfcn m sx su sz 1) S (ops ++ bs) ob o) (es2 : List (LoopEv K d E.nLagr)) :
    ∀ es h l, LoopInv T (fun sx su sz => discreteIfcn m sx su sz 1) E S ops ob nEps sops x0 u0 es h l → boundsSet es = bs → (∀ e ∈ es2, SafeEv o E.storeStats e) →
    (∃ π, (configured S (ops ++ bs) ob m ⟨lastOf plantState h x0, E.tvpFun ((turns h : K) * E.tStep), E.pFun ((turns h : K) * E.tStep), lastOf inputGiven h u0⟩).Admissible π) →
    let h' := h ++ l.history T (fun sx su sz => discreteIfcn m sx su sz 1) E es2
    LoopInv T (fun sx su sz => discreteIfcn m sx su sz 1) E S ops ob nEps sops x0 u0 (es ++ es2) h' (l.run T (fun sx su sz => discreteIfcn m sx su sz 1) E es2) ∧
    boundsSet (es ++ es2) = bs ∧
    ∃ π, (configured S (ops ++ bs) ob m
      ⟨lastOf plantState h' x0, E.tvpFun ((turns h' : K) * E.tStep), E.pFun ((turns h' : K) * E.tStep), lastOf inputGiven h' u0⟩).Admissible π := by
  induction es2 with
  | nil => intro es h l hi hb _ hπ; simpa [LiveLoop.history, LiveLoop.run] using ⟨hi, hb, hπ⟩
  | cons e es2 ih =>
    intro es h l hi hb he hπ
    obtain ⟨f1, f2⟩ := safe_fair o E.storeStats e (he e (by simp))
    have := ih _ _ _ (loop_exec T _ E S ops ob nEps sops x0 u0 es h l hi (hT.model ▸ hT.measured) e f1)
      (by rw [boundsSet_snoc, f2, List.append_nil, hb]) (fun e' h' => he e' (by simp [h']))
      (safe_exec T m E hst S ops ob nEps hT sops x0 u0 es h l hi bs hb hp hP hrob hS hC o ho e (he e (by simp)) hπ)
    simpa [LiveLoop.history, LiveLoop.run] using this

end

theorem loop_run_append (T : SimTools K d) (mk : Vec K d.nx → Vec K d.nu → Vec K d.nz → Ifcn K d) (E : MpcEnv K d) (es1 es2 : List (LoopEv K d E.nLagr)) :
    ∀ l : LiveLoop K d, l.run T mk E (es1 ++ es2) = (l.run T mk E es1).run T mk E es2 := by
  induction es1 with
  | nil => intro l; rfl
  | cons e es1 ih => intro l; exact ih _

theorem loop_history_append (T : SimTools K d) (mk : Vec K d.nx → Vec K d.nu → Vec K d.nz → Ifcn K d) (E : MpcEnv K d) (es1 es2 : List (LoopEv K d E.nLagr)) :
    ∀ l : LiveLoop K d, l.history T mk E (es1 ++ es2) = l.history T mk E es1 ++ (l.run T mk E es1).history T mk E es2 := by
  induction es1 with
  | nil => intro l; rfl
  | cons e es1 ih => intro l; exact congrArg (List.cons _) (ih _)

/-- **C112** (discrete-time models): configure controller and simulator by any calls, `setup()` both, and do anything with them (`es1`).  If at that point the problem that the calls
ask for has *one* admissible policy, the terminal bounds are robust control invariant, predictions are consistent, and the robust horizon is 0 or at least the prediction horizon,
then whatever happens in this episode from there on (`es2`: turns, guesses, `solve()`, refused calls, in any order and number) the problem of the next turn has an admissible
policy, and the next turn succeeds and keeps the bounds and constraints – with solvers that merely find a feasible point, not an optimal one. -/
theorem C112_for_ever (S : MpcSettings) (m : DaeModel K d) (E : MpcEnv K d) (hst : ∀ s ∈ E.storeStats, s ∈ validStats) (ops : List (MpcOp K d))
    (hc : ∀ op ∈ ops, Configures op) (T : SimTools K d) (hT : DiscretePlant m T) (sops : List (SimOp K d)) (hsc : ∀ op ∈ sops, SimConfigures op)
    (hP : PredictsPlant sops E.tStep (lastOf settingsOf ops S).c (lastOf settingsOf ops S).nRobust E.tvpFun E.pFun)
    (hC : ConsistentTime E.tStep (lastOf settingsOf ops S).N (lastOf settingsOf ops S).c (lastOf settingsOf ops S).nRobust E.tvpFun E.pFun)
    (hrob : FullyRobust (lastOf settingsOf ops S))
    (nEps : Nat) (x0 : Vec K d.nx) (u0 : Vec K d.nu) (z0 : Vec K d.nz) (es1 es2 : List (LoopEv K d E.nLagr)) (he1 : ∀ e ∈ es1, FairEv e) :
    let mk := fun sx su sz => discreteIfcn m sx su sz 1
    let o1 := (MpcObj.new S : MpcObj K d).run mk ops
    let s1 := (SimObj.new : SimObj K d).run T sops
    let l0 := LiveLoop.start T E (o1.exec mk .setup).1 (s1.exec T .setup).1 nEps x0 u0 z0
    let calls := ops ++ boundsSet es1
    let o := (l0.run T mk E es1).ctrl.obj
    let l := l0.run T mk E (es1 ++ es2)
    (o1.exec mk .setup).2 = none → (s1.exec T .setup).2 = none → ConstraintCalls S calls → SafeTerminal S calls m E.tvpFun E.pFun →
    (∀ e ∈ es2, SafeEv o E.storeStats e) →
      ∃ ob, lastOf (fun op => (objectiveOf op).map some) ops none = some ob ∧
        let problem : List (LoopRow K d E.nLagr) → MultiStage K d := fun h =>
          configured S calls ob m ⟨lastOf plantState h x0, E.tvpFun (turns h * E.tStep), E.pFun (turns h * E.tStep), lastOf inputGiven h u0⟩
        ((∃ π, (problem (l0.history T mk E es1)).Admissible π) →
          let h := l0.history T mk E (es1 ++ es2)
          let t := (turns h : K) * E.tStep
          (∃ π, (problem h).Admissible π) ∧
          ∀ Sv, FindsPoint o Sv → ReportsNumbers E.storeStats Sv →
            ∃ u y, (l.turn T E Sv).2 = .ok (u, y) ∧
              SafeTurn S calls m (lastOf plantState h x0) (lastOf simTvpOf sops (fun _ => 0) t) (lastOf simParamOf sops (fun _ => 0) t) u y) := by
  intro mk o1 s1 l0 calls o l hs hss hp hS he2
  obtain ⟨ob, hob, hi0⟩ := loop_start T mk E S ops hc hs sops hsc hss hP.step nEps x0 u0 z0
  refine ⟨ob, hob, ?_⟩
  intro problem hπ h t
  have hm : StateMeasured T.model := hT.model ▸ hT.measured
  have hi1 := loop_run T mk E S ops ob nEps sops x0 u0 hm es1 [] [] l0 hi0 he1
  rw [List.nil_append, List.nil_append] at hi1
  have hset : lastOf settingsOf (ops ++ boundsSet es1) S = lastOf settingsOf ops S := by
    obtain ⟨es', -, -, hb⟩ := hi1.ctrl
    rw [← hb]; exact settings_bounds S ops es'
  rw [← hset] at hP hC hrob
  have after : ∀ es h l, LoopInv T mk E S ops ob nEps sops x0 u0 es h l → boundsSet es = boundsSet es1 → After mk S calls ob l.ctrl.obj := by
    intro es h l hi hbs
    obtain ⟨es', h', hcI, hb⟩ := hi.ctrl
    have := hcI.after
    rwa [hb, hbs] at this
  have ho := after _ _ _ hi1 rfl
  obtain ⟨hi, hbs, hadm⟩ := safe_run T m E hst S ops ob nEps hT sops x0 u0 (boundsSet es1) hp hP hrob hS hC o ho es2 _ _ _ hi1 rfl he2 hπ
  have hh : l0.history T mk E es1 ++ (l0.run T mk E es1).history T mk E es2 = h := (loop_history_append T mk E es1 es2 l0).symm
  have hl : (l0.run T mk E es1).run T mk E es2 = l := (loop_run_append T mk E es1 es2 l0).symm
  change LoopInv T mk E S ops ob nEps sops x0 u0 (es1 ++ es2) (l0.history T mk E es1 ++ (l0.run T mk E es1).history T mk E es2) ((l0.run T mk E es1).run T mk E es2) at hi
  rw [hh, hl] at hi
  change ∃ π, (problem (l0.history T mk E es1 ++ (l0.run T mk E es1).history T mk E es2)).Admissible π at hadm
  rw [hh] at hadm
  refine ⟨hadm, ?_⟩
  intro Sv hf hn
  have haft := after _ _ _ hi hbs
  have hpb := after_problem _ S _ ob _ _ haft ho
  have hf' : FindsPoint l.ctrl.obj Sv := by
    intro pb hpb' a ⟨w, hw⟩
    rw [after_feasible _ S _ ob _ haft] at hw ⊢
    have := hf pb (hpb ▸ hpb') a ⟨w, (after_feasible _ S _ ob _ ho _ _).2 hw⟩
    rwa [after_feasible _ S _ ob _ ho] at this
  have key := turn_feasible T m E hst S ops ob nEps hT sops x0 u0 (es1 ++ es2) h l hi
  rw [hbs] at key
  obtain ⟨π, r, y, a1, a2, a3, a4, a5⟩ := key hp hP Sv hn hf' hadm
  exact ⟨_, y, a4, policy_safe m E S calls ob sops hp t _ _ π r y (hP.tvp t) a1 a2 a3 a5⟩

/-- **C112** (every turn): … so every turn in `es2` was a success: the log of the episode from there on has no failed turn, no input outside of its bounds and no state outside of
its bounds. -/
theorem C112_every_turn (S : MpcSettings) (m : DaeModel K d) (E : MpcEnv K d) (hst : ∀ s ∈ E.storeStats, s ∈ validStats) (ops : List (MpcOp K d))
    (hc : ∀ op ∈ ops, Configures op) (T : SimTools K d) (hT : DiscretePlant m T) (sops : List (SimOp K d)) (hsc : ∀ op ∈ sops, SimConfigures op)
    (hP : PredictsPlant sops E.tStep (lastOf settingsOf ops S).c (lastOf settingsOf ops S).nRobust E.tvpFun E.pFun)
    (hC : ConsistentTime E.tStep (lastOf settingsOf ops S).N (lastOf settingsOf ops S).c (lastOf settingsOf ops S).nRobust E.tvpFun E.pFun)
    (hrob : FullyRobust (lastOf settingsOf ops S))
    (nEps : Nat) (x0 : Vec K d.nx) (u0 : Vec K d.nu) (z0 : Vec K d.nz) (es1 es2 : List (LoopEv K d E.nLagr)) (he1 : ∀ e ∈ es1, FairEv e) :
    let mk := fun sx su sz => discreteIfcn m sx su sz 1
    let o1 := (MpcObj.new S : MpcObj K d).run mk ops
    let s1 := (SimObj.new : SimObj K d).run T sops
    let l0 := LiveLoop.start T E (o1.exec mk .setup).1 (s1.exec T .setup).1 nEps x0 u0 z0
    let calls := ops ++ boundsSet es1
    let o := (l0.run T mk E es1).ctrl.obj
    (o1.exec mk .setup).2 = none → (s1.exec T .setup).2 = none → ConstraintCalls S calls → SafeTerminal S calls m E.tvpFun E.pFun →
    (∀ e ∈ es2, SafeEv o E.storeStats e) →
      ∃ ob, lastOf (fun op => (objectiveOf op).map some) ops none = some ob ∧
        let h := l0.history T mk E es1
        let t := (turns h : K) * E.tStep
        ((∃ π, (configured S calls ob m ⟨lastOf plantState h x0, E.tvpFun t, E.pFun t, lastOf inputGiven h u0⟩).Admissible π) →
          ∀ e ∈ (l0.run T mk E es1).history T mk E es2, ∀ Sv, e.1 = .turn Sv →
            ∃ u y, e.2 = some (.ok (u, y)) ∧ InInputBounds calls u ∧ InStateBounds calls (asState y)) := by
  intro mk o1 s1 l0 calls o hs hss hp hS he2
  obtain ⟨ob, hob, -⟩ := loop_start T mk E S ops hc hs sops hsc hss hP.step nEps x0 u0 z0
  refine ⟨ob, hob, ?_⟩
  intro h t hπ e he Sv heq
  obtain ⟨i, hi, hie⟩ := List.getElem_of_mem he
  -- the history at position `i`
  have split : ∀ (es : List (LoopEv K d E.nLagr)) (l : LiveLoop K d) (i : Nat) (hi : i < (l.history T mk E es).length),
      ∃ hi' : i < es.length, (l.history T mk E es)[i] = (es[i], ((l.run T mk E (es.take i)).exec T mk E es[i]).2) := by
    intro es
    induction es with
    | nil => intro l i hi; simp [LiveLoop.history] at hi
    | cons e es ih =>
      intro l i hi
      cases i with
      | zero => exact ⟨by simp, rfl⟩
      | succ i =>
        obtain ⟨h1, h2⟩ := ih (l.exec T mk E e).1 i (by simpa [LiveLoop.history] using hi)
        exact ⟨by simpa using h1, by simpa [LiveLoop.history, LiveLoop.run] using h2⟩
  obtain ⟨hi', hrow⟩ := split es2 _ i hi
  rw [hie] at hrow
  have hturn : es2[i] = .turn Sv := by rw [hrow] at heq; exact heq
  obtain ⟨ob2, hob2, key⟩ := C112_for_ever S m E hst ops hc T hT sops hsc hP hC hrob nEps x0 u0 z0 es1 (es2.take i) he1 hs hss hp hS
    (fun e he => he2 e (List.mem_of_mem_take he))
  obtain rfl := Option.some.inj (hob.symm.trans hob2)
  have hsafe := he2 _ (List.getElem_mem hi')
  rw [hturn] at hsafe
  obtain ⟨u, y, k1, z, -, -, k2, -, k3, -⟩ := (key hπ).2 Sv hsafe.1 hsafe.2
  refine ⟨u, y, ?_, k2, ?_⟩
  · rw [hrow]
    simp only
    rw [hturn]
    have := loop_run_append T mk E es1 (es2.take i) l0
    rw [← this]
    exact congrArg some k1
  · split_ifs at k3 with hN
    · exact hS.inside _ k3
    · exact k3

/-! ## Non-vacuity -/
namespace LifecycleExample

/-- `x⁺ = x + u`, `x ≤ 7`, the constraint `x ≤ 1`, terminal bound `x ≤ 1` -/
def beforeS : List (MpcOp ℚ dm) := before ++ [.terminalBound .upper x0 (.fin 1)]
def loopS : LiveLoop ℚ dm := LiveLoop.start T E (((MpcObj.new S).run mkD beforeS).exec mkD .setup).1 (((SimObj.new).run T sops).exec T .setup).1 0 0 0 0
/-- a turn, a bound, a new episode from 0, a turn -/
def esS : List (LoopEv ℚ dm E.nLagr) := [.turn Sv, .ctrl (.config (.bound .upper (.x x0) (.fin 3))), .restart 0, .turn Sv]
def oS : MpcObj ℚ dm := (loopS.run T mkD E esS).ctrl.obj

open Classical in
/-- a solver that finds some point that satisfies the constraints if there is one -/
noncomputable def SvAny : Solver ℚ dm E.nLagr := fun _ a => ⟨if h : ∃ w, Spec.SolverFeasible oS w a.p then h.choose else wZero, fun i => i.elim0, [], []⟩

theorem SvAny_finds : FindsPoint oS SvAny := by
  intro pb _ a h
  have : (SvAny pb a).x = h.choose := dif_pos h
  rw [this]
  exact h.choose_spec

theorem SvAny_numbers : ReportsNumbers E.storeStats SvAny := fun _ _ s hs => by simp [SvAny] at hs

/-- a turn, a refused call, a guess, `solve()`, a turn -/
noncomputable def es2S : List (LoopEv ℚ dm E.nLagr) := [.turn SvAny, .sim (.setParam 2), .ctrl .guess, .ctrl (.solve Sv), .turn SvAny]

theorem terminalS (s : Side) (j : Fin dm.nx) : terminalWanted (beforeS ++ boundsSet esS) (lastOf settingsOf (beforeS ++ boundsSet esS) S) s j =
    match s with | .lower => .ninf | .upper => .fin 1 := by
  have hj : j = x0 := Subsingleton.elim (α := Fin 1) _ _
  subst hj
  unfold terminalWanted
  cases s with
  | lower => split_ifs <;> decide +kernel
  | upper =>
    rw [if_neg]
    · decide +kernel
    · rintro ⟨h, -⟩
      have := h x0
      revert this
      decide +kernel

theorem inTerminalS (x : Vec ℚ dm.nx) : InTerminalBounds S (beforeS ++ boundsSet esS) x ↔ x x0 ≤ 1 := by
  unfold InTerminalBounds
  constructor
  · intro h
    have := (h x0).2
    rw [terminalS] at this
    exact this
  · intro h j
    have hj : j = x0 := Subsingleton.elim (α := Fin 1) _ _
    subst hj
    rw [terminalS, terminalS]
    exact ⟨trivial, h⟩

theorem stateBoundsS (x : Vec ℚ dm.nx) : InStateBounds (beforeS ++ boundsSet esS) x ↔ x x0 ≤ 3 := by
  have h1 : lastOf (boundOf .lower (.x x0)) (beforeS ++ boundsSet esS) .ninf = (.ninf : Bound ℚ) := by decide +kernel
  have h2 : lastOf (boundOf .upper (.x x0)) (beforeS ++ boundsSet esS) .pinf = (.fin 3 : Bound ℚ) := by decide +kernel
  unfold InStateBounds
  constructor
  · intro h
    have := (h x0).2
    rw [h2] at this
    exact this
  · intro h j
    have hj : j = x0 := Subsingleton.elim (α := Fin 1) _ _
    subst hj
    rw [h1, h2]
    exact ⟨trivial, h⟩

theorem inputBoundsS (u : Vec ℚ dm.nu) : InInputBounds (beforeS ++ boundsSet esS) u := by
  intro j
  have hj : j = u0 := Subsingleton.elim (α := Fin 1) _ _
  subst hj
  have h1 : lastOf (boundOf .lower (.u u0)) (beforeS ++ boundsSet esS) .ninf = (.ninf : Bound ℚ) := by decide +kernel
  have h2 : lastOf (boundOf .upper (.u u0)) (beforeS ++ boundsSet esS) .pinf = (.pinf : Bound ℚ) := by decide +kernel
  rw [h1, h2]
  exact ⟨trivial, trivial⟩

theorem consS : (beforeS ++ boundsSet esS).filterMap nlConsOf = [hard] := rfl

theorem callsS : ConstraintCalls S (beforeS ++ boundsSet esS) where
  cpos := by decide
  horizon := by decide
  slack := rfl
  noColl := rfl
  noAlg := .inl rfl
  scaling := plainBefore.scaling
  names := by decide

theorem safeS : SafeTerminal S (beforeS ++ boundsSet esS) model E.tvpFun E.pFun where
  inside := fun x h => by
    rw [inTerminalS] at h
    rw [stateBoundsS]
    linarith
  noSlack := fun call hcall hs => by
    rw [consS, List.mem_singleton] at hcall
    subst hcall
    cases hs
  invariant := fun t x h => by
    refine ⟨0, inputBoundsS 0, fun r _ => ⟨fun i => i.elim0, funext fun i => i.elim0, fun j => j.elim0, ?_, ?_⟩⟩
    · intro call hcall i hi
      rw [consS, List.mem_singleton] at hcall
      subst hcall
      exact (inTerminalS x).1 h
    · rw [inTerminalS] at h ⊢
      show x x0 + 0 ≤ 1
      linarith

theorem admissibleS (ob' : Objective ℚ dm) (q : OptP ℚ dm) (hq : q.x0 x0 ≤ 1) : ∃ π, (configured S (beforeS ++ boundsSet esS) ob' model q).Admissible π := by
  refine ⟨⟨fun _ _ => q.x0, fun _ _ => 0, fun _ _ i => i.elim0, fun _ _ _ _ => 0⟩, ⟨rfl, ?_⟩, ?_, ?_, ?_, ?_, ?_, ?_, ?_⟩
  · intro k _ h _ r _
    refine ⟨funext fun i => i.elim0, ?_⟩
    funext i
    show q.x0 i = q.x0 i + 0
    rw [add_zero]
  · intro k _ _ h _
    exact (stateBoundsS q.x0).2 (by linarith)
  · intro h _
    exact (inTerminalS q.x0).2 hq
  · intro k _ h _
    exact inputBoundsS 0
  · intro k _ h _ j
    exact j.elim0
  · intro k _ h _ r _ call hcall i hi
    change call ∈ (beforeS ++ boundsSet esS).filterMap nlConsOf at hcall
    rw [consS, List.mem_singleton] at hcall
    subst hcall
    exact hq
  · intro k _ h _ call hcall hs
    change call ∈ (beforeS ++ boundsSet esS).filterMap nlConsOf at hcall
    rw [consS, List.mem_singleton] at hcall
    subst hcall
    cases hs
  · intro _ k _ h h' _ _
    rfl

/-- Non-vacuity of `C112_for_ever`, `C112_every_turn`: every hypothesis holds for these histories. -/
example : (∃ u y, ((loopS.run T mkD E (esS ++ es2S)).turn T E SvAny).2 = .ok (u, y) ∧
      ∃ z : Vec ℚ dm.nz, asState y = model.rhs (lastOf plantState (loopS.history T mkD E (esS ++ es2S)) 0) u z 0 0 0) ∧
    ∀ e ∈ (loopS.run T mkD E esS).history T mkD E es2S, ∀ Sv', e.1 = .turn Sv' → ∃ u y, e.2 = some (.ok (u, y)) ∧ asState y x0 ≤ 3 := by
  have hes : ∀ e ∈ esS, FairEv e := by
    intro e he
    simp only [esS, List.mem_cons, List.not_mem_nil, or_false] at he
    rcases he with rfl | rfl | rfl | rfl <;> trivial
  have hes2 : ∀ e ∈ es2S, SafeEv oS E.storeStats e := by
    intro e he
    simp only [es2S, List.mem_cons, List.not_mem_nil, or_false] at he
    rcases he with rfl | rfl | rfl | rfl | rfl
    · exact ⟨SvAny_finds, SvAny_numbers⟩
    · trivial
    · trivial
    · trivial
    · exact ⟨SvAny_finds, SvAny_numbers⟩
  have hP : PredictsPlant sops E.tStep (lastOf settingsOf beforeS S).c (lastOf settingsOf beforeS S).nRobust E.tvpFun E.pFun :=
    ⟨rfl, fun _ => rfl, fun t => ⟨0, by unfold MayOccur; rw [if_neg (by decide +kernel)]; rfl, rfl⟩⟩
  have hC : ConsistentTime E.tStep (lastOf settingsOf beforeS S).N (lastOf settingsOf beforeS S).c (lastOf settingsOf beforeS S).nRobust E.tvpFun E.pFun :=
    ⟨fun _ _ _ => rfl, fun _ _ _ => rfl⟩
  have hconf : ∀ op ∈ beforeS, Configures op := by simp [beforeS, before, Configures]
  have hx : lastOf plantState (loopS.history T mkD E esS) 0 = 0 := by decide +kernel
  have key : ∀ x : Vec ℚ dm.nx, x = 0 → x x0 ≤ 1 := by rintro x rfl; show (0 : ℚ) ≤ 1; norm_num
  constructor
  · obtain ⟨ob', -, h⟩ := C112_for_ever S model E (by simp [E]) beforeS hconf T plantT sops (by simp [sops, SimConfigures]) hP hC (.inl rfl) 0 0 0 0 esS es2S hes
      (by decide +kernel) (by decide +kernel) callsS safeS hes2
    obtain ⟨u, y, h1, z, -, h2, -⟩ := (h (admissibleS ob' _ (key _ hx))).2 SvAny SvAny_finds SvAny_numbers
    exact ⟨u, y, h1, z, h2⟩
  · obtain ⟨ob', -, h⟩ := C112_every_turn S model E (by simp [E]) beforeS hconf T plantT sops (by simp [sops, SimConfigures]) hP hC (.inl rfl) 0 0 0 0 esS es2S hes
      (by decide +kernel) (by decide +kernel) callsS safeS hes2
    intro e he Sv' hSv
    obtain ⟨u, y, h1, -, h2⟩ := h (admissibleS ob' _ (key _ hx)) e he Sv' hSv
    exact ⟨u, y, h1, (stateBoundsS _).1 h2⟩

end LifecycleExample
end DoMpc
