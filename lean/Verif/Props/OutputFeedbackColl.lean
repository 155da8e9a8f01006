import Verif.Spec.OutputFeedbackColl
import Verif.Props.OutputFeedback
import Verif.Props.GuaranteesColl

/-! # Property C82: controller and estimator of a continuous-time model together -/
set_option linter.unusedSectionVars false
namespace DoMpc
open Spec Polynomial
variable {K : Type} [Field K] [LinearOrder K] [IsStrictOrderedRing K] {d : Dims} {ne ns : Nat}
variable {s : Scheme K} {EM : MpcEnv K d} {ES : SimEnv K d} {EE : MheEnv K d ne ns}

/-- What happens in one iteration from a synchronised loop with a feasible point of the controller. -/
theorem sync_interval {pT : Vec K ne} {pG : Vec K ns} (hc : EM.cfg.OnScheme EM.model s) (hN : 0 < EM.cfg.N) (hP : ContinuousPlantFollows s EM ES)
    (hfit : EstimatorFitsColl EM ES EE pT pG) {S : Solvers EM EE} {l l1 : OutLoop K d ne ns} (hsync : SynchronisedColl s ES EE pT pG l)
    (h : OutLoop.step EM ES EE S l = some l1) (hf : EM.cfg.Feasible (S.mpc (l.asked EM)).x (l.asked EM).p) :
    ∃ P ζ, let un := EM.cfg.uPhys (S.mpc (l.asked EM)).x 0 0
      let tv := ES.tvpFun l.sim.t0
      let p := EE.cfg.cat pT pG
      s.Interval EM.model l.sim.x0 un tv p l1.sim.x0 P ζ ∧ Within EM.cfg.ulb EM.cfg.uub un ∧ s.AlgInside EM.cfg.consColloc EM.cfg.zlb EM.cfg.zub ζ ∧
      (if EM.cfg.N = 1 then Within EM.cfg.xtlb EM.cfg.xtub l1.sim.x0
        else Within EM.cfg.xlb EM.cfg.xub l1.sim.x0 ∧ (EM.cfg.consColloc = true → s.Inside EM.cfg.xlb EM.cfg.xub P)) ∧
      ConstraintsHold EM.cfg.nl l.sim.x0 un (ζ 0 0) tv p := by
  obtain ⟨hx, ht1, -, hwy, -⟩ := hsync
  obtain ⟨e1, e2, e3, e4, -⟩ := outloop_step hP.time hfit.stats hwy h
  have hq : (l.asked EM).p.x0 = l.sim.x0 := by
    funext i; simp [OutLoop.asked, Loop.asked, hx, List.getD_eq_getElem?_getD]
  obtain ⟨Q, hadm⟩ := C12_feasible_is_admissible_collocation hc _ _ hf
  obtain ⟨r, P, ζ, hr, hpr, hint, hsim, hub, hzb, hxb, hcon⟩ := one_interval (t := l.sim.t0) hc hN hP hf
    (by simp [OutLoop.asked, Loop.asked, ht1]) (by simp [OutLoop.asked, Loop.asked, ht1]) l.sim.simZ hadm ⟨rfl, rfl, rfl⟩
  rw [hq] at hint hsim hcon
  rw [hsim] at e4
  rw [← e4] at hint hxb
  rw [hfit.params] at hint hcon
  exact ⟨P, ζ, hint, hub, hzb, hxb, hcon⟩

/-- One iteration from a synchronised loop with a feasible point of the controller and a minimiser of the estimator. -/
theorem sync_step_coll {pT : Vec K ne} {pG : Vec K ns} (hc : EM.cfg.OnScheme EM.model s) (hNM : 0 < EM.cfg.N) (hP : ContinuousPlantFollows s EM ES)
    (hE : EE.cfg.CollPlain s.deg s.ni s.tau s.tStep) (hcost : EE.cfg.task.DefiniteCosts) (hobs : (EE.cfg.collTask s.deg s.ni s.tau s.tStep).InputsDetermined)
    (hfit : EstimatorFitsColl EM ES EE pT pG)
    {S : Solvers EM EE} {l l1 : OutLoop K d ne ns} (hsync : SynchronisedColl s ES EE pT pG l) (h : OutLoop.step EM ES EE S l = some l1)
    (hf : EM.cfg.Feasible (S.mpc (l.asked EM)).x (l.asked EM).p)
    (hs : ∀ a, OutLoop.estimatorAsked EM ES EE S l = some a → (∃ o, EE.cfg.Solves o a.p) → EE.cfg.Solves (S.mhe a).x a.p) :
    SynchronisedColl s ES EE pT pG l1 := by
  obtain ⟨Pn, ζn, hint, hub, hzb, hxb, hcon⟩ := sync_interval hc hNM hP hfit hsync h hf
  obtain ⟨hx, ht1, ht2, hwy, hp0, old, x, u, P, ζ, hrun, hxN, hprior, hold, hlog⟩ := hsync
  obtain ⟨e1, e2, e3, e4, e5, e6, e7, e8, e9, e10, e11, e12, e13⟩ := outloop_step hP.time hfit.stats hwy h
  generalize hu' : EM.cfg.uPhys (S.mpc (l.asked EM)).x 0 0 = un at *
  generalize hrr : ES.simulate l.sim.x0 l.sim.simZ un (ES.tvpFun l.sim.t0) (ES.pFun l.sim.t0) 0 = rr at *
  rw [← e4, hfit.params, hP.model] at e7 e8 e10 e11 e12
  have hN := hE.N
  set T := EE.cfg.collTask s.deg s.ni s.tau s.tStep with hTdef
  have hTm : T.model = EM.model := hfit.model
  -- the run over the whole window
  let tv' : Nat → Vec K d.ntv := fun k => ES.tvpFun (l.sim.t0 - ((EE.cfg.N - 1 - k : Nat) : K) * ES.tStep)
  let x' : Nat → Vec K d.nx := fun k => if k < EE.cfg.N then x k else l1.sim.x0
  let u' : Nat → Vec K d.nu := fun k => if k < EE.cfg.N - 1 then u k else un
  let P' : Nat → Nat → Fin d.nx → K[X] := fun k => if k < EE.cfg.N - 1 then P k else Pn
  let ζ' : Nat → Nat → Nat → Vec K d.nz := fun k => if k < EE.cfg.N - 1 then ζ k else ζn
  have htvN : tv' (EE.cfg.N - 1) = ES.tvpFun l.sim.t0 := by simp [tv']
  have hlast : ∀ k < EE.cfg.N, ¬ k < EE.cfg.N - 1 → k = EE.cfg.N - 1 := by intro k h1 h2; omega
  have hrun' : T.NoiseFree EE.cfg.N x' u' P' ζ' tv' pT pG := by
    refine ⟨?_, ?_, ?_, ?_, ?_, ?_, hrun.params⟩
    · intro k hk
      by_cases hl : k < EE.cfg.N - 1
      · have := hrun.dynamics k hl
        simp only [x', u', P', ζ', if_pos hl, if_pos hk, if_pos (show k + 1 < EE.cfg.N by omega)]
        exact this
      · have hk' := hlast k hk hl
        subst hk'
        simp only [x', u', P', ζ', lt_irrefl, if_false, if_pos hk, if_neg (show ¬ EE.cfg.N - 1 + 1 < EE.cfg.N by omega), htvN, hxN]
        rw [hTm]
        exact hint
    · intro k hk call hcall i hi
      by_cases hl : k < EE.cfg.N - 1
      · have := hrun.constraints k hl call hcall i hi
        simp only [x', u', ζ', if_pos hl, if_pos hk]
        exact this
      · have hk' := hlast k hk hl
        subst hk'
        simp only [x', u', ζ', lt_irrefl, if_false, if_pos hk, htvN, hxN]
        exact hfit.constraints _ _ _ _ _ hcon call hcall i hi
    · intro k hk
      by_cases hl : k < EE.cfg.N
      · simp only [x', if_pos hl]; exact hrun.states k (by omega)
      · simp only [x', if_neg hl]
        split_ifs at hxb with h1
        · exact hfit.terminal h1 _ hxb
        · exact hfit.states _ hxb.1
    · intro k hk i hi j hj hij
      by_cases hl : k < EE.cfg.N - 1
      · simp only [P', if_pos hl]; exact hrun.inside k hl i hi j hj hij
      · simp only [P', if_neg hl]
        by_cases h1 : EM.cfg.N = 1
        · exact hfit.between (Or.inl h1) _
        · cases h2 : EM.cfg.consColloc with
          | false => exact hfit.between (Or.inr h2) _
          | true =>
            rw [if_neg h1] at hxb
            exact hfit.states _ (hxb.2 h2 i hi j hj hij)
    · intro k hk i hi j hj
      by_cases hl : k < EE.cfg.N - 1
      · simp only [ζ', if_pos hl]; exact hrun.algebraic k hl i hi j hj
      · simp only [ζ', if_neg hl]
        cases h2 : EM.cfg.consColloc with
        | false => exact hfit.algBetween h2 _
        | true => exact hfit.algebraic _ (hzb i hi j hj (Or.inl h2))
    · intro k hk
      by_cases hl : k < EE.cfg.N - 1
      · simp only [u', if_pos hl]; exact hrun.inputs k hl
      · simp only [u', if_neg hl]; exact hfit.inputs _ hub
  have hmeas' : ∀ k < EE.cfg.N - 1, T.measuredAt x' u' ζ' tv' pT pG k = T.measuredAt x u ζ tv' pT pG k := by
    intro k hk
    simp only [CollEstimation.measuredAt, x', u', ζ', if_pos hk, if_pos (show k + 1 < EE.cfg.N by omega)]
  have hmeasN : T.measuredAt x' u' ζ' tv' pT pG (EE.cfg.N - 1) =
      EM.model.meas l1.sim.x0 un rr.2 (ES.tvpFun l.sim.t0) (EE.cfg.cat pT pG) 0 := by
    simp only [CollEstimation.measuredAt, x', u', ζ', lt_irrefl, if_false, if_neg (show ¬ EE.cfg.N - 1 + 1 < EE.cfg.N by omega), htvN]
    rw [← hfit.model]
    exact hE.meas _ _ _ _ _ _ _
  rw [← hmeasN] at e7 e8 e10 e11 e12
  -- the estimator's problem
  have hlog' : l.mhe.data.rows "_y" = old ++ (List.range (EE.cfg.N - 1)).map fun k => List.ofFn (T.measuredAt x' u' ζ' tv' pT pG k) := by
    rw [hlog]
    congr 1
    apply List.map_congr_left
    intro k hk
    rw [hmeas' k (List.mem_range.mp hk)]
  set a := EE.args l.mhe (List.ofFn (T.measuredAt x' u' ζ' tv' pT pG (EE.cfg.N - 1))) with haa
  obtain ⟨hep, heX⟩ := EE.exact_call hN hfit.measurements x' (T.measuredAt x' u' ζ' tv' pT pG) tv' pT pG l.mhe old hlog'
    (by simp only [x', if_pos hN]; exact hprior) hp0 (fun k hk => by rw [hfit.tvp _ k hk, ht2]) (hfit.given _)
    (by
      intro q q1 q2 q3 q4 q5
      have hle : 0 + T.N ≤ EE.cfg.N := by rw [Nat.zero_add]; exact le_rfl
      have q4' : ∀ k < T.N, q.toData.tvp k = tv' (0 + k) := fun k hk => by rw [Nat.zero_add]; exact q4 k hk
      have q5' : ∀ k < T.N, q.toData.y k = T.measuredAt x' u' ζ' tv' pT pG (0 + k) := fun k hk => by rw [Nat.zero_add]; exact q5 k hk
      obtain ⟨b1, b2, -⟩ := C80_minimiser_is_best hE q
      refine ⟨⟨_, b2 (truthColl 0 x' u' P' ζ' pT) ?_⟩, fun o ho => ?_⟩
      · obtain ⟨t1, t2⟩ := truthColl_admissible T hcost x' u' P' ζ' tv' pT pG _ hrun' 0 hle q.toData q1 q2 q3 q4' q5'
        exact ⟨t1, fun e' he' => by rw [t2]; exact explanationCost_nonneg _ hcost _ e' he'⟩
      · obtain ⟨Q, hQ⟩ := b1 o ho
        have := exact_window_coll T hcost hobs x' u' P' ζ' tv' pT pG _ hrun' 0 hle q.toData q1 q2 q3 q4' q5' _ hQ
        simp only [Nat.zero_add] at this
        exact this) S.mhe (hs a e7)
  have htv' : ∀ k < EE.cfg.N - 1, ES.tvpFun (l1.sim.t0 - ((EE.cfg.N - 1 - k : Nat) : K) * ES.tStep) = tv' (k + 1) := by
    intro k hk
    show _ = ES.tvpFun _
    congr 1
    obtain ⟨j, hj⟩ : ∃ j, EE.cfg.N - 1 - k = j + 1 := ⟨EE.cfg.N - 1 - k - 1, by omega⟩
    have hj' : EE.cfg.N - 1 - (k + 1) = j := by omega
    rw [hj, hj', e2]
    push_cast; ring
  have hmeas'' : ∀ k < EE.cfg.N - 1, T.measuredAt (fun k => x' (k + 1)) (fun k => u' (k + 1)) (fun k => ζ' (k + 1))
      (fun k => ES.tvpFun (l1.sim.t0 - ((EE.cfg.N - 1 - k : Nat) : K) * ES.tStep)) pT pG k = T.measuredAt x' u' ζ' tv' pT pG (k + 1) := by
    intro k hk
    simp only [CollEstimation.measuredAt, htv' k hk]
  refine ⟨?_, ?_, ?_, e13, ?_, ?_⟩
  · rw [e8, heX _ le_rfl]; simp [x']
  · rw [e1, e2, ht1]
  · rw [e9, e2, ht2, hfit.time]
  · rw [e11]; exact hep
  · refine ⟨old ++ [List.ofFn (T.measuredAt x' u' ζ' tv' pT pG 0)], fun k => x' (k + 1), fun k => u' (k + 1), fun k => P' (k + 1), fun k => ζ' (k + 1),
      ?_, ?_, ?_, ?_, ?_⟩
    · refine ⟨?_, ?_, fun k hk => hrun'.states _ (by omega), fun k hk => hrun'.inside _ (by omega), fun k hk => hrun'.algebraic _ (by omega),
        fun k hk => hrun'.inputs _ (by omega), hrun'.params⟩
      · intro k hk
        rw [htv' k hk]
        exact hrun'.dynamics (k + 1) (by omega)
      · intro k hk
        rw [htv' k hk]
        exact hrun'.constraints (k + 1) (by omega)
    · have : EE.cfg.N - 1 + 1 = EE.cfg.N := by omega
      simp [x', this]
    · rw [e10, heX 1 hN]
    · intro y hy
      rcases List.mem_append.mp hy with h | h
      · exact hold y h
      · rw [List.mem_singleton.mp h]; simp
    · rw [e12, hlog']
      have h3 : ∀ (Y : Nat → List K) (n : Nat), (List.range n).map Y ++ [Y n] = Y 0 :: (List.range n).map (fun k => Y (k + 1)) := by
        intro Y n
        have := congrArg (List.map Y) (List.range_succ (n := n))
        rw [List.map_append, List.map_singleton] at this
        rw [← this, List.range_succ_eq_map, List.map_cons, List.map_map]
        rfl
      rw [List.append_assoc, h3 (fun k => List.ofFn (T.measuredAt x' u' ζ' tv' pT pG k)), List.append_assoc]
      show _ = old ++ (_ :: _)
      congr 2
      apply List.map_congr_left
      intro k hk
      rw [← hmeas'' k (List.mem_range.mp hk)]

/-- **C82** (partial: measurements that do not depend on the algebraic states, as in C80): controller, simulator without noise and moving horizon estimator of the same continuous-time model in a loop of
any length, started synchronised.  If the controller's solver returns feasible points and the estimator's solver finds global minimisers of definite costs, then every
estimate is exactly the plant's state and parameters, the trajectory in the simulator's log follows the model's collocation polynomials, and the controller's bounds and
constraints hold along it. -/
theorem C82_output_feedback_partial {pT : Vec K ne} {pG : Vec K ns} (hc : EM.cfg.OnScheme EM.model s) (hNM : 0 < EM.cfg.N) (hP : ContinuousPlantFollows s EM ES)
    (hE : EE.cfg.CollPlain s.deg s.ni s.tau s.tStep) (hcost : EE.cfg.task.DefiniteCosts) (hobs : (EE.cfg.collTask s.deg s.ni s.tau s.tStep).InputsDetermined)
    (hfit : EstimatorFitsColl EM ES EE pT pG)
    (Ss : List (Solvers EM EE)) (l l' : OutLoop K d ne ns) (hsync : SynchronisedColl s ES EE pT pG l) (hrun : OutLoop.iterate EM ES EE Ss l = some l')
    (hfeas : ControllerFeasible EM ES EE Ss l) (hsol : EstimatorSolves EM ES EE Ss l) :
    (∀ i ≤ Ss.length, ∀ li, OutLoop.iterate EM ES EE (Ss.take i) l = some li → li.x = List.ofFn li.sim.x0 ∧ li.mhe.pEst0 = pT) ∧
    ∃ (x : Nat → Vec K d.nx) (u : Nat → Vec K d.nu) (P : Nat → Nat → Fin d.nx → K[X]) (ζ : Nat → Nat → Nat → Vec K d.nz),
      x 0 = l.sim.x0 ∧ x Ss.length = l'.sim.x0 ∧
      l'.sim.data.rows "_x" = l.sim.data.rows "_x" ++ (List.range Ss.length).map (fun i => List.ofFn (x i)) ∧
      l'.sim.data.rows "_u" = l.sim.data.rows "_u" ++ (List.range Ss.length).map (fun i => List.ofFn (u i)) ∧
      ∀ i < Ss.length,
        let tv := ES.tvpFun (l.sim.t0 + i * ES.tStep)
        let p := EE.cfg.cat pT pG
        s.Interval EM.model (x i) (u i) tv p (x (i + 1)) (P i) (ζ i) ∧
        Within EM.cfg.ulb EM.cfg.uub (u i) ∧ s.AlgInside EM.cfg.consColloc EM.cfg.zlb EM.cfg.zub (ζ i) ∧
        (if EM.cfg.N = 1 then Within EM.cfg.xtlb EM.cfg.xtub (x (i + 1))
          else Within EM.cfg.xlb EM.cfg.xub (x (i + 1)) ∧ (EM.cfg.consColloc = true → s.Inside EM.cfg.xlb EM.cfg.xub (P i))) ∧
        ConstraintsHold EM.cfg.nl (x i) (u i) (ζ i 0 0) tv p := by
  induction Ss generalizing l with
  | nil =>
    simp only [OutLoop.iterate, Option.some.injEq] at hrun
    subst hrun
    refine ⟨?_, fun _ => l.sim.x0, fun _ => 0, fun _ _ _ => 0, fun _ _ _ => 0, rfl, rfl, by simp, by simp, fun i hi => by simp at hi⟩
    intro i _ li hli
    simp only [List.take_nil, OutLoop.iterate, Option.some.injEq] at hli
    subst hli
    exact ⟨hsync.1, hsync.2.2.2.2.1⟩
  | cons S Ss ih =>
    simp only [OutLoop.iterate, Option.bind_eq_some_iff] at hrun
    obtain ⟨l1, h1, h2⟩ := hrun
    have hf0 := hfeas 0 (by simp) l (by simp [OutLoop.iterate])
    have hs0 := hsol 0 (by simp) l (by simp [OutLoop.iterate])
    simp only [List.getElem_cons_zero] at hf0 hs0
    have hsync1 := sync_step_coll hc hNM hP hE hcost hobs hfit hsync h1 hf0 hs0
    obtain ⟨b1, x, u, P, ζ, a1, a2, a3, a4, a5⟩ := ih l1 hsync1 h2 (controllerFeasible_tail hfeas h1) (estimatorSolves_tail hsol h1)
    obtain ⟨Pn, ζn, hint⟩ := sync_interval hc hNM hP hfit hsync h1 hf0
    obtain ⟨hx, ht1, -, hwy, -⟩ := id hsync
    obtain ⟨e1, e2, e3, e4, e5, e6, -⟩ := outloop_step hP.time hfit.stats hwy h1
    refine ⟨?_, fun i => Nat.casesOn i l.sim.x0 x, fun i => Nat.casesOn i (EM.cfg.uPhys (S.mpc (l.asked EM)).x 0 0) u, fun i => Nat.casesOn i Pn P,
      fun i => Nat.casesOn i ζn ζ, rfl, a2, ?_, ?_, ?_⟩
    · intro i hi li hli
      cases i with
      | zero =>
        simp only [List.take_zero, OutLoop.iterate, Option.some.injEq] at hli
        subst hli
        exact ⟨hsync.1, hsync.2.2.2.2.1⟩
      | succ i =>
        simp only [List.take_succ_cons, OutLoop.iterate, Option.bind_eq_some_iff] at hli
        obtain ⟨l1', h1', hli⟩ := hli
        rw [h1] at h1'
        cases h1'
        exact b1 i (by simpa using hi) li hli
    · rw [a3, e5, List.length_cons, List.range_succ_eq_map]
      simp [Function.comp_def]
    · rw [a4, e6, List.length_cons, List.range_succ_eq_map]
      simp [Function.comp_def]
    · intro i hi
      cases i with
      | zero =>
        dsimp only
        rw [a1]
        simp only [Nat.cast_zero, zero_mul, add_zero]
        exact hint
      | succ i =>
        have := a5 i (by simpa using hi)
        rw [e2] at this
        have e : l.sim.t0 + ES.tStep + (i : K) * ES.tStep = l.sim.t0 + ((i + 1 : Nat) : K) * ES.tStep := by push_cast; ring
        rw [e] at this
        exact this

/-- A feasible plan for the current problem yields one for the next, whatever the plant does (nominal controller). -/
theorem nominal_next_coll (hc : EM.cfg.OnScheme EM.model s) (hN : 0 < EM.cfg.N) (hnom : EM.cfg.nRobust = 0)
    (hP : ContinuousPlantFollows s EM ES) (hcon : ConsistentPredictions EM) (hT : InvariantTerminalSetAlong s EM)
    (hover : EM.cfg.consColloc = false ∨ ∀ t, NoOvershoot s EM.cfg EM.model (EM.tvpFun t (EM.cfg.N - 1)) (EM.pFun t 0))
    {w : OptX K d} {q : OptP K d} (hf : EM.cfg.Feasible w q) {t : K}
    (htv : q.tvp = EM.tvpFun t) (hp : q.p = EM.pFun t) (z0 : Vec K d.nz) (v : Vec K d.nu) :
    ∃ w', EM.cfg.Feasible w' ⟨(ES.simulate q.x0 z0 (EM.cfg.uPhys w 0 0) (ES.tvpFun t) (ES.pFun t) 0).1, EM.tvpFun (t + EM.tStep), EM.pFun (t + EM.tStep), v⟩ := by
  obtain ⟨Q, hadm⟩ := C12_feasible_is_admissible_collocation hc _ _ hf
  obtain ⟨r, P0, ζ0, hr, hpr, hint, hsim, -⟩ := one_interval (t := t) hc hN hP hf htv hp z0 hadm ⟨rfl, rfl, rfl⟩
  have hext : extend EM.cfg.nRobust 0 [] r = [] := by rw [hnom]; exact extend_zero _ _ _
  rw [hsim, hext]
  obtain ⟨u, x', P, ζ, hk⟩ := hT.invariant t _ (hadm.terminal [] (by
    show IsHistory EM.cfg.c EM.cfg.nRobust EM.cfg.N []
    rw [hnom]; exact isHistory_zero.mpr rfl))
  exact ⟨_, (admissible_is_feasible_coll hc _ _ (shiftColl_admissible hnom hN hcon t (fun h => hover.resolve_left (by rw [h]; simp) t) hT.inside hT.noSlack
    q _ htv hp rfl rfl _ hadm rfl u x' P ζ hk)).1⟩

/-- The same for the multi-stage controller. -/
theorem robust_next_coll (hc : EM.cfg.OnScheme EM.model s) (hrob : EM.cfg.N ≤ EM.cfg.nRobust) (hN : 0 < EM.cfg.N)
    (hol : EM.cfg.openLoop = false) (hP : ContinuousPlantFollows s EM ES) (hcon : ConsistentRealisations EM) (hT : RobustInvariantTerminalSetAlong s EM)
    (hover : EM.cfg.consColloc = false ∨ ∀ t, ∀ r < EM.cfg.c, NoOvershoot s EM.cfg EM.model (EM.tvpFun t (EM.cfg.N - 1)) (EM.pFun t r))
    {w : OptX K d} {q : OptP K d} (hf : EM.cfg.Feasible w q) {t : K} (htv : q.tvp = EM.tvpFun t) (hp : q.p = EM.pFun t) (z0 : Vec K d.nz) (v : Vec K d.nu) :
    ∃ w', EM.cfg.Feasible w' ⟨(ES.simulate q.x0 z0 (EM.cfg.uPhys w 0 0) (ES.tvpFun t) (ES.pFun t) 0).1, EM.tvpFun (t + EM.tStep), EM.pFun (t + EM.tStep), v⟩ := by
  obtain ⟨Q, hadm⟩ := C12_feasible_is_admissible_collocation hc _ _ hf
  obtain ⟨r, P0, ζ0, hr, hpr, hint, hsim, -⟩ := one_interval (t := t) hc hN hP hf htv hp z0 hadm ⟨rfl, rfl, rfl⟩
  have hr' : r < EM.cfg.c := by
    unfold MayOccur at hr; rw [if_pos (by omega)] at hr; exact hr
  have hext : extend EM.cfg.nRobust 0 [] r = [r] := by unfold extend; rw [if_pos (by omega)]; rfl
  rw [hsim, hext]
  have hinv := hT.invariant t
  choose! κ hκ using hinv
  choose! xe Pe ζe hζ using hκ
  exact ⟨_, (admissible_is_feasible_coll hc _ _
      (shiftRobustColl_admissible hrob hN hol hcon t (fun h => hover.resolve_left (by rw [h]; simp) _) hT.inside hT.noSlack κ xe Pe ζe hζ hc.cpos
        q _ htv hp rfl rfl _ hadm r hr' rfl)).1⟩

/-- **C82** (recursive feasibility, partial: as C77): nominal controller and estimator of a continuous-time model.  With a control invariant terminal set, feasibility of the first
problem is enough for the whole loop. -/
theorem C82_recursive_feasibility_partial {pT : Vec K ne} {pG : Vec K ns} (hc : EM.cfg.OnScheme EM.model s) (hNM : 0 < EM.cfg.N) (hnom : EM.cfg.nRobust = 0)
    (hP : ContinuousPlantFollows s EM ES) (hcon : ConsistentPredictions EM) (hT : InvariantTerminalSetAlong s EM)
    (hover : EM.cfg.consColloc = false ∨ ∀ t, NoOvershoot s EM.cfg EM.model (EM.tvpFun t (EM.cfg.N - 1)) (EM.pFun t 0))
    (hE : EE.cfg.CollPlain s.deg s.ni s.tau s.tStep) (hcost : EE.cfg.task.DefiniteCosts) (hobs : (EE.cfg.collTask s.deg s.ni s.tau s.tStep).InputsDetermined)
    (hfit : EstimatorFitsColl EM ES EE pT pG)
    (Ss : List (Solvers EM EE)) (hS : ∀ S ∈ Ss, FindsFeasible EM.cfg S.mpc) (l l' : OutLoop K d ne ns) (hsync : SynchronisedColl s ES EE pT pG l)
    (hrun : OutLoop.iterate EM ES EE Ss l = some l') (hsol : EstimatorSolves EM ES EE Ss l) (h0 : ∃ w, EM.cfg.Feasible w (l.asked EM).p) :
    ControllerFeasible EM ES EE Ss l ∧ ∃ w, EM.cfg.Feasible w (l'.asked EM).p :=
  outloop_feasible_of (SynchronisedColl s ES EE pT pG) hP.time hfit.stats (fun _ h => ⟨h.1, h.2.1, h.2.2.2.1⟩)
    (fun _ _ _ h1 h2 h3 h4 => sync_step_coll hc hNM hP hE hcost hobs hfit h1 h2 h3 h4)
    (fun _ _ _ z0 v hf htv hp => nominal_next_coll hc hNM hnom hP hcon hT hover hf htv hp z0 v) Ss hS l l' hsync hrun hsol h0

/-- **C82** (recursive feasibility, multi-stage controller with `n_robust = n_horizon`; partial as C77): the plant's unknown parameter is one of the realisations. -/
theorem C82_robust_recursive_feasibility_partial {pT : Vec K ne} {pG : Vec K ns} (hc : EM.cfg.OnScheme EM.model s) (hrob : EM.cfg.N ≤ EM.cfg.nRobust)
    (hNM : 0 < EM.cfg.N) (hol : EM.cfg.openLoop = false)
    (hP : ContinuousPlantFollows s EM ES) (hcon : ConsistentRealisations EM) (hT : RobustInvariantTerminalSetAlong s EM)
    (hover : EM.cfg.consColloc = false ∨ ∀ t, ∀ r < EM.cfg.c, NoOvershoot s EM.cfg EM.model (EM.tvpFun t (EM.cfg.N - 1)) (EM.pFun t r))
    (hE : EE.cfg.CollPlain s.deg s.ni s.tau s.tStep) (hcost : EE.cfg.task.DefiniteCosts) (hobs : (EE.cfg.collTask s.deg s.ni s.tau s.tStep).InputsDetermined)
    (hfit : EstimatorFitsColl EM ES EE pT pG)
    (Ss : List (Solvers EM EE)) (hS : ∀ S ∈ Ss, FindsFeasible EM.cfg S.mpc) (l l' : OutLoop K d ne ns) (hsync : SynchronisedColl s ES EE pT pG l)
    (hrun : OutLoop.iterate EM ES EE Ss l = some l') (hsol : EstimatorSolves EM ES EE Ss l) (h0 : ∃ w, EM.cfg.Feasible w (l.asked EM).p) :
    ControllerFeasible EM ES EE Ss l ∧ ∃ w, EM.cfg.Feasible w (l'.asked EM).p :=
  outloop_feasible_of (SynchronisedColl s ES EE pT pG) hP.time hfit.stats (fun _ h => ⟨h.1, h.2.1, h.2.2.2.1⟩)
    (fun _ _ _ h1 h2 h3 h4 => sync_step_coll hc hNM hP hE hcost hobs hfit h1 h2 h3 h4)
    (fun _ _ _ z0 v hf htv hp => robust_next_coll hc hrob hNM hol hP hcon hT hover hf htv hp z0 v) Ss hS l l' hsync hrun hsol h0

end DoMpc
