import Verif.Spec.OutputFeedback
import Verif.Props.RobustFeasibility

/-! # Property C75: controller and estimator together -/
set_option linter.unusedSectionVars false
namespace DoMpc
open Spec
variable {K : Type} [Field K] [LinearOrder K] [IsStrictOrderedRing K] {d : Dims} {ne ns : Nat}
variable {EM : MpcEnv K d} {ES : SimEnv K d} {EE : MheEnv K d ne ns}

/-- One iteration of the loop. -/
theorem outloop_step (ht : EM.tStep = ES.tStep) (hw : ∀ s ∈ EE.storeStats, s ∈ validStats)
    {S : Solvers EM EE} {l l1 : OutLoop K d ne ns} (hwy : l.mhe.data.width "_y" = some d.ny) (h : OutLoop.step EM ES EE S l = some l1) :
    let w := (S.mpc (l.asked EM)).x
    let u := EM.cfg.uPhys w 0 0
    let r := ES.simulate l.sim.x0 l.sim.simZ u (ES.tvpFun l.sim.t0) (ES.pFun l.sim.t0) 0
    let y := ES.model.meas r.1 u r.2 (ES.tvpFun l.sim.t0) (ES.pFun l.sim.t0) 0
    let a := EE.args l.mhe (List.ofFn y)
    l1.mpc.t0 = l.mpc.t0 + ES.tStep ∧ l1.sim.t0 = l.sim.t0 + ES.tStep ∧ l1.mpc.u0 = u ∧ l1.sim.x0 = r.1 ∧
    l1.sim.data.rows "_x" = l.sim.data.rows "_x" ++ [List.ofFn l.sim.x0] ∧ l1.sim.data.rows "_u" = l.sim.data.rows "_u" ++ [List.ofFn u] ∧
    OutLoop.estimatorAsked EM ES EE S l = some a ∧
    l1.x = List.ofFn (EE.cfg.X (S.mhe a).x EE.cfg.N) ∧ l1.mhe.t0 = l.mhe.t0 + EE.tStep ∧ l1.mhe.optX = (S.mhe a).x ∧
    l1.mhe.pEst0 = EE.cfg.pEstPhys (S.mhe a).x ∧ l1.mhe.data.rows "_y" = l.mhe.data.rows "_y" ++ [List.ofFn y] ∧
    l1.mhe.data.width "_y" = some d.ny := by
  unfold OutLoop.step at h
  unfold OutLoop.estimatorAsked
  split at h
  · simp at h
  · rename_i m' u hmpc
    split at h
    · simp at h
    · rename_i s' y hsim
      split at h
      · simp at h
      · rename_i e' xh hmhe
        simp only [Option.some.injEq] at h
        have hstep : Loop.step EM ES S.mpc ⟨l.mpc, l.sim, l.x⟩ = some ⟨m', s', List.ofFn y⟩ := by
          simp [Loop.step, hmpc, hsim, stateFeedback]
        obtain ⟨hl, hset, hu, hup, hst'⟩ := makeStep_ok EM S.mpc l.mpc l.x u (by rw [hmpc])
        obtain ⟨hset2, hy, hup2, hst2'⟩ := simStep_ok ES l.sim _ y (by rw [hsim])
        rw [hmpc] at hst'
        rw [hsim] at hst2'
        simp only at hst' hst2'
        have hr2 := fun k => C17_update_appends _ _ hup2 k
        have hask : l.asked EM = ⟨l.mpc.optX, ⟨fun i => l.x.get (i.cast hl.symm), EM.tvpFun l.mpc.t0, EM.pFun l.mpc.t0, l.mpc.u0⟩,
            if l.mpc.initialRun then some (l.mpc.lamG, l.mpc.lamX) else none⟩ := by
          unfold OutLoop.asked Loop.asked
          congr 2
          funext i
          rw [List.getD_eq_getElem?_getD, List.getElem?_eq_getElem (by rw [hl]; exact i.2)]
          rfl
        rw [← hask] at hu
        have hd2 := congrArg SimSt.data hst2'
        dsimp only at hd2
        rw [argument_ofFn] at hst2'
        simp only [argument_ofFn, argument_none] at hy hst2'
        have hm := EE.makeStep_ok S.mhe l.mhe (List.ofFn y) xh hwy (by rw [hmhe])
        have hdat := EE.makeStep_data hw S.mhe l.mhe (List.ofFn y) xh hwy (by rw [hmhe])
        rw [hmhe] at hm hdat
        obtain ⟨-, m2, m3⟩ := hm
        dsimp only at m2 m3 hdat
        obtain ⟨d1, -, -, -, -, -, d7⟩ := hdat
        subst h
        dsimp only
        rw [← hu, ← hy]
        refine ⟨?_, ?_, ?_, ?_, ?_, ?_, rfl, ?_, ?_, ?_, ?_, d1, d7⟩
        · rw [hst', ht]
        · rw [hst2']
        · rw [hst']
        · rw [hst2']
        · rw [hd2, hr2]; simp [given, PyVal.vec]
        · rw [hd2, hr2]; simp [given, PyVal.vec, argument_ofFn]
        · rw [m2]; rfl
        · rw [m3]
        · rw [m3]
        · rw [m3]

/-- One call of the estimator on a window of exact data: if exact data determine the minimiser, the call finds it. -/
theorem MheEnv.exact_call (E : MheEnv K d ne ns) (hN : 0 < E.cfg.N) (hy : E.yFun = none) (x : Nat → Vec K d.nx) (Y : Nat → Vec K d.ny) (tv : Nat → Vec K d.ntv)
    (pT : Vec K ne) (pG : Vec K ns) (st : MheSt K d ne ns) (old : List (List K))
    (hlog : st.data.rows "_y" = old ++ (List.range (E.cfg.N - 1)).map fun k => List.ofFn (Y k))
    (hx0 : E.cfg.X st.optX 1 = x 0) (hp0 : st.pEst0 = pT) (htv : ∀ k < E.cfg.N, E.tvpFun st.t0 k = tv k) (hpG : E.pFun st.t0 = pG)
    (hwin : ∀ q : MheP K d ne ns, q.xPrev = x 0 → q.pEstPrev = pT → q.pSet = pG → (∀ k < E.cfg.N, q.tvp k = tv k) → (∀ k < E.cfg.N, q.yMeas k = Y k) →
      (∃ o, E.cfg.Solves o q) ∧ ∀ o, E.cfg.Solves o q → E.cfg.pEstPhys o = pT ∧ ∀ k ≤ E.cfg.N, E.cfg.X o k = x k)
    (S : MheArgs K d ne ns → MheResult K d ne E.nLagr)
    (hs : (∃ o, E.cfg.Solves o (E.args st (List.ofFn (Y (E.cfg.N - 1)))).p) →
      E.cfg.Solves (S (E.args st (List.ofFn (Y (E.cfg.N - 1))))).x (E.args st (List.ofFn (Y (E.cfg.N - 1)))).p) :
    E.cfg.pEstPhys (S (E.args st (List.ofFn (Y (E.cfg.N - 1))))).x = pT ∧
      ∀ k ≤ E.cfg.N, E.cfg.X (S (E.args st (List.ofFn (Y (E.cfg.N - 1))))).x k = x k := by
  set a := E.args st (List.ofFn (Y (E.cfg.N - 1))) with haa
  have hyM : ∀ k < E.cfg.N, a.p.yMeas k = Y k := by
    intro k hk
    have hne : st.data.rows "_y" ++ [List.ofFn (Y (E.cfg.N - 1))] ≠ [] := by simp
    have h1 : a.p.yMeas = defaultYFun E.cfg.N (st.data.rows "_y" ++ [List.ofFn (Y (E.cfg.N - 1))]) st.yTmpl := by
      show E.yTraj _ _ _ = _
      unfold MheEnv.yTraj
      rw [hy]
    have h2 : st.data.rows "_y" ++ [List.ofFn (Y (E.cfg.N - 1))] =
        (old ++ (List.range (E.cfg.N - 1)).map fun k => List.ofFn (Y k)) ++
          (List.range (0 + 1)).map fun j => List.ofFn (Y (E.cfg.N - 1 + j)) := by
      rw [hlog]; rfl
    rw [h1, defaultYFun_eq _ _ hne _ _ hk, h2, window_full E.cfg.N hN old (fun k => List.ofFn (Y k)) 0]
    apply List.ofFn_injective
    simp only [List.getD_eq_getElem?_getD, List.getElem?_map, List.getElem?_range hk, Option.map_some, Option.getD_some, Nat.zero_add]
    exact ofFn_rowVec _ (by simp)
  obtain ⟨w1, w2⟩ := hwin a.p hx0 hp0 hpG htv hyM
  exact w2 _ (hs w1)

/-- One iteration from a synchronised loop with a feasible point of the controller and a minimiser of the estimator. -/
theorem sync_step {pT : Vec K ne} {pG : Vec K ns} (hc : EM.cfg.Plain EM.model) (hz : EM.cfg.NoAlgBranching) (hP : PlantFollows EM ES)
    (hE : EE.cfg.Plain) (hcost : EE.cfg.task.DefiniteCosts) (hobs : EE.cfg.task.InputsObserved) (hfit : EstimatorFits EM ES EE pT pG)
    {S : Solvers EM EE} {l l1 : OutLoop K d ne ns} (hsync : Synchronised ES EE pT pG l) (h : OutLoop.step EM ES EE S l = some l1)
    (hf : EM.cfg.Feasible (S.mpc (l.asked EM)).x (l.asked EM).p)
    (hs : ∀ a, OutLoop.estimatorAsked EM ES EE S l = some a → (∃ o, EE.cfg.Solves o a.p) → EE.cfg.Solves (S.mhe a).x a.p) : Synchronised ES EE pT pG l1 := by
  obtain ⟨hx, ht1, ht2, hwy, hp0, old, x, u, z, hrun, hxN, hprior, hold, hlog⟩ := hsync
  obtain ⟨e1, e2, e3, e4, e5, e6, e7, e8, e9, e10, e11, e12, e13⟩ := outloop_step hP.time hfit.stats hwy h
  have hq : (l.asked EM).p.x0 = l.sim.x0 := by
    funext i; simp [OutLoop.asked, Loop.asked, hx, List.getD_eq_getElem?_getD]
  obtain ⟨r, zz, hr, hpr, -, ha, hsim, hrhs, hub, hzb, hxb, hcon⟩ := one_step (t := l.sim.t0) hc hz hP hf
    (by simp [OutLoop.asked, Loop.asked, ht1]) (by simp [OutLoop.asked, Loop.asked, ht1]) l.sim.simZ
  rw [hq] at ha hsim hrhs hcon
  rw [hfit.params] at hsim hcon ha hrhs
  simp only [hfit.params] at e4 e7 e8 e10 e11 e12
  generalize hu' : EM.cfg.uPhys (S.mpc (l.asked EM)).x 0 0 = un at *
  rw [hsim] at e4 e7 e8 e10 e11 e12
  dsimp only at e4 e7 e8 e10 e11 e12
  rw [hP.model] at e7 e8 e10 e11 e12
  have hN := hE.N
  -- the run over the whole window
  let tv' : Nat → Vec K d.ntv := fun k => ES.tvpFun (l.sim.t0 - ((EE.cfg.N - 1 - k : Nat) : K) * ES.tStep)
  let x' : Nat → Vec K d.nx := fun k => if k < EE.cfg.N then x k else l1.sim.x0
  let u' : Nat → Vec K d.nu := fun k => if k < EE.cfg.N - 1 then u k else un
  let z' : Nat → Vec K d.nz := fun k => if k < EE.cfg.N - 1 then z k else zz
  have htvN : tv' (EE.cfg.N - 1) = ES.tvpFun l.sim.t0 := by simp [tv']
  obtain ⟨r1, r2, r3, r4, r5⟩ := hrun
  have hrun' : EE.cfg.task.NoiseFreeRun EE.cfg.N x' u' z' tv' pT pG := by
    refine ⟨?_, ?_, ?_, ?_, r5⟩
    · intro k hk
      by_cases hl : k < EE.cfg.N - 1
      · have := r1 k hl
        simp only [x', u', z', if_pos hl, if_pos hk, if_pos (show k + 1 < EE.cfg.N by omega)]
        exact this
      · have hk' : k = EE.cfg.N - 1 := by omega
        subst hk'
        simp only [x', u', z', lt_irrefl, if_false, if_pos hk, if_neg (show ¬ EE.cfg.N - 1 + 1 < EE.cfg.N by omega), htvN, hxN]
        rw [show EE.cfg.task.model = EM.model from hfit.model, show EE.cfg.task.merge pT pG = EE.cfg.cat pT pG from rfl]
        exact ⟨ha, e4⟩
    · intro k hk call hcall i hi
      by_cases hl : k < EE.cfg.N - 1
      · have := r2 k hl call hcall i hi
        simp only [x', u', z', if_pos hl, if_pos hk]
        exact this
      · have hk' : k = EE.cfg.N - 1 := by omega
        subst hk'
        simp only [x', u', z', lt_irrefl, if_false, if_pos hk, htvN, hxN]
        exact hfit.constraints _ _ _ _ _ hcon call hcall i hi
    · intro k hk
      by_cases hl : k < EE.cfg.N
      · simp only [x', if_pos hl]; exact r3 k (by omega)
      · simp only [x', if_neg hl]
        rw [e4, hrhs]
        split_ifs at hxb with h1
        · exact hfit.terminal h1 _ hxb
        · exact hfit.states _ hxb
    · intro k hk
      by_cases hl : k < EE.cfg.N - 1
      · simp only [u', z', if_pos hl]; exact r4 k hl
      · simp only [u', z', if_neg hl]; exact ⟨hfit.algebraic _ hzb, hfit.inputs _ hub⟩
  have hmeas' : ∀ k < EE.cfg.N - 1, EE.cfg.task.measured x' u' z' tv' pT pG k = EE.cfg.task.measured x u z tv' pT pG k := by
    intro k hk
    simp only [EstimationTask.measured, x', u', z', if_pos hk, if_pos (show k + 1 < EE.cfg.N by omega)]
  have hmeasN : EE.cfg.task.measured x' u' z' tv' pT pG (EE.cfg.N - 1) =
      EM.model.meas l1.sim.x0 un zz (ES.tvpFun l.sim.t0) (EE.cfg.cat pT pG) 0 := by
    simp only [EstimationTask.measured, x', u', z', lt_irrefl, if_false, if_neg (show ¬ EE.cfg.N - 1 + 1 < EE.cfg.N by omega), htvN]
    rw [show EE.cfg.task.model = EM.model from hfit.model, show EE.cfg.task.merge pT pG = EE.cfg.cat pT pG from rfl]
  rw [← e4, ← hmeasN] at e7 e8 e10 e11 e12
  -- the estimator's problem
  have hlog' : l.mhe.data.rows "_y" = old ++ (List.range (EE.cfg.N - 1)).map fun k => List.ofFn (EE.cfg.task.measured x' u' z' tv' pT pG k) := by
    rw [hlog]
    congr 1
    apply List.map_congr_left
    intro k hk
    rw [hmeas' k (List.mem_range.mp hk)]
  set a := EE.args l.mhe (List.ofFn (EE.cfg.task.measured x' u' z' tv' pT pG (EE.cfg.N - 1))) with haa
  obtain ⟨hep, heX⟩ := EE.exact_call hN hfit.measurements x' (EE.cfg.task.measured x' u' z' tv' pT pG) tv' pT pG l.mhe old hlog'
    (by simp only [x', if_pos hN]; exact hprior) hp0 (fun k hk => by rw [hfit.tvp _ k hk, ht2]) (hfit.given _)
    (by
      intro q q1 q2 q3 q4 q5
      have hle : 0 + EE.cfg.task.N ≤ EE.cfg.N := by rw [Nat.zero_add]; exact le_rfl
      have q4' : ∀ k < EE.cfg.task.N, q.toData.tvp k = tv' (0 + k) := fun k hk => by rw [Nat.zero_add]; exact q4 k hk
      have q5' : ∀ k < EE.cfg.task.N, q.toData.y k = EE.cfg.task.measured x' u' z' tv' pT pG (0 + k) := fun k hk => by rw [Nat.zero_add]; exact q5 k hk
      refine ⟨⟨_, hE.encode_solves EE.cfg q _ (truth_optimal EE.cfg.task hcost x' u' z' tv' pT pG _ hrun' 0 hle q.toData q1 q2 q3 q4' q5')⟩, fun o ho => ?_⟩
      have := exact_window EE.cfg.task hcost hobs x' u' z' tv' pT pG _ hrun' 0 hle q.toData q1 q2 q3 q4' q5' _ ((C72_minimiser_iff EE.cfg hE o q).mp ho)
      simp only [Nat.zero_add] at this
      exact this) S.mhe (hs a e7)
  have htv' : ∀ k < EE.cfg.N - 1, ES.tvpFun (l1.sim.t0 - ((EE.cfg.N - 1 - k : Nat) : K) * ES.tStep) = tv' (k + 1) := by
    intro k hk
    show _ = ES.tvpFun _
    congr 1
    obtain ⟨j, hj⟩ : ∃ j, EE.cfg.N - 1 - k = j + 1 := ⟨EE.cfg.N - 1 - k - 1, by omega⟩
    have hj' : EE.cfg.N - 1 - (k + 1) = j := by omega
    rw [hj, hj', e2]
    push_cast; ring
  have hmeas'' : ∀ k < EE.cfg.N - 1, EE.cfg.task.measured (fun k => x' (k + 1)) (fun k => u' (k + 1)) (fun k => z' (k + 1))
      (fun k => ES.tvpFun (l1.sim.t0 - ((EE.cfg.N - 1 - k : Nat) : K) * ES.tStep)) pT pG k = EE.cfg.task.measured x' u' z' tv' pT pG (k + 1) := by
    intro k hk
    simp only [EstimationTask.measured, htv' k hk]
  refine ⟨?_, ?_, ?_, e13, ?_, ?_⟩
  · rw [e8, heX _ le_rfl]; simp [x']
  · rw [e1, e2, ht1]
  · rw [e9, e2, ht2, hfit.time]
  · rw [e11]; exact hep
  · refine ⟨old ++ [List.ofFn (EE.cfg.task.measured x' u' z' tv' pT pG 0)], fun k => x' (k + 1), fun k => u' (k + 1), fun k => z' (k + 1), ?_, ?_, ?_, ?_, ?_⟩
    · obtain ⟨q1, q2, q3, q4, q5⟩ := hrun'
      refine ⟨?_, ?_, fun k hk => q3 _ (by omega), fun k hk => q4 _ (by omega), q5⟩
      · intro k hk
        dsimp only
        rw [htv' k hk]
        exact q1 (k + 1) (by omega)
      · intro k hk
        dsimp only
        rw [htv' k hk]
        exact q2 (k + 1) (by omega)
    · have : EE.cfg.N - 1 + 1 = EE.cfg.N := by omega
      simp [x', this]
    · rw [e10, heX 1 hN]
    · intro y hy
      rcases List.mem_append.mp hy with h | h
      · exact hold y h
      · rw [List.mem_singleton.mp h]; simp
    · rw [e12, hlog']
      have h3 : ∀ (Y : Nat → List K) (n : Nat), (List.range n).map Y ++ [Y n] = Y 0 :: (List.range n).map (fun k => Y (k + 1)) := by
        intro Y n
        have := congrArg (List.map Y) (List.range_succ (n := n))
        rw [List.map_append, List.map_singleton] at this
        rw [← this, List.range_succ_eq_map, List.map_cons, List.map_map]
        rfl
      rw [List.append_assoc, h3 (fun k => List.ofFn (EE.cfg.task.measured x' u' z' tv' pT pG k)), List.append_assoc]
      show _ = old ++ (_ :: _)
      congr 2
      apply List.map_congr_left
      intro k hk
      rw [← hmeas'' k (List.mem_range.mp hk)]

/-- The rest of the run. -/
theorem controllerFeasible_tail {S : Solvers EM EE} {Ss : List (Solvers EM EE)} {l l1 : OutLoop K d ne ns}
    (h : ControllerFeasible EM ES EE (S :: Ss) l) (h1 : OutLoop.step EM ES EE S l = some l1) : ControllerFeasible EM ES EE Ss l1 := by
  intro i hi l2 h2
  exact h (i + 1) (by simpa using hi) l2 (by simp [OutLoop.iterate, h1, h2])

theorem estimatorSolves_tail {S : Solvers EM EE} {Ss : List (Solvers EM EE)} {l l1 : OutLoop K d ne ns}
    (h : EstimatorSolves EM ES EE (S :: Ss) l) (h1 : OutLoop.step EM ES EE S l = some l1) : EstimatorSolves EM ES EE Ss l1 := by
  intro i hi l2 h2
  exact h (i + 1) (by simpa using hi) l2 (by simp [OutLoop.iterate, h1, h2])

/-- **C75** (discrete-time models): controller and estimator together.  Controller, simulator without noise and moving horizon estimator of the same model in a loop of any
length, started synchronised (`Synchronised`: window of exact measurements, exact priors).  If the controller's solver returns feasible points and the estimator's
solver global minimisers of definite costs, then every estimate is exactly the plant's state and parameters, the trajectory in the simulator's log follows the model, and
all bounds and constraints of the controller hold for the plant. -/
theorem C75_output_feedback {pT : Vec K ne} {pG : Vec K ns} (hc : EM.cfg.Plain EM.model) (hz : EM.cfg.NoAlgBranching) (hP : PlantFollows EM ES)
    (hE : EE.cfg.Plain) (hcost : EE.cfg.task.DefiniteCosts) (hobs : EE.cfg.task.InputsObserved) (hfit : EstimatorFits EM ES EE pT pG)
    (Ss : List (Solvers EM EE)) (l l' : OutLoop K d ne ns) (hsync : Synchronised ES EE pT pG l) (hrun : OutLoop.iterate EM ES EE Ss l = some l')
    (hfeas : ControllerFeasible EM ES EE Ss l) (hsol : EstimatorSolves EM ES EE Ss l) :
    (∀ i ≤ Ss.length, ∀ li, OutLoop.iterate EM ES EE (Ss.take i) l = some li → li.x = List.ofFn li.sim.x0 ∧ li.mhe.pEst0 = pT) ∧
    ∃ (x : Nat → Vec K d.nx) (u : Nat → Vec K d.nu) (z : Nat → Vec K d.nz),
      x 0 = l.sim.x0 ∧ x Ss.length = l'.sim.x0 ∧
      l'.sim.data.rows "_x" = l.sim.data.rows "_x" ++ (List.range Ss.length).map (fun i => List.ofFn (x i)) ∧
      l'.sim.data.rows "_u" = l.sim.data.rows "_u" ++ (List.range Ss.length).map (fun i => List.ofFn (u i)) ∧
      ∀ i < Ss.length,
        let tv := ES.tvpFun (l.sim.t0 + i * ES.tStep)
        let p := EE.cfg.cat pT pG
        EM.model.alg (x i) (u i) (z i) tv p 0 = 0 ∧ x (i + 1) = EM.model.rhs (x i) (u i) (z i) tv p 0 ∧
        Within EM.cfg.ulb EM.cfg.uub (u i) ∧ Within EM.cfg.zlb EM.cfg.zub (z i) ∧
        (if EM.cfg.N = 1 then Within EM.cfg.xtlb EM.cfg.xtub (x (i + 1)) else Within EM.cfg.xlb EM.cfg.xub (x (i + 1))) ∧
        ConstraintsHold EM.cfg.nl (x i) (u i) (z i) tv p := by
  induction Ss generalizing l with
  | nil =>
    simp only [OutLoop.iterate, Option.some.injEq] at hrun
    subst hrun
    refine ⟨?_, fun _ => l.sim.x0, fun _ => 0, fun _ => 0, rfl, rfl, by simp, by simp, fun i hi => by simp at hi⟩
    intro i _ li hli
    simp only [List.take_nil, OutLoop.iterate, Option.some.injEq] at hli
    subst hli
    exact ⟨hsync.1, hsync.2.2.2.2.1⟩
  | cons S Ss ih =>
    simp only [OutLoop.iterate, Option.bind_eq_some_iff] at hrun
    obtain ⟨l1, h1, h2⟩ := hrun
    have hf0 := hfeas 0 (by simp) l (by simp [OutLoop.iterate])
    have hs0 := hsol 0 (by simp) l (by simp [OutLoop.iterate])
    simp only [List.getElem_cons_zero] at hf0 hs0
    have hsync1 := sync_step hc hz hP hE hcost hobs hfit hsync h1 hf0 hs0
    obtain ⟨b1, x, u, z, a1, a2, a3, a4, a5⟩ := ih l1 hsync1 h2 (controllerFeasible_tail hfeas h1) (estimatorSolves_tail hsol h1)
    obtain ⟨hx, ht1, -, hwy, -⟩ := id hsync
    obtain ⟨e1, e2, e3, e4, e5, e6, -⟩ := outloop_step hP.time hfit.stats hwy h1
    have hq : (l.asked EM).p.x0 = l.sim.x0 := by
      funext i; simp [OutLoop.asked, Loop.asked, hx, List.getD_eq_getElem?_getD]
    obtain ⟨r, zz, hr, hpr, -, ha, hsim, hrhs, hu, hzz, hxb, hcons⟩ := one_step (t := l.sim.t0) hc hz hP hf0
      (by simp [OutLoop.asked, Loop.asked, ht1]) (by simp [OutLoop.asked, Loop.asked, ht1]) l.sim.simZ
    rw [hq] at ha hsim hrhs hcons
    rw [hsim] at e4
    dsimp only at e4
    rw [hfit.params] at ha e4 hcons hrhs
    refine ⟨?_, fun i => Nat.casesOn i l.sim.x0 x, fun i => Nat.casesOn i (EM.cfg.uPhys (S.mpc (l.asked EM)).x 0 0) u, fun i => Nat.casesOn i zz z,
      rfl, a2, ?_, ?_, ?_⟩
    · intro i hi li hli
      cases i with
      | zero =>
        simp only [List.take_zero, OutLoop.iterate, Option.some.injEq] at hli
        subst hli
        exact ⟨hsync.1, hsync.2.2.2.2.1⟩
      | succ i =>
        simp only [List.take_succ_cons, OutLoop.iterate, Option.bind_eq_some_iff] at hli
        obtain ⟨l1', h1', hli⟩ := hli
        rw [h1] at h1'
        cases h1'
        exact b1 i (by simpa using hi) li hli
    · rw [a3, e5, List.length_cons, List.range_succ_eq_map]
      simp [Function.comp_def]
    · rw [a4, e6, List.length_cons, List.range_succ_eq_map]
      simp [Function.comp_def]
    · intro i hi
      cases i with
      | zero =>
        dsimp only
        rw [a1]
        simp only [Nat.cast_zero, zero_mul, add_zero]
        rw [← hrhs, ← e4] at hxb
        exact ⟨ha, e4, hu, hzz, hxb, hcons⟩
      | succ i =>
        have := a5 i (by simpa using hi)
        rw [e2] at this
        have e : l.sim.t0 + ES.tStep + (i : K) * ES.tStep = l.sim.t0 + ((i + 1 : Nat) : K) * ES.tStep := by push_cast; ring
        rw [e] at this
        exact this

/-- A feasible plan for the current problem yields one for the next, whatever the plant does (nominal controller). -/
theorem nominal_next (hR : EM.cfg.Regular EM.model) (hnom : EM.cfg.nRobust = 0) (hP : PlantFollows EM ES)
    (hcon : ConsistentPredictions EM) (hT : InvariantTerminalSet EM) {w : OptX K d} {q : OptP K d} (hf : EM.cfg.Feasible w q) {t : K}
    (htv : q.tvp = EM.tvpFun t) (hp : q.p = EM.pFun t) (z0 : Vec K d.nz) (v : Vec K d.nu) :
    ∃ w', EM.cfg.Feasible w' ⟨(ES.simulate q.x0 z0 (EM.cfg.uPhys w 0 0) (ES.tvpFun t) (ES.pFun t) 0).1, EM.tvpFun (t + EM.tStep), EM.pFun (t + EM.tStep), v⟩ := by
  obtain ⟨r, zz, hr, hpr, -, ha, hsim, hrhs, -⟩ := one_step hR.plain (Or.inr (Or.inl hnom)) hP hf htv hp z0
  rw [hsim, hrhs]
  have hext : extend EM.cfg.nRobust 0 [] r = [] := by rw [hnom]; exact extend_zero _ _ _
  rw [hext]
  obtain ⟨u, z, hk⟩ := hT.invariant t _ (terminal_of_feasible hR hnom hf)
  have hadm := C12_feasible_is_admissible EM.cfg EM.model hR w _ hf
  exact ⟨_, (C12_admissible_is_feasible EM.cfg EM.model hR _ _
    (shift_admissible hnom (by have := hR.horizon; omega) hcon t hT.inside hT.noSlack q _ htv hp rfl rfl _ hadm rfl u z hk)).1⟩

/-- The same for the multi-stage controller. -/
theorem robust_next (hR : EM.cfg.RegularConstraints EM.model) (hrob : EM.cfg.N ≤ EM.cfg.nRobust) (hN : 0 < EM.cfg.N)
    (hol : EM.cfg.openLoop = false) (hP : PlantFollows EM ES) (hcon : ConsistentRealisations EM) (hT : RobustInvariantTerminalSet EM)
    {w : OptX K d} {q : OptP K d} (hf : EM.cfg.Feasible w q) {t : K} (htv : q.tvp = EM.tvpFun t) (hp : q.p = EM.pFun t) (z0 : Vec K d.nz) (v : Vec K d.nu) :
    ∃ w', EM.cfg.Feasible w' ⟨(ES.simulate q.x0 z0 (EM.cfg.uPhys w 0 0) (ES.tvpFun t) (ES.pFun t) 0).1, EM.tvpFun (t + EM.tStep), EM.pFun (t + EM.tStep), v⟩ := by
  obtain ⟨r, zz, hr, hpr, -, ha, hsim, hrhs, -⟩ := one_step (hR.plain hN) hR.noAlg hP hf htv hp z0
  rw [hsim, hrhs]
  have hext : extend EM.cfg.nRobust 0 [] r = [r] := by unfold extend; rw [if_pos (by omega)]; rfl
  have hr' : r < EM.cfg.c := by
    unfold MayOccur at hr; rw [if_pos (by omega)] at hr; exact hr
  rw [hext]
  have hinv := hT.invariant t
  choose! κ hκ using hinv
  choose! ζ hζ using hκ
  have hadm := feasible_is_admissible EM.cfg EM.model hR w _ hf
  exact ⟨_, admissible_is_feasible EM.cfg EM.model hR _ _
    (shiftRobust_admissible hrob hN hol hcon t hT.inside hT.noSlack κ ζ hζ hR.cpos q _ htv hp rfl rfl _ hadm r hr' rfl)⟩

/-- Feasibility is handed on along the loop of controller, simulator and estimator. -/
theorem outloop_feasible_of (Sync : OutLoop K d ne ns → Prop) (htime : EM.tStep = ES.tStep) (hstats : ∀ s ∈ EE.storeStats, s ∈ validStats)
    (hsyn : ∀ l, Sync l → l.x = List.ofFn l.sim.x0 ∧ l.mpc.t0 = l.sim.t0 ∧ l.mhe.data.width "_y" = some d.ny)
    (hstep : ∀ (S : Solvers EM EE) (l l1 : OutLoop K d ne ns), Sync l → OutLoop.step EM ES EE S l = some l1 → EM.cfg.Feasible (S.mpc (l.asked EM)).x (l.asked EM).p →
      (∀ a, OutLoop.estimatorAsked EM ES EE S l = some a → (∃ o, EE.cfg.Solves o a.p) → EE.cfg.Solves (S.mhe a).x a.p) → Sync l1)
    (hnext : ∀ (w : OptX K d) (q : OptP K d) (t : K) (z0 : Vec K d.nz) (v : Vec K d.nu), EM.cfg.Feasible w q → q.tvp = EM.tvpFun t → q.p = EM.pFun t →
      ∃ w', EM.cfg.Feasible w' ⟨(ES.simulate q.x0 z0 (EM.cfg.uPhys w 0 0) (ES.tvpFun t) (ES.pFun t) 0).1, EM.tvpFun (t + EM.tStep), EM.pFun (t + EM.tStep), v⟩)
    (Ss : List (Solvers EM EE)) (hS : ∀ S ∈ Ss, FindsFeasible EM.cfg S.mpc) (l l' : OutLoop K d ne ns) (hsync : Sync l)
    (hrun : OutLoop.iterate EM ES EE Ss l = some l') (hsol : EstimatorSolves EM ES EE Ss l) (h0 : ∃ w, EM.cfg.Feasible w (l.asked EM).p) :
    ControllerFeasible EM ES EE Ss l ∧ ∃ w, EM.cfg.Feasible w (l'.asked EM).p := by
  induction Ss generalizing l with
  | nil =>
    simp only [OutLoop.iterate, Option.some.injEq] at hrun
    subst hrun
    exact ⟨fun i hi => by simp at hi, h0⟩
  | cons S Ss ih =>
    simp only [OutLoop.iterate, Option.bind_eq_some_iff] at hrun
    obtain ⟨l1, h1, h2⟩ := hrun
    have hf := hS S (by simp) _ h0
    have hs0 := hsol 0 (by simp) l (by simp [OutLoop.iterate])
    simp only [List.getElem_cons_zero] at hs0
    have hsync1 := hstep S l l1 hsync h1 hf hs0
    obtain ⟨hx, ht1, hwy⟩ := hsyn l hsync
    have hx1 := (hsyn l1 hsync1).1
    obtain ⟨e1, e2, e3, e4, -⟩ := outloop_step htime hstats hwy h1
    have hq : (l.asked EM).p.x0 = l.sim.x0 := by
      funext i; simp [OutLoop.asked, Loop.asked, hx, List.getD_eq_getElem?_getD]
    obtain ⟨w', hw'⟩ := hnext _ _ l.sim.t0 l.sim.simZ l1.mpc.u0 hf (by simp [OutLoop.asked, Loop.asked, ht1]) (by simp [OutLoop.asked, Loop.asked, ht1])
    have hq1 : (l1.asked EM).p = ⟨(ES.simulate (l.asked EM).p.x0 l.sim.simZ (EM.cfg.uPhys (S.mpc (l.asked EM)).x 0 0) (ES.tvpFun l.sim.t0) (ES.pFun l.sim.t0) 0).1,
        EM.tvpFun (l.sim.t0 + EM.tStep), EM.pFun (l.sim.t0 + EM.tStep), l1.mpc.u0⟩ := by
      rw [hq, ← e4, htime, ← ht1, ← e1]
      unfold OutLoop.asked Loop.asked
      dsimp only
      congr 1
      funext i; simp [hx1, List.getD_eq_getElem?_getD]
    rw [← hq1] at hw'
    obtain ⟨i1, i2⟩ := ih (fun S' hS' => hS S' (by simp [hS'])) l1 hsync1 h2 (estimatorSolves_tail hsol h1) ⟨_, hw'⟩
    refine ⟨?_, i2⟩
    intro i hi l2 h3
    cases i with
    | zero =>
      simp only [List.take_zero, OutLoop.iterate, Option.some.injEq] at h3
      subst h3
      exact hf
    | succ i =>
      simp only [List.take_succ_cons, OutLoop.iterate, Option.bind_eq_some_iff] at h3
      obtain ⟨l1', h1', h3⟩ := h3
      rw [h1] at h1'
      cases h1'
      exact i1 i (by simpa using hi) l2 h3

theorem outloop_feasible {pT : Vec K ne} {pG : Vec K ns} (hc : EM.cfg.Plain EM.model) (hz : EM.cfg.NoAlgBranching) (hP : PlantFollows EM ES)
    (hE : EE.cfg.Plain) (hcost : EE.cfg.task.DefiniteCosts) (hobs : EE.cfg.task.InputsObserved) (hfit : EstimatorFits EM ES EE pT pG)
    (hnext : ∀ (w : OptX K d) (q : OptP K d) (t : K) (z0 : Vec K d.nz) (v : Vec K d.nu), EM.cfg.Feasible w q → q.tvp = EM.tvpFun t → q.p = EM.pFun t →
      ∃ w', EM.cfg.Feasible w' ⟨(ES.simulate q.x0 z0 (EM.cfg.uPhys w 0 0) (ES.tvpFun t) (ES.pFun t) 0).1, EM.tvpFun (t + EM.tStep), EM.pFun (t + EM.tStep), v⟩)
    (Ss : List (Solvers EM EE)) (hS : ∀ S ∈ Ss, FindsFeasible EM.cfg S.mpc) (l l' : OutLoop K d ne ns) (hsync : Synchronised ES EE pT pG l)
    (hrun : OutLoop.iterate EM ES EE Ss l = some l') (hsol : EstimatorSolves EM ES EE Ss l) (h0 : ∃ w, EM.cfg.Feasible w (l.asked EM).p) :
    ControllerFeasible EM ES EE Ss l ∧ ∃ w, EM.cfg.Feasible w (l'.asked EM).p :=
  outloop_feasible_of (Synchronised ES EE pT pG) hP.time hfit.stats (fun _ h => ⟨h.1, h.2.1, h.2.2.2.1⟩)
    (fun _ _ _ h1 h2 h3 h4 => sync_step hc hz hP hE hcost hobs hfit h1 h2 h3 h4) hnext Ss hS l l' hsync hrun hsol h0

/-- **C75** (recursive feasibility, nominal controller): with a control invariant terminal set, feasibility of the first problem is enough. -/
theorem C75_recursive_feasibility {pT : Vec K ne} {pG : Vec K ns} (hR : EM.cfg.Regular EM.model) (hnom : EM.cfg.nRobust = 0) (hP : PlantFollows EM ES)
    (hcon : ConsistentPredictions EM) (hT : InvariantTerminalSet EM)
    (hE : EE.cfg.Plain) (hcost : EE.cfg.task.DefiniteCosts) (hobs : EE.cfg.task.InputsObserved) (hfit : EstimatorFits EM ES EE pT pG)
    (Ss : List (Solvers EM EE)) (hS : ∀ S ∈ Ss, FindsFeasible EM.cfg S.mpc) (l l' : OutLoop K d ne ns) (hsync : Synchronised ES EE pT pG l)
    (hrun : OutLoop.iterate EM ES EE Ss l = some l') (hsol : EstimatorSolves EM ES EE Ss l) (h0 : ∃ w, EM.cfg.Feasible w (l.asked EM).p) :
    ControllerFeasible EM ES EE Ss l ∧ ∃ w, EM.cfg.Feasible w (l'.asked EM).p :=
  outloop_feasible hR.plain (Or.inr (Or.inl hnom)) hP hE hcost hobs hfit
    (fun _ _ _ z0 v hf htv hp => nominal_next hR hnom hP hcon hT hf htv hp z0 v) Ss hS l l' hsync hrun hsol h0

/-- **C75** (recursive feasibility, multi-stage controller with `n_robust = n_horizon`): the plant's unknown parameter is one of the realisations. -/
theorem C75_robust_recursive_feasibility {pT : Vec K ne} {pG : Vec K ns} (hR : EM.cfg.RegularConstraints EM.model) (hrob : EM.cfg.N ≤ EM.cfg.nRobust)
    (hN : 0 < EM.cfg.N) (hol : EM.cfg.openLoop = false) (hP : PlantFollows EM ES) (hcon : ConsistentRealisations EM) (hT : RobustInvariantTerminalSet EM)
    (hE : EE.cfg.Plain) (hcost : EE.cfg.task.DefiniteCosts) (hobs : EE.cfg.task.InputsObserved) (hfit : EstimatorFits EM ES EE pT pG)
    (Ss : List (Solvers EM EE)) (hS : ∀ S ∈ Ss, FindsFeasible EM.cfg S.mpc) (l l' : OutLoop K d ne ns) (hsync : Synchronised ES EE pT pG l)
    (hrun : OutLoop.iterate EM ES EE Ss l = some l') (hsol : EstimatorSolves EM ES EE Ss l) (h0 : ∃ w, EM.cfg.Feasible w (l.asked EM).p) :
    ControllerFeasible EM ES EE Ss l ∧ ∃ w, EM.cfg.Feasible w (l'.asked EM).p :=
  outloop_feasible (hR.plain hN) hR.noAlg hP hE hcost hobs hfit
    (fun _ _ _ z0 v hf htv hp => robust_next hR hrob hN hol hP hcon hT hf htv hp z0 v) Ss hS l l' hsync hrun hsol h0

/-! ## Controller, simulator and estimator of `x⁺ = x + u + p + w`, `y = (x + v, u)` -/
namespace OutEx
open MheOptEx (dd mm E S)

/-- horizon 1, state bounds 0 … 10 (also terminal), inputs not negative -/
def cfg : MpcCfg ℚ dd where
  N := 1
  nRobust := 0
  c := 1
  ifcn := discreteIfcn mm (fun _ => 2) (fun _ => 3) Fin.elim0 1
  sx := fun _ => 2
  su := fun _ => 3
  sz := Fin.elim0
  xlb := fun _ => .fin 0
  xub := fun _ => .fin 10
  ulb := fun _ => .fin 0
  uub := fun _ => .pinf
  zlb := fun _ => .ninf
  zub := fun _ => .pinf
  xtlb := fun _ => .fin 0
  xtub := fun _ => .fin 10
  nl := [⟨"pos", 1, fun x _ _ _ _ _ => - x 0, .fin 0, false, 0, .pinf⟩]
  lterm := fun x _ _ _ _ => x 0 ^ 2
  mterm := fun x _ _ => x 0 ^ 2
  rterm := .factor fun _ => 0
def mpc : MpcEnv ℚ dd where
  model := mm
  cfg := cfg
  tStep := 1
  tvpFun := fun _ _ => Fin.elim0
  pFun := fun _ _ => fun _ => 0
  nOptX := 0
  nOptP := 0
  nOptAux := 0
  nLagr := 0
  flatX := fun _ => Fin.elim0
  flatP := fun _ => Fin.elim0
  flatAux := fun _ _ => Fin.elim0
def sim : SimEnv ℚ dd where
  model := mm
  plant := .discrete fun z _ _ _ _ _ => z
  tStep := 1
  tvpFun := fun _ => Fin.elim0
  pFun := fun _ => fun _ => 0
/-- go half of the way to 10, if that is possible -/
def input (q : OptP ℚ dd) : ℚ := max ((10 - (q.x0 0 + q.p 0 0)) / 2) (-(q.x0 0 + q.p 0 0))
def plan (q : OptP ℚ dd) : Policy ℚ dd where
  X := fun k _ _ => if k = 0 then q.x0 0 else q.x0 0 + input q + q.p 0 0
  U := fun _ _ _ => input q
  Z := fun _ _ => Fin.elim0
  E := fun _ _ _ _ => 0
def solver (a : SolverArgs ℚ dd) : SolverResult ℚ dd 0 where
  x := cfg.encode (plan a.p)
  lamG := Fin.elim0
  lamX := []
  stats := []
/-- the estimator after `set_initial_guess` with state 2 and the measurement `(4, 2)`; the plant is in state 4 -/
def start : OutLoop ℚ dd 1 0 where
  mpc := mpc.fresh 0 (fun _ => 4) (fun _ => 0) Fin.elim0
  sim := SimSt.fresh (fun _ => 4) Fin.elim0
  mhe := { (E.setInitialGuess (E.fresh 0 (fun _ => 2) (fun _ => 0) Fin.elim0 (fun _ => 0))).1 with
    data := ((Data.new (E.fields 0)).update [("_y", .arr [4, 2])]).1 }
  x := [4]
def both : Solvers mpc E := ⟨solver, S⟩

theorem regular : cfg.Regular mm where
  discrete := rfl
  cpos := Nat.one_pos
  sx := fun _ => (by decide +kernel : (0 : ℚ) < 2)
  su := fun _ => (by decide +kernel : (0 : ℚ) < 3)
  sz := fun i => i.elim0
  noColl := rfl
  names := by decide
  horizon := Nat.one_pos
  noAlg := Or.inl rfl
  slack := rfl
  rterm := fun f h => by simp [cfg] at h

theorem follows : PlantFollows mpc sim where
  model := rfl
  discrete := ⟨_, rfl, fun _ _ _ _ _ => Subsingleton.elim (α := Fin 0 → ℚ) _ _⟩
  unique := fun _ _ _ _ _ _ _ _ => Subsingleton.elim (α := Fin 0 → ℚ) _ _
  tvp := fun _ => rfl
  params := fun _ => ⟨0, by simp [MayOccur, mpc, cfg], rfl⟩
  time := rfl

theorem within10 (x : Vec ℚ 1) : Within (fun _ => .fin 0) (fun _ => .fin 10) x ↔ 0 ≤ x 0 ∧ x 0 ≤ 10 := by
  unfold Within
  constructor
  · intro h; exact h 0
  · intro h j; rw [Subsingleton.elim j 0]; exact h

theorem invariantSet : InvariantTerminalSet mpc where
  inside := fun _ h => h
  noSlack := fun call hcall hs => by
    simp only [mpc, cfg, List.mem_singleton] at hcall
    subst hcall; simp at hs
  invariant := fun t x hx => by
    have hx : Within (fun _ => .fin 0) (fun _ => .fin 10) x := hx
    refine ⟨0, Fin.elim0, Subsingleton.elim (α := Fin 0 → ℚ) _ _, fun _ => ⟨le_rfl, trivial⟩, fun j => j.elim0, ?_, ?_⟩
    · intro call hcall i hi
      simp only [mpc, cfg, List.mem_singleton] at hcall
      subst hcall
      show - x 0 ≤ 0
      linarith [((within10 x).mp hx).1]
    · show Within (fun _ => .fin 0) (fun _ => .fin 10) (x + 0 + (fun _ => 0) + 0 : Vec ℚ 1)
      have : (x + 0 + (fun _ => 0) + 0 : Vec ℚ 1) = x := by funext j; simp
      rw [this]; exact hx

theorem fits : EstimatorFits mpc sim E (fun _ => 0) Fin.elim0 where
  model := rfl
  time := rfl
  params := fun _ => by funext j; rfl
  given := fun _ => Subsingleton.elim (α := Fin 0 → ℚ) _ _
  tvp := fun _ _ _ => rfl
  measurements := rfl
  stats := by decide
  states := fun _ _ _ => ⟨trivial, trivial⟩
  terminal := fun _ _ _ _ => ⟨trivial, trivial⟩
  algebraic := fun _ _ j => j.elim0
  inputs := fun _ h => h
  estimated := fun _ => ⟨trivial, by show (0 : ℚ) ≤ 5; norm_num⟩
  constraints := fun x u z tv p h call hcall i hi => by
    simp only [List.mem_singleton] at hcall
    subst hcall
    exact h _ (by simp [mpc, cfg]) i hi

theorem admissible (q : OptP ℚ dd) (h1 : q.x0 0 + q.p 0 0 ≤ 10) (h2 : 0 ≤ q.x0 0) : (cfg.problem mm q).Admissible (plan q) := by
  have h3 : (10 - (q.x0 0 + q.p 0 0)) / 2 ≤ input q := le_max_left _ _
  have h4 : -(q.x0 0 + q.p 0 0) ≤ input q := le_max_right _ _
  have h5 : input q ≤ 10 - (q.x0 0 + q.p 0 0) := by
    unfold input
    exact max_le (by linarith) (by linarith)
  refine ⟨⟨?_, fun k hk h hh r hr => ⟨Subsingleton.elim (α := Fin 0 → ℚ) _ _, ?_⟩⟩, fun k h1 h2 => ?_, fun h hh j => ?_, fun _ _ _ _ _ => ⟨?_, trivial⟩,
    fun _ _ _ _ j => j.elim0, ?_, ?_, fun _ _ _ _ _ _ _ => rfl⟩
  · funext j; rw [Subsingleton.elim j 0]; rfl
  · have hk : k = 0 := by have : k < 1 := hk; omega
    subst hk
    have hr : MayOccur 1 0 0 h r := hr
    have hh : IsHistory 1 0 0 h := hh
    rw [isHistory_zero] at hh; subst hh
    rw [mayOccur_zero] at hr; subst hr
    funext j
    show q.x0 0 + input q + q.p 0 0 = q.x0 0 + input q + q.p 0 j + 0
    rw [Subsingleton.elim j 0, add_zero]
  · have : k < 1 := h2; omega
  · show (0 : ℚ) ≤ q.x0 0 + input q + q.p 0 0 ∧ q.x0 0 + input q + q.p 0 0 ≤ 10
    constructor <;> linarith
  · show (0 : ℚ) ≤ input q
    linarith
  · intro k hk h hh r hr call hcall i hi
    have hk : k = 0 := by have : k < 1 := hk; omega
    subst hk
    simp only [MpcCfg.problem, cfg, List.mem_singleton] at hcall
    subst hcall
    show - q.x0 0 ≤ 0
    linarith
  · intro k hk h hh call hcall hs
    simp only [MpcCfg.problem, cfg, List.mem_singleton] at hcall
    subst hcall; simp at hs

theorem findsFeasible : FindsFeasible cfg solver := by
  rintro a ⟨w, hw⟩
  have hadm := C12_feasible_is_admissible cfg mm regular w a.p hw
  refine (C12_admissible_is_feasible cfg mm regular a.p _ (admissible a.p ?_ ?_)).1
  · have h1 : 0 ≤ (cfg.policy w).U 0 [] 0 := (hadm.inputs 0 Nat.one_pos [] ⟨by simp, by simp⟩ 0).1
    have h2 : (cfg.policy w).X 1 [] 0 ≤ 10 := (hadm.terminal [] ⟨by simp [MpcCfg.problem, cfg], by simp⟩ 0).2
    have h3 := (hadm.dynamics.2 0 Nat.one_pos [] ⟨by simp, by simp⟩ 0 (by simp [MayOccur, MpcCfg.problem, cfg])).2
    have h4 : (cfg.policy w).X 1 [] 0 = (cfg.policy w).X 0 [] 0 + (cfg.policy w).U 0 [] 0 + a.p.p 0 0 + 0 := congrFun h3 0
    have h5 : (cfg.policy w).X 0 [] 0 = a.p.x0 0 := congrFun hadm.dynamics.1 0
    linarith
  · have h6 := hadm.constraints 0 Nat.one_pos [] ⟨by simp, by simp⟩ 0 (by simp [MayOccur, MpcCfg.problem, cfg]) _ (List.mem_singleton.mpr rfl) 0 Nat.one_pos
    have h6 : - (cfg.policy w).X 0 [] 0 ≤ 0 := h6
    have h5 : (cfg.policy w).X 0 [] 0 = a.p.x0 0 := congrFun hadm.dynamics.1 0
    linarith

theorem synchronised : Synchronised sim E (fun _ => 0) Fin.elim0 start := by
  refine ⟨by decide +kernel, rfl, rfl, by decide +kernel, rfl, [], fun k _ => if k = 0 then 2 else 4, fun _ _ => 2, fun _ => Fin.elim0, ?_, rfl, ?_, by simp,
    by decide +kernel⟩
  · refine ⟨fun k hk => ⟨Subsingleton.elim (α := Fin 0 → ℚ) _ _, ?_⟩, ?_, fun _ _ _ => ⟨trivial, trivial⟩, fun _ _ => ⟨fun j => j.elim0, fun j => ⟨?_, trivial⟩⟩,
      fun _ => ⟨trivial, ?_⟩⟩
    · have hk : k = 0 := by have : k < 1 := hk; omega
      subst hk
      funext j
      show (4 : ℚ) = 2 + 2 + 0 + 0
      norm_num
    · intro k hk call hcall i hi
      have hk : k = 0 := by have : k < 1 := hk; omega
      subst hk
      simp only [MheCfg.task, List.mem_singleton] at hcall
      subst hcall
      show -(2 : ℚ) ≤ 0
      norm_num
    · show (0 : ℚ) ≤ 2
      norm_num
    · show (0 : ℚ) ≤ 5
      norm_num
  · funext j; rw [Subsingleton.elim j 0]; decide +kernel

/-- On the problems asked in the first two iterations the estimator's solver returns global minimisers. -/
theorem solved : EstimatorSolves mpc sim E [both, both] start := by
  have key : ∀ o : Option (MheArgs ℚ dd 1 0), (o.all fun a => decide (0 ≤ a.p.xPrev 0 ∧ 0 ≤ a.p.pEstPrev 0 ∧ a.p.pEstPrev 0 ≤ 5 ∧
      0 ≤ a.p.yMeas 0 1 ∧ 0 ≤ a.p.yMeas 1 1 ∧ a.p.yMeas 0 0 = MheOptEx.predict a 1 ∧ a.p.yMeas 1 0 = MheOptEx.predict a 2)) = true → ∀ a, o = some a → E.cfg.Solves (S a).x a.p := by
    intro o ho a ha
    subst ha
    simp only [Option.all_some, decide_eq_true_eq] at ho
    obtain ⟨c1, c2, c3, c4, c5, c6, c7⟩ := ho
    refine MheOptEx.solves a c1 c2 c3 ?_ ?_
    all_goals
      intro k hk
      have : k = 0 ∨ k = 1 := by omega
      rcases this with rfl | rfl
      all_goals assumption
  intro i hi l1 h1 a ha _
  have : i = 0 ∨ i = 1 := by have : i < 2 := hi; omega
  rcases this with rfl | rfl
  · refine key ((OutLoop.iterate mpc sim E [] start).bind fun l1 => OutLoop.estimatorAsked mpc sim E both l1) (by decide +kernel) a ?_
    rw [show OutLoop.iterate mpc sim E [] start = some l1 from h1]; exact ha
  · refine key ((OutLoop.iterate mpc sim E [both] start).bind fun l1 => OutLoop.estimatorAsked mpc sim E both l1) (by decide +kernel) a ?_
    rw [show OutLoop.iterate mpc sim E [both] start = some l1 from h1]; exact ha

theorem runs : ((OutLoop.iterate mpc sim E [both, both] start).map (·.x)) = some [17/2] := by decide +kernel

theorem first : ∃ w, cfg.Feasible w (start.asked mpc).p :=
  ⟨_, (C12_admissible_is_feasible cfg mm regular _ _ (admissible (start.asked mpc).p (by decide +kernel) (by decide +kernel))).1⟩

end OutEx

/-- Non-vacuity of C75: all hypotheses hold in a run of two iterations; the estimates are 7 and 17/2. -/
example : ∃ l', OutEx.cfg.Regular MheOptEx.mm ∧ OutEx.cfg.nRobust = 0 ∧ PlantFollows OutEx.mpc OutEx.sim ∧ ConsistentPredictions OutEx.mpc ∧
    InvariantTerminalSet OutEx.mpc ∧ MheOptEx.E.cfg.Plain ∧ MheOptEx.E.cfg.task.DefiniteCosts ∧ MheOptEx.E.cfg.task.InputsObserved ∧
    EstimatorFits OutEx.mpc OutEx.sim MheOptEx.E (fun _ => 0) Fin.elim0 ∧ FindsFeasible OutEx.cfg OutEx.both.mpc ∧
    Synchronised OutEx.sim MheOptEx.E (fun _ => 0) Fin.elim0 OutEx.start ∧
    OutLoop.iterate OutEx.mpc OutEx.sim MheOptEx.E [OutEx.both, OutEx.both] OutEx.start = some l' ∧ l'.x = [17/2] ∧
    EstimatorSolves OutEx.mpc OutEx.sim MheOptEx.E [OutEx.both, OutEx.both] OutEx.start ∧ ∃ w, OutEx.cfg.Feasible w (OutEx.start.asked OutEx.mpc).p := by
  obtain ⟨l', hl, hx⟩ := Option.map_eq_some_iff.mp OutEx.runs
  exact ⟨l', OutEx.regular, rfl, OutEx.follows, ⟨fun _ _ _ => rfl, fun _ => rfl⟩, OutEx.invariantSet, MheOptEx.plain, MheOptEx.definite, MheOptEx.observed,
    OutEx.fits, OutEx.findsFeasible, OutEx.synchronised, hl, hx, OutEx.solved, OutEx.first⟩

end DoMpc
