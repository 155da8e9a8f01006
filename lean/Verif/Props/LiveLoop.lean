import Verif.Spec.LiveLoop
import Verif.Spec.GuaranteesColl
import Verif.Props.Live
import Verif.Props.SimLife
import Verif.Props.Guarantees
import Verif.Props.GuaranteesColl

/-!
# C111: a configured controller and a configured simulator in the user's loop
-/
set_option linter.unusedSectionVars false
namespace DoMpc
open Spec
variable {K : Type} [Field K] [LinearOrder K] [IsStrictOrderedRing K] {d : Dims}

/-! ## The simulator -/

theorem sim_run_snoc (T : SimTools K d) (sops : List (SimOp K d)) (op : SimOp K d) : ∀ o : SimObj K d, o.run T (sops ++ [op]) = ((o.run T sops).exec T op).1 := by
  induction sops with
  | nil => intro o; rfl
  | cons q qs ih => intro o; exact ih _

/-- what the configuration calls before `setup()` leave -/
theorem simConf_run (T : SimTools K d) (sops : List (SimOp K d)) (h : ∀ op ∈ sops, SimConfigures op) :
    let o := (SimObj.new : SimObj K d).run T sops
    o.tStep = lastOf (fun op => (simStepOf op).map some) sops none ∧ o.tvpFun = lastOf (fun op => (simTvpOf op).map some) sops none ∧
      o.pFun = lastOf (fun op => (simParamOf op).map some) sops none ∧ o.st.setup = false ∧ o.st.t0 = 0 ∧ o.st.data = Data.new (simFields d) := by
  induction sops using List.reverseRecOn with
  | nil => exact ⟨rfl, rfl, rfl, rfl, rfl, rfl⟩
  | append_singleton sops op ih =>
    obtain ⟨i1, i2, i3, i4, i5, i6⟩ := ih fun p hp => h p (by simp [hp])
    have hop := h op (by simp)
    intro o
    have ho : o = (((SimObj.new : SimObj K d).run T sops).exec T op).1 := sim_run_snoc T sops op _
    rw [ho]
    generalize (SimObj.new : SimObj K d).run T sops = o1 at i1 i2 i3 i4 i5 i6
    simp only [lastOf_snoc]
    cases op with
    | settings t => exact ⟨rfl, i2, i3, i4, i5, i6⟩
    | setParam t =>
      have : o1.exec T (.setParam t) = ({ o1 with tStep := some t }, none) := if_neg (by rw [i4]; simp)
      rw [this]; exact ⟨rfl, i2, i3, i4, i5, i6⟩
    | setTvpFun f v =>
      cases v
      · exact ⟨i1, i2, i3, i4, i5, i6⟩
      · exact ⟨i1, rfl, i3, i4, i5, i6⟩
    | setPFun f v =>
      cases v
      · exact ⟨i1, i2, i3, i4, i5, i6⟩
      · exact ⟨i1, i2, rfl, i4, i5, i6⟩
    | x0 x => exact ⟨i1, i2, i3, i4, i5, i6⟩
    | u0 x => exact ⟨i1, i2, i3, i4, i5, i6⟩
    | z0 x => exact ⟨i1, i2, i3, i4, i5, i6⟩
    | _ => exact hop.elim

theorem lastOf_getD {α β : Type} (f : α → Option β) (l : List α) (v : β) : (lastOf (fun a => (f a).map some) l none).getD v = lastOf f l v := by
  induction l using List.reverseRecOn with
  | nil => rfl
  | append_singleton l a ih =>
    rw [lastOf_snoc, lastOf_snoc]
    cases f a with
    | none => exact ih
    | some b => rfl

/-- the simulator as the controller's loop uses it: integrator, time step, functions of the last configuration -/
structure SimReady (T : SimTools K d) (sops : List (SimOp K d)) (dt : K) (s : SimObj K d) : Prop where
  plant : s.plant = some (T.build dt)
  step : s.tStep = some dt
  tvp : s.tvpFun = some (lastOf simTvpOf sops fun _ => 0)
  params : s.pFun = some (lastOf simParamOf sops fun _ => 0)
  setup : s.st.setup = true
  fields : s.st.data.fields = simFields d

theorem sim_setup (T : SimTools K d) (sops : List (SimOp K d)) (h : ∀ op ∈ sops, SimConfigures op) (dt : K)
    (hdt : lastOf (fun op => (simStepOf op).map some) sops none = some dt)
    (hs : (((SimObj.new : SimObj K d).run T sops).exec T .setup).2 = none) :
    SimReady T sops dt (((SimObj.new : SimObj K d).run T sops).exec T .setup).1 ∧ (((SimObj.new : SimObj K d).run T sops).exec T .setup).1.st.t0 = 0 := by
  obtain ⟨i1, i2, i3, i4, i5, i6⟩ := simConf_run T sops h
  generalize (SimObj.new : SimObj K d).run T sops = o at *
  rw [hdt] at i1
  have e2 := lastOf_getD simTvpOf sops fun _ => 0
  have e3 := lastOf_getD simParamOf sops fun _ => 0
  rw [← i2] at e2
  rw [← i3] at e3
  simp only [SimObj.exec, SimObj.doSetup, i1] at hs ⊢
  split at hs
  · cases hs
  · split at hs
    · cases hs
    · rename_i h1 h2
      rw [if_neg h1, if_neg h2]
      refine ⟨⟨rfl, rfl, congrArg some e2, congrArg some e3, rfl, ?_⟩, i5⟩
      show o.st.data.fields = _
      rw [i6]
      rfl

theorem sim_fair (T : SimTools K d) (sops : List (SimOp K d)) (dt : K) (s : SimObj K d) (h : SimReady T sops dt s) (op : SimOp K d)
    {n : Nat} (hop : FairEv (.sim op : LoopEv K d n)) :
    SimReady T sops dt (s.exec T op).1 ∧ (s.exec T op).1.st.t0 = s.st.t0 ∧ (s.exec T op).1.st.x0 = s.st.x0 := by
  obtain ⟨h1, h2, h3, h4, h5, h6⟩ := h
  cases op with
  | setParam t =>
    have : s.exec T (.setParam t) = (s, some "AssertionError") := if_pos h5
    rw [this]; exact ⟨⟨h1, h2, h3, h4, h5, h6⟩, rfl, rfl⟩
  | u0 u => exact ⟨⟨h1, h2, h3, h4, h5, h6⟩, rfl, rfl⟩
  | z0 z => exact ⟨⟨h1, h2, h3, h4, h5, h6⟩, rfl, rfl⟩
  | setInitialGuess =>
    have : s.exec T .setInitialGuess = ({ s with st := { s.st with simZ := s.st.z0 } }, none) := if_pos h5
    rw [this]; exact ⟨⟨h1, h2, h3, h4, h5, h6⟩, rfl, rfl⟩
  | initAlgebraic =>
    have : ∃ s' : SimSt K d, (s.exec T .initAlgebraic).1 = { s with st := s' } ∧ s'.setup = s.st.setup ∧ s'.data = s.st.data ∧ s'.t0 = s.st.t0 ∧ s'.x0 = s.st.x0 := by
      obtain ⟨a, b, c, p, st⟩ := s
      simp only at h3 h4 h5
      subst h3
      subst h4
      simp only [SimObj.exec, SimObj.guess, h5, if_true]
      exact ⟨_, rfl, rfl, rfl, rfl, rfl⟩
    obtain ⟨s', e1, e2, e3, e4, e5⟩ := this
    rw [e1]
    exact ⟨⟨h1, h2, h3, h4, e2.trans h5, (congrArg Data.fields e3).trans h6⟩, e4, e5⟩
  | _ => exact hop.elim

/-- a step of the set-up simulator -/
theorem sim_step (T : SimTools K d) (hm : StateMeasured T.model) (sops : List (SimOp K d)) (dt : K) (s : SimObj K d) (h : SimReady T sops dt s) (u : Vec K d.nu) :
    let tv := lastOf simTvpOf sops (fun _ => 0) s.st.t0
    let p := lastOf simParamOf sops (fun _ => 0) s.st.t0
    let r := SimEnv.simulate ⟨T.model, T.build dt, dt, lastOf simTvpOf sops fun _ => 0, lastOf simParamOf sops fun _ => 0⟩ s.st.x0 s.st.simZ u tv p 0
    ∃ y, (s.step T { u := some (List.ofFn u) }).2 = .ok y ∧ List.ofFn y = List.ofFn r.1 ∧ SimReady T sops dt (s.step T { u := some (List.ofFn u) }).1 ∧
      (s.step T { u := some (List.ofFn u) }).1.st.t0 = s.st.t0 + dt ∧ (s.step T { u := some (List.ofFn u) }).1.st.x0 = r.1 := by
  intro tv p r
  obtain ⟨h1, h2, h3, h4, h5, h6⟩ := h
  have hstep : s.step T { u := some (List.ofFn u) } =
      ({ s with st := (SimEnv.makeStep ⟨T.model, T.build dt, dt, lastOf simTvpOf sops fun _ => 0, lastOf simParamOf sops fun _ => 0⟩ s.st { u := some (List.ofFn u) }).1 },
        (SimEnv.makeStep ⟨T.model, T.build dt, dt, lastOf simTvpOf sops fun _ => 0, lastOf simParamOf sops fun _ => 0⟩ s.st { u := some (List.ofFn u) }).2) := by
    simp only [SimObj.step, h1, h2, h3, h4]
  rw [hstep]
  obtain ⟨y, hy⟩ := (C15_succeeds_iff ⟨T.model, T.build dt, dt, lastOf simTvpOf sops fun _ => 0, lastOf simParamOf sops fun _ => 0⟩ s.st h6 { u := some (List.ofFn u) }).1
    ⟨h5, by simp, by simp, by simp⟩
  obtain ⟨-, e1, -, e2⟩ := simStep_ok _ _ _ y hy
  simp only [argument_ofFn, argument_none] at e1 e2
  rw [hy, e2]
  refine ⟨y, rfl, by rw [e1]; exact hm _ _ _ _ _, ⟨h1, h2, h3, h4, rfl, ?_⟩, rfl, rfl⟩
  show (Data.update _ _).1.fields = _
  rw [Data.update_fields]
  exact h6

/-! ## The loop -/

section
variable (T : SimTools K d) (mk : Vec K d.nx → Vec K d.nu → Vec K d.nz → Ifcn K d)

/-- What every history of the loop maintains. -/
structure LoopInv (E : MpcEnv K d) (S : MpcSettings) (ops : List (MpcOp K d)) (ob : Objective K d) (nEps : Nat) (sops : List (SimOp K d)) (x0 : Vec K d.nx) (u0 : Vec K d.nu)
    (es : List (LoopEv K d E.nLagr)) (h : List (LoopRow K d E.nLagr)) (l : LiveLoop K d) : Prop where
  ctrl : ∃ es' h', LiveInv mk E S ops ob nEps u0 es' h' l.ctrl ∧ boundsIn es' = boundsSet es
  time : l.ctrl.st.t0 = (turns h : K) * E.tStep
  input : l.ctrl.st.u0 = lastOf inputGiven h u0
  sim : SimReady T sops E.tStep l.sim
  simTime : l.sim.st.t0 = (turns h : K) * E.tStep
  simState : l.sim.st.x0 = lastOf plantState h x0
  measured : l.x = List.ofFn l.sim.st.x0

theorem boundsSet_snoc {n : Nat} (es : List (LoopEv K d n)) (e : LoopEv K d n) : boundsSet (es ++ [e]) = boundsSet es ++ boundsSet [e] := by
  simp [boundsSet, List.filterMap_append]

theorem turns_other {n : Nat} (h : List (LoopRow K d n)) (e) (he : ∀ x, e.1 ≠ .restart x) (hs : turned e = false) : turns (h ++ [e]) = turns h := by
  obtain ⟨e, r⟩ := e
  cases e with
  | restart x => exact (he x rfl).elim
  | _ => simp [turns, List.countP_cons, hs]

theorem turns_turn {n : Nat} (h : List (LoopRow K d n)) (e) (he : ∀ x, e.1 ≠ .restart x) (hs : turned e = true) : turns (h ++ [e]) = turns h + 1 := by
  obtain ⟨e, r⟩ := e
  cases e with
  | restart x => exact (he x rfl).elim
  | _ => simp [turns, List.countP_cons, hs]

theorem turns_restart {n : Nat} (h : List (LoopRow K d n)) (x) (r) : turns (h ++ [(.restart x, r)]) = 0 := by
  simp [turns]

/-- the measured state as a state -/
theorem asState_of {y : Vec K d.ny} {x : Vec K d.nx} (h : List.ofFn y = List.ofFn x) : (asState y : Vec K d.nx) = x := by
  funext i
  simp [asState, h, List.getD_eq_getElem?_getD]

/-- One turn from a state of the invariant: with numbers as statistics it succeeds and goes on with the plant's next state. -/
theorem turn_ok (E : MpcEnv K d) (hst : ∀ s ∈ E.storeStats, s ∈ validStats) (S : MpcSettings) (ops : List (MpcOp K d)) (ob : Objective K d) (nEps : Nat)
    (sops : List (SimOp K d)) (x0 : Vec K d.nx) (u0 : Vec K d.nu) (es) (h) (l : LiveLoop K d) (hi : LoopInv T mk E S ops ob nEps sops x0 u0 es h l) (hm : StateMeasured T.model)
    (Sv : Solver K d E.nLagr) (hn : ReportsNumbers E.storeStats Sv) :
    let x := lastOf plantState h x0
    let t := (turns h : K) * E.tStep
    let tv := lastOf simTvpOf sops (fun _ => 0) t
    let p := lastOf simParamOf sops (fun _ => 0) t
    ∃ pb a y, l.ctrl.obj.problem = some pb ∧ a.p = ⟨x, E.tvpFun t, E.pFun t, lastOf inputGiven h u0⟩ ∧
      let u := l.ctrl.obj.returnedInput (Sv pb a).x
      let r := SimEnv.simulate ⟨T.model, T.build E.tStep, E.tStep, lastOf simTvpOf sops fun _ => 0, lastOf simParamOf sops fun _ => 0⟩ x l.sim.st.simZ u tv p 0
      (l.turn T E Sv).2 = .ok (u, y) ∧ asState y = r.1 := by
  intro x t tv p
  obtain ⟨⟨es', h', hc, hb⟩, i2, i3, i4, i5, i6, i7⟩ := hi
  have hx : l.x.length = d.nx := by rw [i7]; simp
  obtain ⟨pb, a, hpb, ha, hu⟩ := live_step mk E hst S ops ob nEps u0 es' h' l.ctrl hc Sv hn l.x hx
  rw [← hc.time, ← hc.input, i2, i3] at ha
  have hxx : (fun i : Fin d.nx => l.x.get (i.cast hx.symm)) = x := by
    funext i
    have : l.x.get (i.cast hx.symm) = (List.ofFn l.sim.st.x0).get (i.cast (by simp)) := by
      simp [i7]
    rw [this]
    simp [i6, x]
  rw [hxx] at ha
  obtain ⟨y, s1, sy, -, -, -⟩ := sim_step T hm sops E.tStep l.sim i4 (l.ctrl.obj.returnedInput (Sv pb a).x)
  rw [i5, i6] at sy
  refine ⟨pb, a, y, hpb, ha, ?_, asState_of sy⟩
  unfold LiveLoop.turn
  cases hM : l.ctrl.makeStep E Sv l.x with
  | mk c r =>
    rw [hM] at hu
    simp only at hu
    subst hu
    dsimp only
    cases hS : l.sim.step T { u := some (List.ofFn (l.ctrl.obj.returnedInput (Sv pb a).x)) } with
    | mk s r2 =>
      rw [hS] at s1
      simp only at s1
      subst s1
      rfl

theorem loop_exec (E : MpcEnv K d) (S : MpcSettings) (ops : List (MpcOp K d)) (ob : Objective K d) (nEps : Nat)
    (sops : List (SimOp K d)) (x0 : Vec K d.nx) (u0 : Vec K d.nu) (es) (h) (l : LiveLoop K d) (hi : LoopInv T mk E S ops ob nEps sops x0 u0 es h l) (hm : StateMeasured T.model)
    (e : LoopEv K d E.nLagr) (he : FairEv e) :
    LoopInv T mk E S ops ob nEps sops x0 u0 (es ++ [e]) (h ++ [(e, (l.exec T mk E e).2)]) (l.exec T mk E e).1 := by
  obtain ⟨⟨es', h', hc, hb⟩, i2, i3, i4, i5, i6, i7⟩ := hi
  cases e with
  | ctrl e =>
    have hL : LaterEv e := by cases e <;> first | exact he | exact he.elim
    have hinv := inv_exec mk E S ops ob nEps u0 es' h' l.ctrl hc e hL
    have ht := turns_other h (.ctrl e, (l.exec T mk E (.ctrl e)).2) (by simp) rfl
    have hp : lastOf plantState (h ++ [(.ctrl e, (l.exec T mk E (.ctrl e)).2)]) x0 = lastOf plantState h x0 := lastOf_snoc_none _ _ _ _ rfl
    have hnone : clockSet (e, (l.ctrl.exec mk E e).2) = none ∧ stepped (e, (l.ctrl.exec mk E e).2) = false ∧
        inputOf (e, (l.ctrl.exec mk E e).2) = inputGiven (.ctrl e, (l.exec T mk E (.ctrl e)).2) := by
      cases e <;> first | exact he.elim | exact ⟨rfl, rfl, rfl⟩
    refine ⟨⟨_, _, hinv, ?_⟩, ?_, ?_, i4, ?_, ?_, i7⟩
    · rw [boundsIn_snoc, boundsSet_snoc, hb]
      congr 1
      cases e with
      | config op => cases op <;> rfl
      | _ => rfl
    · rw [ht]
      refine hinv.time.trans ?_
      rw [clock_snoc_other _ _ _ hnone.1 hnone.2.1, ← hc.time, i2]
    · refine hinv.input.trans ?_
      rw [lastOf_snoc, lastOf_snoc, hnone.2.2, ← hc.input, i3]
    · rw [ht]; exact i5
    · rw [hp]; exact i6
  | sim op =>
    obtain ⟨j1, j2, j3⟩ := sim_fair T sops E.tStep l.sim i4 op he
    have ht := turns_other h (.sim op, (l.exec T mk E (.sim op)).2) (by simp) rfl
    refine ⟨⟨es', h', hc, ?_⟩, ?_, ?_, j1, ?_, ?_, ?_⟩
    · rw [boundsSet_snoc, hb]; simp [boundsSet]
    · rw [ht]; exact i2
    · rw [lastOf_snoc_none _ _ _ _ rfl]; exact i3
    · rw [ht]; exact j2.trans i5
    · rw [lastOf_snoc_none _ _ _ _ rfl]; exact j3.trans i6
    · exact i7.trans (congrArg List.ofFn j3.symm)
  | turn Sv =>
    have hx : l.x.length = d.nx := by rw [i7]; simp
    have hinv := inv_exec mk E S ops ob nEps u0 es' h' l.ctrl hc (.step l.x Sv) trivial
    have hbb : boundsIn (es' ++ [LiveEv.step l.x Sv]) = boundsSet (es ++ [.turn Sv]) := by
      rw [boundsIn_snoc, boundsSet_snoc, hb]; rfl
    have hexec : l.ctrl.exec mk E (.step l.x Sv) = ((l.ctrl.makeStep E Sv l.x).1, some (l.ctrl.makeStep E Sv l.x).2) := rfl
    rw [hexec] at hinv
    cases hM : l.ctrl.makeStep E Sv l.x with
    | mk c r =>
      rw [hM] at hinv
      cases r with
      | error e =>
        have hex : l.exec T mk E (.turn Sv) = (⟨c, l.sim, l.x⟩, some (.error e)) := by
          simp only [LiveLoop.exec, LiveLoop.turn, hM]
        rw [hex]
        have ht := turns_other h (.turn Sv, some (.error e)) (by simp) rfl
        refine ⟨⟨_, _, hinv, hbb⟩, ?_, ?_, i4, ?_, ?_, i7⟩
        · rw [ht]
          refine hinv.time.trans ?_
          rw [clock_snoc_other _ _ _ rfl rfl, ← hc.time, i2]
        · refine hinv.input.trans ?_
          rw [lastOf_snoc_none _ _ _ _ rfl, lastOf_snoc_none _ _ _ _ rfl, ← hc.input, i3]
        · rw [ht]; exact i5
        · rw [lastOf_snoc_none _ _ _ _ rfl]; exact i6
      | ok u =>
        obtain ⟨y, s1, sy, s2, s3, s4⟩ := sim_step T hm sops E.tStep l.sim i4 u
        cases hS : l.sim.step T { u := some (List.ofFn u) } with
        | mk s r2 =>
          rw [hS] at s1 s2 s3 s4
          simp only at s1 s2 s3 s4
          subst s1
          have hex : l.exec T mk E (.turn Sv) = (⟨c, s, List.ofFn y⟩, some (.ok (u, y))) := by
            simp only [LiveLoop.exec, LiveLoop.turn, hM, hS]
          rw [hex]
          have ht := turns_turn h (.turn Sv, some (.ok (u, y))) (by simp) rfl
          refine ⟨⟨_, _, hinv, hbb⟩, ?_, ?_, s2, ?_, ?_, ?_⟩
          · rw [ht]
            refine hinv.time.trans ?_
            rw [clock_snoc_step _ _ _ rfl rfl, ← hc.time, i2]
            push_cast; ring
          · refine hinv.input.trans ?_
            rw [lastOf_snoc, lastOf_snoc]
            rfl
          · rw [ht]
            refine s3.trans ?_
            rw [i5]
            push_cast; ring
          · rw [lastOf_snoc]
            simp only [plantState, Option.getD_some]
            rw [asState_of sy]
            exact s4
          · exact sy.trans (congrArg List.ofFn s4.symm)
  | restart x =>
    have hinv := inv_exec mk E S ops ob nEps u0 _ _ _ (inv_exec mk E S ops ob nEps u0 es' h' l.ctrl hc .reset trivial) (.setX0 x) trivial
    have hex : l.exec T mk E (.restart x) = (⟨((l.ctrl.exec mk E .reset).1.exec mk E (.setX0 x)).1, ((l.sim.exec T .resetHistory).1.exec T (.x0 x)).1, List.ofFn x⟩, none) := rfl
    rw [hex]
    refine ⟨⟨_, _, hinv, ?_⟩, ?_, ?_, ?_, ?_, ?_, rfl⟩
    · rw [boundsIn_snoc, boundsIn_snoc, boundsSet_snoc, hb]
      simp [boundsIn, boundsSet]
    · rw [turns_restart]
      refine hinv.time.trans ?_
      rw [clock_snoc_other _ _ _ rfl rfl, clock_snoc_set _ _ _ 0 rfl]
      simp
    · refine hinv.input.trans ?_
      rw [lastOf_snoc_none _ _ _ _ rfl, lastOf_snoc_none _ _ _ _ rfl, lastOf_snoc_none _ _ _ _ rfl, ← hc.input, i3]
    · obtain ⟨h1, h2, h3, h4, h5, h6⟩ := i4
      refine ⟨h1, h2, h3, h4, h5, ?_⟩
      show l.sim.st.data.initStorage.fields = _
      exact h6
    · rw [turns_restart]
      simp [SimObj.exec, SimSt.resetHistory]
    · rw [lastOf_snoc]
      rfl

theorem loop_run (E : MpcEnv K d) (S : MpcSettings) (ops : List (MpcOp K d)) (ob : Objective K d) (nEps : Nat)
    (sops : List (SimOp K d)) (x0 : Vec K d.nx) (u0 : Vec K d.nu) (hm : StateMeasured T.model) (es' : List (LoopEv K d E.nLagr)) :
    ∀ es h l, LoopInv T mk E S ops ob nEps sops x0 u0 es h l → (∀ e ∈ es', FairEv e) →
      LoopInv T mk E S ops ob nEps sops x0 u0 (es ++ es') (h ++ l.history T mk E es') (l.run T mk E es') := by
  induction es' with
  | nil => intro es h l hi _; simpa [LiveLoop.history, LiveLoop.run] using hi
  | cons e es' ih =>
    intro es h l hi hl
    have := ih _ _ _ (loop_exec T mk E S ops ob nEps sops x0 u0 es h l hi hm e (hl e (by simp))) (fun p hp => hl p (by simp [hp]))
    simpa [LiveLoop.history, LiveLoop.run] using this

theorem loop_start (E : MpcEnv K d) (S : MpcSettings) (ops : List (MpcOp K d)) (h : ∀ op ∈ ops, Configures op)
    (hs : (((MpcObj.new S : MpcObj K d).run mk ops).exec mk .setup).2 = none) (sops : List (SimOp K d)) (hsops : ∀ op ∈ sops, SimConfigures op)
    (hss : (((SimObj.new : SimObj K d).run T sops).exec T .setup).2 = none)
    (hdt : lastOf (fun op => (simStepOf op).map some) sops none = some E.tStep)
    (nEps : Nat) (x0 : Vec K d.nx) (u0 : Vec K d.nu) (z0 : Vec K d.nz) :
    ∃ ob, lastOf (fun op => (objectiveOf op).map some) ops none = some ob ∧
      LoopInv T mk E S ops ob nEps sops x0 u0 [] []
        (LiveLoop.start T E (((MpcObj.new S : MpcObj K d).run mk ops).exec mk .setup).1 (((SimObj.new : SimObj K d).run T sops).exec T .setup).1 nEps x0 u0 z0) := by
  obtain ⟨ob, hob, hi⟩ := inv_start mk E S ops h hs nEps x0 u0 z0
  obtain ⟨⟨h1, h2, h3, h4, h5, h6⟩, ht⟩ := sim_setup T sops hsops E.tStep hdt hss
  refine ⟨ob, hob, ⟨[], [], hi, rfl⟩, ?_, rfl, ⟨h1, h2, h3, h4, h5, h6⟩, ?_, rfl, rfl⟩
  · simp [LiveLoop.start, Live.start, MpcEnv.fresh, turns]
  · show (((SimObj.new : SimObj K d).run T sops).exec T .setup).1.st.t0 = _
    rw [ht]
    simp [turns]

end

theorem settings_bounds {n : Nat} (S : MpcSettings) (ops : List (MpcOp K d)) (es : List (LiveEv K d n)) :
    lastOf settingsOf (ops ++ boundsIn es) S = lastOf settingsOf ops S := by
  unfold lastOf
  rw [List.filterMap_append]
  have : (boundsIn es).filterMap settingsOf = [] := by
    rw [List.filterMap_eq_nil_iff]
    intro a ha
    obtain ⟨e, -, he⟩ := List.mem_filterMap.1 ha
    split at he
    · cases he; rfl
    · cases he
  rw [this, List.append_nil]

theorem cons_bounds {n : Nat} (ops : List (MpcOp K d)) (es : List (LiveEv K d n)) : (ops ++ boundsIn es).filterMap nlConsOf = ops.filterMap nlConsOf := by
  rw [List.filterMap_append]
  have : (boundsIn es).filterMap nlConsOf = [] := by
    rw [List.filterMap_eq_nil_iff]
    intro a ha
    obtain ⟨e, -, he⟩ := List.mem_filterMap.1 ha
    split at he
    · cases he; rfl
    · cases he
  rw [this, List.append_nil]

/-- **C111** (discrete-time models): configure a new MPC object and a new simulator by any calls and `setup()` both; the plant is the controller's model with the predicted time-varying
parameters and parameters among those the controller takes into account.  From then on, in *every* history of the loop – turns, new episodes, assignments of bounds, guesses,
`solve()`, refused calls, in any order and number – the next turn succeeds, applies the first input of an optimal policy of the problem with the configuration given before `setup()`
and the bounds given so far, for the state the plant is in, the input given last and the time of the episode, and takes the plant to the state which this policy predicts for the
realisation that occurs – if there is an admissible policy and the solver finds global minimisers. -/
theorem C111_turn (S : MpcSettings) (m : DaeModel K d) (E : MpcEnv K d) (hst : ∀ s ∈ E.storeStats, s ∈ validStats) (ops : List (MpcOp K d))
    (hc : ∀ op ∈ ops, Configures op) (T : SimTools K d) (hT : DiscretePlant m T) (sops : List (SimOp K d)) (hsc : ∀ op ∈ sops, SimConfigures op)
    (hP : PredictsPlant sops E.tStep (lastOf settingsOf ops S).c (lastOf settingsOf ops S).nRobust E.tvpFun E.pFun)
    (nEps : Nat) (x0 : Vec K d.nx) (u0 : Vec K d.nu) (z0 : Vec K d.nz) (es : List (LoopEv K d E.nLagr)) (he : ∀ e ∈ es, FairEv e) :
    let mk := fun sx su sz => discreteIfcn m sx su sz 1
    let o1 := (MpcObj.new S : MpcObj K d).run mk ops
    let s1 := (SimObj.new : SimObj K d).run T sops
    let l0 := LiveLoop.start T E (o1.exec mk .setup).1 (s1.exec T .setup).1 nEps x0 u0 z0
    let l := l0.run T mk E es
    let h := l0.history T mk E es
    (o1.exec mk .setup).2 = none → (s1.exec T .setup).2 = none → PlainCalls S ops →
      ∃ ob, lastOf (fun op => (objectiveOf op).map some) ops none = some ob ∧
        ∀ (Sv : Solver K d E.nLagr), ReportsNumbers E.storeStats Sv →
          let t := (turns h : K) * E.tStep
          let q : OptP K d := ⟨lastOf plantState h x0, E.tvpFun t, E.pFun t, lastOf inputGiven h u0⟩
          let problem := configured S (ops ++ boundsSet es) ob m q
          FindsMinimiser l.ctrl.obj q Sv → (∃ π, problem.Admissible π) →
            ∃ π r y, problem.Optimal π ∧ MayOccur problem.c problem.nR 0 [] r ∧ lastOf simParamOf sops (fun _ => 0) t = E.pFun t r ∧
              (l.turn T E Sv).2 = .ok (π.U 0 [], y) ∧ asState y = π.X 1 (extend problem.nR 0 [] r) := by
  intro mk o1 s1 l0 l h hs hss hp
  obtain ⟨ob, hob, hi0⟩ := loop_start T mk E S ops hc hs sops hsc hss hP.step nEps x0 u0 z0
  refine ⟨ob, hob, ?_⟩
  intro Sv hn t q problem hf hπ
  have hm : StateMeasured T.model := hT.model ▸ hT.measured
  have hi := loop_run T mk E S ops ob nEps sops x0 u0 hm es [] [] l0 hi0 he
  rw [List.nil_append, List.nil_append] at hi
  obtain ⟨pb, a, y, hpb, ha, hu, hy⟩ := turn_ok T mk E hst S ops ob nEps sops x0 u0 es h l hi hm Sv hn
  obtain ⟨es', h', hcI, hb⟩ := hi.ctrl
  have haft := hcI.after
  have hpl := plain_bounds S ops es' hp
  have hset := settings_bounds S ops es'
  rw [hb] at haft hpl hset
  have hR := plain_regular S (ops ++ boundsSet es) ob m hpl
  have hpr : (wantedCfg mk S (ops ++ boundsSet es) ob).problem m q = problem := wantedCfg_problem mk S (ops ++ boundsSet es) ob m q
  have hex : ∃ w, Spec.SolverFeasible l.ctrl.obj w q := by
    rw [← hpr, ← C12_solver_problem_feasible_iff _ m hR q] at hπ
    obtain ⟨w, hw⟩ := hπ
    exact ⟨w, (after_feasible mk S _ ob l.ctrl.obj haft w q).2 hw⟩
  have hmin := hf pb hpb a ha hex
  obtain ⟨e1, e2⟩ := C12_first_input_of_optimal_policy_partial _ m hR _ q ((after_minimises mk S _ ob l.ctrl.obj haft _ q).1 hmin)
  rw [hpr] at e1
  set π := (wantedCfg mk S (ops ++ boundsSet es) ob).policy (Sv pb a).x with hπdef
  have hu0 : l.ctrl.obj.returnedInput (Sv pb a).x = π.U 0 [] := by
    rw [← e2]
    exact congrArg (fun v => (Sv pb a).x.u 0 0 * v) haft.su
  obtain ⟨r, hr, hrp⟩ := hP.params t
  have hrr : MayOccur problem.c problem.nR 0 [] r := by
    show MayOccur (lastOf settingsOf (ops ++ boundsSet es) S).c (lastOf settingsOf (ops ++ boundsSet es) S).nRobust 0 [] r
    rw [hset]
    exact hr
  refine ⟨π, r, y, e1, hrr, hrp, by rw [hu, hu0], ?_⟩
  have hN : 0 < problem.N := by
    have := hpl.horizon
    show 0 < (lastOf settingsOf (ops ++ boundsSet es) S).N
    omega
  have hdyn := e1.1.dynamics
  obtain ⟨d1, d2⟩ := hdyn
  obtain ⟨d3, d4⟩ := d2 0 hN [] ⟨by simp, by simp⟩ r hrr
  rw [hy, hu0]
  have htv : E.tvpFun t 0 = lastOf simTvpOf sops (fun _ => 0) t := (hP.tvp t).symm
  have hx : π.X 0 [] = lastOf plantState h x0 := d1
  change m.alg (π.X 0 []) (π.U 0 []) _ (E.tvpFun t 0) (E.pFun t r) 0 = 0 at d3
  change π.X 1 _ = m.rhs (π.X 0 []) (π.U 0 []) _ (E.tvpFun t 0) (E.pFun t r) 0 at d4
  rw [hx, htv, ← hrp] at d3 d4
  have hsame : SamePlant m (⟨T.model, T.build E.tStep, E.tStep, lastOf simTvpOf sops fun _ => 0, lastOf simParamOf sops fun _ => 0⟩ : SimEnv K d) := by
    obtain ⟨root, g1, g2⟩ := hT.root
    exact ⟨hT.model, ⟨root, g1 _, g2⟩, hT.unique⟩
  rw [d4]
  have := simulate_eq hsame d3 l.sim.st.simZ
  exact congrArg Prod.fst this


/-- **C111** (continuous-time models, collocation): the same for a plant whose integrator solves the collocation equations exactly, a stage cost and an input penalty that do not
depend on the algebraic states. -/
theorem C111_turn_collocation (S : MpcSettings) (m : DaeModel K d) (mk : Vec K d.nx → Vec K d.nu → Vec K d.nz → Ifcn K d) (s : Scheme K)
    (htau : s.tau 0 = 0) (hinj : ∀ i ≤ s.deg, ∀ j ≤ s.deg, s.tau i = s.tau j → i = j)
    (hmk : ∀ sx su sz, setupCollocation m sx su sz 1 s.deg s.ni s.tau s.tStep = .ok (mk sx su sz))
    (E : MpcEnv K d) (hE : E.tStep = s.tStep) (hst : ∀ s ∈ E.storeStats, s ∈ validStats) (ops : List (MpcOp K d))
    (hc : ∀ op ∈ ops, Configures op) (T : SimTools K d) (hT : ContinuousPlant s m T) (sops : List (SimOp K d)) (hsc : ∀ op ∈ sops, SimConfigures op)
    (hP : PredictsPlant sops E.tStep (lastOf settingsOf ops S).c (lastOf settingsOf ops S).nRobust E.tvpFun E.pFun)
    (nEps : Nat) (x0 : Vec K d.nx) (u0 : Vec K d.nu) (z0 : Vec K d.nz) (es : List (LoopEv K d E.nLagr)) (he : ∀ e ∈ es, FairEv e) :
    let o1 := (MpcObj.new S : MpcObj K d).run mk ops
    let s1 := (SimObj.new : SimObj K d).run T sops
    let l0 := LiveLoop.start T E (o1.exec mk .setup).1 (s1.exec T .setup).1 nEps x0 u0 z0
    let l := l0.run T mk E es
    let h := l0.history T mk E es
    (o1.exec mk .setup).2 = none → (s1.exec T .setup).2 = none → PlainCalls S ops →
    (∀ f, lastOf rtermOf (ops ++ boundsSet es) (.factor fun _ => 0) = .user f → ∀ x u v z z' tv p, f x u v z tv p = f x u v z' tv p) →
      ∃ ob, lastOf (fun op => (objectiveOf op).map some) ops none = some ob ∧
        ((∀ x u z z' tv p, ob.lterm x u z tv p = ob.lterm x u z' tv p) →
        ∀ (Sv : Solver K d E.nLagr), ReportsNumbers E.storeStats Sv →
          let t := (turns h : K) * E.tStep
          let q : OptP K d := ⟨lastOf plantState h x0, E.tvpFun t, E.pFun t, lastOf inputGiven h u0⟩
          let problem := configuredColl S (ops ++ boundsSet es) ob m s.deg s.ni s.tau s.tStep q
          FindsMinimiser l.ctrl.obj q Sv → (∃ π, problem.Admissible π) →
            ∃ π r y, problem.Optimal π ∧ MayOccur problem.c problem.nR 0 [] r ∧ lastOf simParamOf sops (fun _ => 0) t = E.pFun t r ∧
              (l.turn T E Sv).2 = .ok (π.U 0 [], y) ∧ asState y = π.X 1 (extend problem.nR 0 [] r)) := by
  intro o1 s1 l0 l h hs hss hp hz
  obtain ⟨ob, hob, hi0⟩ := loop_start T mk E S ops hc hs sops hsc hss hP.step nEps x0 u0 z0
  refine ⟨ob, hob, ?_⟩
  intro hlt Sv hn t q problem hf hπ
  have hm : StateMeasured T.model := hT.model ▸ hT.measured
  have hi := loop_run T mk E S ops ob nEps sops x0 u0 hm es [] [] l0 hi0 he
  rw [List.nil_append, List.nil_append] at hi
  obtain ⟨pb, a, y, hpb, ha, hu, hy⟩ := turn_ok T mk E hst S ops ob nEps sops x0 u0 es h l hi hm Sv hn
  obtain ⟨es', h', hcI, hb⟩ := hi.ctrl
  have haft := hcI.after
  have hpl := plain_bounds S ops es' hp
  have hset := settings_bounds S ops es'
  rw [hb] at haft hpl hset
  have hR : (wantedCfg mk S (ops ++ boundsSet es) ob).CollRegular m s.deg s.ni s.tau s.tStep :=
    { setup := hmk _ _ _, tau0 := htau, tauInj := hinj, cpos := hpl.cpos, sx := fun j => hpl.scaling (.x j), su := fun j => hpl.scaling (.u j),
      sz := fun j => hpl.scaling (.z j), noColl := hpl.noColl, names := hpl.names, noAlg := hpl.noAlg, slack := hpl.slack, horizon := hpl.horizon,
      lterm := hlt, rterm := fun f hf => ⟨hpl.rterm f hf, hz f hf⟩ }
  have hpr : (wantedCfg mk S (ops ++ boundsSet es) ob).collProblem m s.deg s.ni s.tau s.tStep q = problem := by
    unfold MpcCfg.collProblem
    rw [wantedCfg_problem]
    rfl
  have hex : ∃ w, Spec.SolverFeasible l.ctrl.obj w q := by
    obtain ⟨π, hπ⟩ := hπ
    rw [← hpr] at hπ
    have hw := (C12_admissible_is_feasible_collocation hR q π hπ).1
    exact ⟨_, (after_feasible mk S _ ob l.ctrl.obj haft _ q).2 hw⟩
  have hmin := hf pb hpb a ha hex
  obtain ⟨π, e1, e2, e3⟩ := C12_first_input_collocation_partial hR _ q ((after_minimises mk S _ ob l.ctrl.obj haft _ q).1 hmin)
  rw [hpr] at e1
  have hu0 : l.ctrl.obj.returnedInput (Sv pb a).x = π.U 0 [] := by
    rw [e3]
    exact congrArg (fun v => (Sv pb a).x.u 0 0 * v) haft.su
  obtain ⟨r, hr, hrp⟩ := hP.params t
  have hrr : MayOccur problem.c problem.nR 0 [] r := by
    show MayOccur (lastOf settingsOf (ops ++ boundsSet es) S).c (lastOf settingsOf (ops ++ boundsSet es) S).nRobust 0 [] r
    rw [hset]
    exact hr
  refine ⟨π, r, y, e1, hrr, hrp, by rw [hu, hu0], ?_⟩
  have hN : 0 < problem.N := by
    have := hpl.horizon
    show 0 < (lastOf settingsOf (ops ++ boundsSet es) S).N
    omega
  have hdyn := e1.1.dynamics 0 hN [] ⟨by simp, by simp⟩ r hrr
  rw [hy, hu0]
  have htv : E.tvpFun t 0 = lastOf simTvpOf sops (fun _ => 0) t := (hP.tvp t).symm
  have hx : π.X 0 [] = lastOf plantState h x0 := e1.1.start
  change s.Interval m (π.X 0 []) (π.U 0 []) (E.tvpFun t 0) (E.pFun t r) (π.X 1 _) _ _ at hdyn
  rw [hx, htv, ← hrp] at hdyn
  have hsame : SameContinuousPlant s m (⟨T.model, T.build E.tStep, E.tStep, lastOf simTvpOf sops fun _ => 0, lastOf simParamOf sops fun _ => 0⟩ : SimEnv K d) := by
    obtain ⟨integ, g1, g2⟩ := hT.integ
    exact ⟨hT.model, ⟨integ, by rw [hE]; exact g1, g2⟩⟩
  exact continuous_simulate hsame hdyn l.sim.st.simZ

/-- **C111** (safety): in every such history the next turn respects the bounds *as they were assigned last*, in physical units: the input applied and the algebraic state are
within them, the plant moves by the model's equations, its next state is within the state bounds (the terminal bounds if `n_horizon = 1`), and the nonlinear constraints hold with
the plant's own parameters, soft ones up to their maximum violation. -/
theorem C111_safe (S : MpcSettings) (m : DaeModel K d) (E : MpcEnv K d) (hst : ∀ s ∈ E.storeStats, s ∈ validStats) (ops : List (MpcOp K d))
    (hc : ∀ op ∈ ops, Configures op) (T : SimTools K d) (hT : DiscretePlant m T) (sops : List (SimOp K d)) (hsc : ∀ op ∈ sops, SimConfigures op)
    (hP : PredictsPlant sops E.tStep (lastOf settingsOf ops S).c (lastOf settingsOf ops S).nRobust E.tvpFun E.pFun)
    (nEps : Nat) (x0 : Vec K d.nx) (u0 : Vec K d.nu) (z0 : Vec K d.nz) (es : List (LoopEv K d E.nLagr)) (he : ∀ e ∈ es, FairEv e) :
    let mk := fun sx su sz => discreteIfcn m sx su sz 1
    let o1 := (MpcObj.new S : MpcObj K d).run mk ops
    let s1 := (SimObj.new : SimObj K d).run T sops
    let l0 := LiveLoop.start T E (o1.exec mk .setup).1 (s1.exec T .setup).1 nEps x0 u0 z0
    let l := l0.run T mk E es
    let h := l0.history T mk E es
    let calls := ops ++ boundsSet es
    (o1.exec mk .setup).2 = none → (s1.exec T .setup).2 = none → PlainCalls S ops →
      ∃ ob, lastOf (fun op => (objectiveOf op).map some) ops none = some ob ∧
        ∀ (Sv : Solver K d E.nLagr), ReportsNumbers E.storeStats Sv →
          let t := (turns h : K) * E.tStep
          let x := lastOf plantState h x0
          let q : OptP K d := ⟨x, E.tvpFun t, E.pFun t, lastOf inputGiven h u0⟩
          FindsMinimiser l.ctrl.obj q Sv → (∃ π, (configured S calls ob m q).Admissible π) →
            ∃ u y z, (l.turn T E Sv).2 = .ok (u, y) ∧
              let tv := lastOf simTvpOf sops (fun _ => 0) t
              let p := lastOf simParamOf sops (fun _ => 0) t
              m.alg x u z tv p 0 = 0 ∧ asState y = m.rhs x u z tv p 0 ∧
              (∀ j, (lastOf (boundOf .lower (.u j)) calls .ninf).le (u j) ∧ (lastOf (boundOf .upper (.u j)) calls .pinf).ge (u j)) ∧
              (∀ j, (lastOf (boundOf .lower (.z j)) calls .ninf).le (z j) ∧ (lastOf (boundOf .upper (.z j)) calls .pinf).ge (z j)) ∧
              (if (lastOf settingsOf ops S).N = 1 then
                ∀ j, (terminalWanted calls (lastOf settingsOf ops S) .lower j).le (asState y j) ∧ (terminalWanted calls (lastOf settingsOf ops S) .upper j).ge (asState y j)
              else ∀ j, (lastOf (boundOf .lower (.x j)) calls .ninf).le (asState y j) ∧ (lastOf (boundOf .upper (.x j)) calls .pinf).ge (asState y j)) ∧
              ConstraintsHold (ops.filterMap nlConsOf) x u z tv p := by
  intro mk o1 s1 l0 l h calls hs hss hp
  obtain ⟨ob, hob, key⟩ := C111_turn S m E hst ops hc T hT sops hsc hP nEps x0 u0 z0 es he hs hss hp
  refine ⟨ob, hob, ?_⟩
  intro Sv hn t x q hf hπ
  obtain ⟨π, r, y, ho, hr, hrp, hok, hy⟩ := key Sv hn hf hπ
  -- the settings and constraints are not changed by bounds
  obtain ⟨ob2, -, hi0⟩ := loop_start T mk E S ops hc hs sops hsc hss hP.step nEps x0 u0 z0
  have hi := loop_run T mk E S ops ob2 nEps sops x0 u0 (hT.model ▸ hT.measured) es [] [] l0 hi0 he
  rw [List.nil_append, List.nil_append] at hi
  obtain ⟨es', h', hcI, hb⟩ := hi.ctrl
  have hset := settings_bounds S ops es'
  have hcons := cons_bounds ops es'
  have hpl := (plain_bounds S ops es' hp).horizon
  rw [hb] at hset hcons hpl
  have hN : 0 < (lastOf settingsOf (ops ++ boundsSet es) S).N := by omega
  have h0 : IsHistory (configured S (ops ++ boundsSet es) ob m q).c (configured S (ops ++ boundsSet es) ob m q).nR 0 [] := ⟨by simp, by simp⟩
  have h1 := isHistory_extend h0 hr
  have hadm := ho.1
  obtain ⟨d1, d2⟩ := hadm.dynamics
  obtain ⟨d3, d4⟩ := d2 0 hN [] h0 r hr
  have htv : E.tvpFun t 0 = lastOf simTvpOf sops (fun _ => 0) t := (hP.tvp t).symm
  have hx : π.X 0 [] = x := d1
  have hcon := hadm.constraints 0 hN [] h0 r hr
  have hsl := hadm.slacks 0 hN [] h0
  change m.alg (π.X 0 []) (π.U 0 []) _ (E.tvpFun t 0) (E.pFun t r) 0 = 0 at d3
  change π.X 1 _ = m.rhs (π.X 0 []) (π.U 0 []) _ (E.tvpFun t 0) (E.pFun t r) 0 at d4
  change ∀ call ∈ (ops ++ boundsSet es).filterMap nlConsOf, ∀ i < call.dim, if call.soft then
      call.ub.ge (call.expr (π.X 0 []) (π.U 0 []) _ (E.tvpFun t 0) (E.pFun t r) i - _) else call.ub.ge (call.expr (π.X 0 []) (π.U 0 []) _ (E.tvpFun t 0) (E.pFun t r) i) at hcon
  change ∀ call ∈ (ops ++ boundsSet es).filterMap nlConsOf, _ at hsl
  rw [hx, htv, ← hrp] at d3 d4 hcon
  rw [hcons] at hcon hsl
  refine ⟨_, y, _, hok, d3, hy.trans d4, hadm.inputs 0 hN [] h0, hadm.algebraic 0 hN _ h1, ?_, ?_⟩
  · rw [hy]
    have e : (configured S (ops ++ boundsSet es) ob m q).N = (lastOf settingsOf ops S).N := congrArg MpcSettings.N hset
    split_ifs with hN1
    · have := hadm.terminal _ (show IsHistory _ _ (configured S (ops ++ boundsSet es) ob m q).N _ by rw [e, hN1]; exact h1)
      rw [e, hN1, show (configured S (ops ++ boundsSet es) ob m q).xtlb = terminalWanted calls (lastOf settingsOf (ops ++ boundsSet es) S) .lower from rfl,
        show (configured S (ops ++ boundsSet es) ob m q).xtub = terminalWanted calls (lastOf settingsOf (ops ++ boundsSet es) S) .upper from rfl, hset] at this
      exact this
    · exact hadm.states 1 le_rfl (by rw [e]; rw [hset] at hN; omega) _ h1
  · intro call hcall i hi
    have h2 := hcon call hcall i hi
    cases hsoft : call.soft with
    | false => rw [hsoft] at h2; simpa using h2
    | true =>
      rw [hsoft] at h2
      have h3 := hsl call hcall hsoft i hi
      simp only [if_true] at h2 ⊢
      exact ⟨_, h3.1, h3.2, h2⟩

/-- **C111** (no stop): in every such history, of any model, a turn succeeds whatever the solver found, as long as the statistics to be stored are numbers. -/
theorem C111_runs (S : MpcSettings) (mk : Vec K d.nx → Vec K d.nu → Vec K d.nz → Ifcn K d) (E : MpcEnv K d) (hst : ∀ s ∈ E.storeStats, s ∈ validStats)
    (ops : List (MpcOp K d)) (hc : ∀ op ∈ ops, Configures op) (T : SimTools K d) (hm : StateMeasured T.model) (sops : List (SimOp K d))
    (hsc : ∀ op ∈ sops, SimConfigures op) (hdt : lastOf (fun op => (simStepOf op).map some) sops none = some E.tStep)
    (nEps : Nat) (x0 : Vec K d.nx) (u0 : Vec K d.nu) (z0 : Vec K d.nz) (es : List (LoopEv K d E.nLagr)) (he : ∀ e ∈ es, FairEv e) :
    let o1 := (MpcObj.new S : MpcObj K d).run mk ops
    let s1 := (SimObj.new : SimObj K d).run T sops
    let l := (LiveLoop.start T E (o1.exec mk .setup).1 (s1.exec T .setup).1 nEps x0 u0 z0).run T mk E es
    (o1.exec mk .setup).2 = none → (s1.exec T .setup).2 = none →
      ∀ Sv, ReportsNumbers E.storeStats Sv → ∃ u y, (l.turn T E Sv).2 = .ok (u, y) := by
  intro o1 s1 l hs hss Sv hn
  obtain ⟨ob, -, hi0⟩ := loop_start T mk E S ops hc hs sops hsc hss hdt nEps x0 u0 z0
  have hi := loop_run T mk E S ops ob nEps sops x0 u0 hm es [] [] _ hi0 he
  obtain ⟨pb, a, y, -, -, hu, -⟩ := turn_ok T mk E hst S ops ob nEps sops x0 u0 _ _ l hi hm Sv hn
  exact ⟨_, y, hu⟩


/-! ## The logs -/

theorem sim_step_rows (T : SimTools K d) (sops : List (SimOp K d)) (dt : K) (s : SimObj K d) (h : SimReady T sops dt s) (u : Vec K d.nu) :
    let D := (s.step T { u := some (List.ofFn u) }).1.st.data
    D.rows "_x" = s.st.data.rows "_x" ++ [List.ofFn s.st.x0] ∧ D.rows "_u" = s.st.data.rows "_u" ++ [List.ofFn u] ∧
      D.rows "_time" = s.st.data.rows "_time" ++ [[s.st.t0]] := by
  obtain ⟨h1, h2, h3, h4, h5, h6⟩ := h
  have hstep : s.step T { u := some (List.ofFn u) } =
      ({ s with st := (SimEnv.makeStep ⟨T.model, T.build dt, dt, lastOf simTvpOf sops fun _ => 0, lastOf simParamOf sops fun _ => 0⟩ s.st { u := some (List.ofFn u) }).1 },
        (SimEnv.makeStep ⟨T.model, T.build dt, dt, lastOf simTvpOf sops fun _ => 0, lastOf simParamOf sops fun _ => 0⟩ s.st { u := some (List.ofFn u) }).2) := by
    simp only [SimObj.step, h1, h2, h3, h4]
  rw [hstep]
  obtain ⟨y, hy⟩ := (C15_succeeds_iff ⟨T.model, T.build dt, dt, lastOf simTvpOf sops fun _ => 0, lastOf simParamOf sops fun _ => 0⟩ s.st h6 { u := some (List.ofFn u) }).1
    ⟨h5, by simp, by simp, by simp⟩
  obtain ⟨-, -, hup, e2⟩ := simStep_ok _ _ _ y hy
  dsimp only
  rw [e2]
  dsimp only
  rw [C17_update_appends _ _ hup, C17_update_appends _ _ hup, C17_update_appends _ _ hup]
  simp [Spec.given, PyVal.vec, argument_ofFn]

/-- The logs in terms of the history. -/
structure LoopLog (mk : Vec K d.nx → Vec K d.nu → Vec K d.nz → Ifcn K d) (E : MpcEnv K d) (S : MpcSettings) (ops : List (MpcOp K d)) (ob : Objective K d) (nEps : Nat)
    (x0 : Vec K d.nx) (u0 : Vec K d.nu) (h : List (LoopRow K d E.nLagr)) (l : LiveLoop K d) : Prop where
  ctrl : ∃ es' h', LiveInv mk E S ops ob nEps u0 es' h' l.ctrl ∧ LogShows E h' l.ctrl ∧
    (sinceReset h').filterMap pairOf = (episode x0 h).map fun p => (List.ofFn p.1, p.2)
  states : l.sim.st.data.rows "_x" = (episode x0 h).map fun p => List.ofFn p.1
  inputs : l.sim.st.data.rows "_u" = (episode x0 h).map fun p => List.ofFn p.2
  times : l.sim.st.data.rows "_time" = (List.range (turns h)).map fun i : Nat => [(i : K) * E.tStep]

theorem record_state {n : Nat} (x0 : Vec K d.nx) (h : List (LoopRow K d n)) : (h.foldl recordStep (x0, [])).1 = lastOf plantState h x0 := by
  induction h using List.reverseRecOn with
  | nil => rfl
  | append_singleton h e ih =>
    rw [List.foldl_append, lastOf_snoc, ← ih]
    obtain ⟨e, r⟩ := e
    cases e with
    | turn S =>
      rcases r with _ | (e | ⟨u, y⟩) <;> rfl
    | _ => rfl

theorem episode_other {n : Nat} (x0 : Vec K d.nx) (h : List (LoopRow K d n)) (e) (he : ∀ x, e.1 ≠ .restart x) (hs : turned e = false) :
    episode x0 (h ++ [e]) = episode x0 h := by
  unfold episode
  rw [List.foldl_append]
  obtain ⟨e, r⟩ := e
  cases e with
  | restart x => exact (he x rfl).elim
  | turn S =>
    rcases r with _ | (e | ⟨u, y⟩)
    · rfl
    · rfl
    · cases hs
  | _ => rfl

theorem episode_turn {n : Nat} (x0 : Vec K d.nx) (h : List (LoopRow K d n)) (S) (u : Vec K d.nu) (y : Vec K d.ny) :
    episode x0 (h ++ [(.turn S, some (.ok (u, y)))]) = episode x0 h ++ [(lastOf plantState h x0, u)] := by
  unfold episode
  rw [List.foldl_append, ← record_state]
  rfl

/-- the solvers of the turns report numbers -/
def TurnNumbers {n : Nat} (names : List String) : LoopEv K d n → Prop
  | .turn S => ReportsNumbers names S
  | _ => True

theorem looplog_exec (T : SimTools K d) (mk : Vec K d.nx → Vec K d.nu → Vec K d.nz → Ifcn K d) (E : MpcEnv K d) (hst : ∀ s ∈ E.storeStats, s ∈ validStats)
    (S : MpcSettings) (ops : List (MpcOp K d)) (ob : Objective K d) (nEps : Nat)
    (sops : List (SimOp K d)) (x0 : Vec K d.nx) (u0 : Vec K d.nu) (es) (h) (l : LiveLoop K d) (hi : LoopInv T mk E S ops ob nEps sops x0 u0 es h l)
    (hl : LoopLog mk E S ops ob nEps x0 u0 h l) (hm : StateMeasured T.model)
    (e : LoopEv K d E.nLagr) (he : FairEv e) (hn : TurnNumbers E.storeStats e) :
    LoopLog mk E S ops ob nEps x0 u0 (h ++ [(e, (l.exec T mk E e).2)]) (l.exec T mk E e).1 := by
  obtain ⟨⟨es', h', hc, hsh, hpairs⟩, l1, l2, l3⟩ := hl
  cases e with
  | ctrl e =>
    have hL : LaterEv e := by cases e <;> first | exact he | exact he.elim
    have hne : e ≠ .reset := by rintro rfl; exact he
    have hN : NumbersIn E.storeStats e := by cases e <;> first | exact he.elim | trivial
    have hpair : pairOf (e, (l.ctrl.exec mk E e).2) = none := by cases e <;> first | exact he.elim | rfl
    have hep := episode_other x0 h (.ctrl e, (l.exec T mk E (.ctrl e)).2) (by simp) rfl
    have ht := turns_other h (.ctrl e, (l.exec T mk E (.ctrl e)).2) (by simp) rfl
    refine ⟨⟨_, _, inv_exec mk E S ops ob nEps u0 es' h' l.ctrl hc e hL, logs_exec mk E hst S ops ob nEps u0 es' h' l.ctrl hc hsh e hN, ?_⟩, ?_, ?_, ?_⟩
    · rw [sinceReset_snoc _ _ _ hne, List.filterMap_append, hpairs, hep]
      simp [hpair]
    · rw [hep]; exact l1
    · rw [hep]; exact l2
    · rw [ht]; exact l3
  | sim op =>
    have hep := episode_other x0 h (.sim op, (l.exec T mk E (.sim op)).2) (by simp) rfl
    have ht := turns_other h (.sim op, (l.exec T mk E (.sim op)).2) (by simp) rfl
    have hd : (l.sim.exec T op).1.st.data = l.sim.st.data := by
      obtain ⟨h1, h2, h3, h4, h5, h6⟩ := hi.sim
      cases op with
      | setParam t =>
        have : l.sim.exec T (.setParam t) = (l.sim, some "AssertionError") := if_pos h5
        rw [this]
      | u0 u => rfl
      | z0 z => rfl
      | setInitialGuess =>
        have : l.sim.exec T .setInitialGuess = ({ l.sim with st := { l.sim.st with simZ := l.sim.st.z0 } }, none) := if_pos h5
        rw [this]
      | initAlgebraic => simp only [SimObj.exec, h3, h4, SimObj.guess, h5, if_true]
      | _ => exact he.elim
    refine ⟨⟨es', h', hc, hsh, ?_⟩, ?_, ?_, ?_⟩
    · rw [hep]; exact hpairs
    · rw [hep]; exact (congrArg (fun D => D.rows "_x") hd).trans l1
    · rw [hep]; exact (congrArg (fun D => D.rows "_u") hd).trans l2
    · rw [ht]; exact (congrArg (fun D => D.rows "_time") hd).trans l3
  | turn Sv =>
    have hx : l.x.length = d.nx := by rw [hi.measured]; simp
    have hinv := inv_exec mk E S ops ob nEps u0 es' h' l.ctrl hc (.step l.x Sv) trivial
    have hlog := logs_exec mk E hst S ops ob nEps u0 es' h' l.ctrl hc hsh (.step l.x Sv) hn
    have hexec : l.ctrl.exec mk E (.step l.x Sv) = ((l.ctrl.makeStep E Sv l.x).1, some (l.ctrl.makeStep E Sv l.x).2) := rfl
    rw [hexec] at hinv hlog
    obtain ⟨pb, a, -, -, hu⟩ := live_step mk E hst S ops ob nEps u0 es' h' l.ctrl hc Sv hn l.x hx
    generalize l.ctrl.obj.returnedInput (Sv pb a).x = u at hu
    cases hM : l.ctrl.makeStep E Sv l.x with
    | mk c r =>
      rw [hM] at hinv hlog hu
      simp only at hu
      subst hu
      obtain ⟨y, s1, sy, s2, s3, s4⟩ := sim_step T hm sops E.tStep l.sim hi.sim u
      obtain ⟨r1, r2, r3⟩ := sim_step_rows T sops E.tStep l.sim hi.sim u
      cases hS : l.sim.step T { u := some (List.ofFn u) } with
      | mk s rr =>
        rw [hS] at s1 r1 r2 r3
        simp only at s1 r1 r2 r3
        subst s1
        have hex : l.exec T mk E (.turn Sv) = (⟨c, s, List.ofFn y⟩, some (.ok (u, y))) := by
          simp only [LiveLoop.exec, LiveLoop.turn, hM, hS]
        rw [hex]
        have ht := turns_turn h (.turn Sv, some (.ok (u, y))) (by simp) rfl
        have hep := episode_turn x0 h Sv u y
        refine ⟨⟨_, _, hinv, hlog, ?_⟩, ?_, ?_, ?_⟩
        · rw [sinceReset_snoc _ _ _ (by simp), List.filterMap_append, hpairs, hep]
          simp [pairOf, hi.measured, hi.simState]
        · rw [hep, List.map_append, ← l1, List.map_singleton, ← hi.simState]; exact r1
        · rw [hep, List.map_append, ← l2, List.map_singleton]; exact r2
        · rw [ht, List.range_succ, List.map_append, ← l3, List.map_singleton, ← hi.simTime]; exact r3
  | restart x =>
    have i1 := inv_exec mk E S ops ob nEps u0 es' h' l.ctrl hc .reset trivial
    have g1 := logs_exec mk E hst S ops ob nEps u0 es' h' l.ctrl hc hsh .reset trivial
    have i2 := inv_exec mk E S ops ob nEps u0 _ _ _ i1 (.setX0 x) trivial
    have g2 := logs_exec mk E hst S ops ob nEps u0 _ _ _ i1 g1 (.setX0 x) trivial
    have hex : l.exec T mk E (.restart x) = (⟨((l.ctrl.exec mk E .reset).1.exec mk E (.setX0 x)).1, ((l.sim.exec T .resetHistory).1.exec T (.x0 x)).1, List.ofFn x⟩, none) := rfl
    rw [hex]
    have hep : episode x0 (h ++ [(LoopEv.restart x, none)]) = [] := by
      unfold episode
      rw [List.foldl_append]
      rfl
    have hf := hi.sim.fields
    have hd : (((l.sim.exec T .resetHistory).1.exec T (.x0 x)).1).st.data = l.sim.st.data.initStorage := rfl
    refine ⟨⟨_, _, i2, g2, ?_⟩, ?_, ?_, ?_⟩
    · rw [hep, sinceReset_snoc _ _ _ (by simp)]
      simp [sinceReset, pairOf]
    · dsimp only; rw [hep, hd]; simp [Data.initStorage, hf, simFields, Data.width]
    · dsimp only; rw [hep, hd]; simp [Data.initStorage, hf, simFields, Data.width]
    · dsimp only; rw [turns_restart, hd]; simp [Data.initStorage, hf, simFields, Data.width]

/-- **C111** (the logs): after every such history – whatever the solver found, as long as the statistics are numbers – the logs of controller and simulator agree and hold exactly
the turns of this episode: the states they started from, the inputs applied, and in the simulator's log the times `0, t_step, 2 t_step, …`. -/
theorem C111_log (S : MpcSettings) (mk : Vec K d.nx → Vec K d.nu → Vec K d.nz → Ifcn K d) (E : MpcEnv K d) (hst : ∀ s ∈ E.storeStats, s ∈ validStats)
    (ops : List (MpcOp K d)) (hc : ∀ op ∈ ops, Configures op) (T : SimTools K d) (hm : StateMeasured T.model) (sops : List (SimOp K d))
    (hsc : ∀ op ∈ sops, SimConfigures op) (hdt : lastOf (fun op => (simStepOf op).map some) sops none = some E.tStep)
    (nEps : Nat) (x0 : Vec K d.nx) (u0 : Vec K d.nu) (z0 : Vec K d.nz) (es : List (LoopEv K d E.nLagr)) (he : ∀ e ∈ es, FairEv e)
    (hn : ∀ Sv, LoopEv.turn Sv ∈ es → ReportsNumbers E.storeStats Sv) :
    let o1 := (MpcObj.new S : MpcObj K d).run mk ops
    let s1 := (SimObj.new : SimObj K d).run T sops
    let l0 := LiveLoop.start T E (o1.exec mk .setup).1 (s1.exec T .setup).1 nEps x0 u0 z0
    let l := l0.run T mk E es
    let h := l0.history T mk E es
    (o1.exec mk .setup).2 = none → (s1.exec T .setup).2 = none →
      l.ctrl.st.data.rows "_x" = (episode x0 h).map (fun p => List.ofFn p.1) ∧ l.ctrl.st.data.rows "_u" = (episode x0 h).map (fun p => List.ofFn p.2) ∧
      l.sim.st.data.rows "_x" = (episode x0 h).map (fun p => List.ofFn p.1) ∧ l.sim.st.data.rows "_u" = (episode x0 h).map (fun p => List.ofFn p.2) ∧
      l.sim.st.data.rows "_time" = (List.range (turns h)).map fun i : Nat => [(i : K) * E.tStep] := by
  intro o1 s1 l0 l h hs hss
  obtain ⟨ob, -, hi0⟩ := loop_start T mk E S ops hc hs sops hsc hss hdt nEps x0 u0 z0
  obtain ⟨ob', hob', hl0⟩ := inv_start mk E S ops hc hs nEps x0 u0 z0
  have hi0' : LoopInv T mk E S ops ob' nEps sops x0 u0 [] [] l0 :=
    ⟨⟨[], [], hl0, rfl⟩, hi0.time, hi0.input, hi0.sim, hi0.simTime, hi0.simState, hi0.measured⟩
  have hd0 : l0.sim.st.data = Data.new (simFields d) := by
    obtain ⟨i1, i2, i3, i4, i5, i6⟩ := simConf_run T sops hsc
    have hdat : (s1.exec T .setup).1.st.data = s1.st.data := by
      simp only [SimObj.exec, SimObj.doSetup]
      repeat' split
      all_goals rfl
    exact hdat.trans i6
  have hlog0 : LoopLog mk E S ops ob' nEps x0 u0 [] l0 :=
    ⟨⟨[], [], hl0, ⟨rfl, rfl⟩, rfl⟩, by rw [hd0]; rfl, by rw [hd0]; rfl, by rw [hd0]; rfl⟩
  have key : ∀ (es' : List (LoopEv K d E.nLagr)) es h l, LoopInv T mk E S ops ob' nEps sops x0 u0 es h l → LoopLog mk E S ops ob' nEps x0 u0 h l →
      (∀ e ∈ es', FairEv e) → (∀ e ∈ es', TurnNumbers E.storeStats e) → LoopLog mk E S ops ob' nEps x0 u0 (h ++ l.history T mk E es') (l.run T mk E es') := by
    intro es'
    induction es' with
    | nil => intro es h l _ hl _ _; simpa [LiveLoop.history, LiveLoop.run] using hl
    | cons e es' ih =>
      intro es h l hi hl h1 h2
      have := ih _ _ _ (loop_exec T mk E S ops ob' nEps sops x0 u0 es h l hi hm e (h1 e (by simp)))
        (looplog_exec T mk E hst S ops ob' nEps sops x0 u0 es h l hi hl hm e (h1 e (by simp)) (h2 e (by simp)))
        (fun p hp => h1 p (by simp [hp])) (fun p hp => h2 p (by simp [hp]))
      simpa [LiveLoop.history, LiveLoop.run] using this
  have := key es [] [] l0 hi0' hlog0 he (fun e hm => by
    cases e with
    | turn Sv => exact hn Sv hm
    | _ => trivial)
  rw [List.nil_append] at this
  obtain ⟨⟨es', h', -, ⟨c1, c2⟩, c3⟩, c4, c5, c6⟩ := this
  refine ⟨?_, ?_, c4, c5, c6⟩
  · rw [c1, c3, List.map_map]; rfl
  · rw [c2, c3, List.map_map]; rfl

/-! ## Non-vacuity -/
namespace LifecycleExample

/-- a simulator of the model `x⁺ = x + u` -/
def T : SimTools ℚ dm := ⟨model, fun _ => .discrete (fun z _ _ _ _ _ => z), fun z _ _ _ _ => z⟩
def sops : List (SimOp ℚ dm) := [.setParam 1]
/-- a refused call, a bound, a turn, a refused call of the simulator, a guess, an episode from 2 with one turn, an episode from 0 with one turn -/
def esL : List (LoopEv ℚ dm E.nLagr) :=
  [.ctrl (.config (.setObjective ob)), .ctrl (.config (.bound .upper (.x x0) (.fin 3))), .turn Sv, .sim (.setParam 2), .sim .setInitialGuess,
    .restart (fun _ => 2), .turn Sv, .ctrl (.solve Sv), .restart 0, .turn Sv]
def loop0 : LiveLoop ℚ dm := LiveLoop.start T E (((MpcObj.new S).run mkD before).exec mkD .setup).1 (((SimObj.new).run T sops).exec T .setup).1 0 0 0 0
def loopEnd : LiveLoop ℚ dm := loop0.run T mkD E esL

theorem esL_fair : ∀ e ∈ esL, FairEv e := by
  intro e he
  simp only [esL, List.mem_cons, List.not_mem_nil, or_false] at he
  rcases he with rfl | rfl | rfl | rfl | rfl | rfl | rfl | rfl | rfl | rfl <;> trivial

theorem plantT : DiscretePlant model T where
  model := rfl
  root := ⟨fun z _ _ _ _ _ => z, fun _ => rfl, fun _ _ _ _ _ => funext fun i => i.elim0⟩
  unique := fun _ _ _ _ _ _ _ _ => funext fun i => i.elim0
  measured := fun _ _ _ _ _ => rfl

theorem predictsT : PredictsPlant sops E.tStep (lastOf settingsOf before S).c (lastOf settingsOf before S).nRobust E.tvpFun E.pFun where
  step := rfl
  tvp := fun _ => rfl
  params := fun t => ⟨0, by unfold MayOccur; rw [if_neg (by decide +kernel)]; rfl, rfl⟩

theorem loopEnd_solver : loopEnd.ctrl.obj.solver = oEnd.solver := rfl
theorem loopEnd_prep : loopEnd.ctrl.obj.prep = oEnd.prep := rfl
theorem loopEnd_minimised : SolverMinimises loopEnd.ctrl.obj wZero qZero := by
  have h := oEnd_minimised
  unfold SolverMinimises Spec.SolverFeasible at h ⊢
  rw [loopEnd_solver, loopEnd_prep]
  exact h

theorem esL_numbers (Sv' : Solver ℚ dm E.nLagr) (h : LoopEv.turn Sv' ∈ esL) : ReportsNumbers E.storeStats Sv' := by
  simp only [esL, List.mem_cons, List.not_mem_nil, or_false, reduceCtorEq, false_or, LoopEv.turn.injEq] at h
  rcases h with rfl | rfl | rfl <;> exact fun _ _ s hs => by simp [Sv] at hs

-- the second episode of this history, seen by its log; the third
example : episode 0 ((loop0.history T mkD E esL).take 8) = [(fun _ => 2, 0)] := by decide +kernel
example : episode 0 (loop0.history T mkD E esL) = [(0, 0)] ∧ turns (loop0.history T mkD E esL) = 1 := by decide +kernel
example : boundsSet esL = [.bound .upper (.x x0) (.fin 3)] := rfl

/-- Non-vacuity of `C111_log`, `C111_runs`. -/
example : loopEnd.sim.st.data.rows "_time" = [[0]] ∧ ∃ u y, (loopEnd.turn T E Sv).2 = .ok (u, y) := by
  have h := C111_log S mkD E (by simp [E]) before (by simp [before, Configures]) T plantT.measured sops (by simp [sops, SimConfigures]) rfl 0 0 0 0 esL esL_fair
    esL_numbers (by decide +kernel) (by decide +kernel)
  refine ⟨h.2.2.2.2.trans ?_, ?_⟩
  · have : turns (loop0.history T mkD E esL) = 1 := by decide +kernel
    exact (congrArg (fun n => (List.range n).map fun i : Nat => [(i : ℚ) * E.tStep]) this).trans (by decide +kernel)
  · exact C111_runs S mkD E (by simp [E]) before (by simp [before, Configures]) T plantT.measured sops (by simp [sops, SimConfigures]) rfl 0 0 0 0 esL esL_fair
      (by decide +kernel) (by decide +kernel) Sv (fun _ _ s hs => by simp [Sv] at hs)

/-- Non-vacuity of `C111_turn` (and `C111_safe`, with the same hypotheses): every hypothesis holds for this history. -/
example : ∃ ob', lastOf (fun op => (objectiveOf op).map some) before none = some ob' ∧
    ∃ π r y, (configured S (before ++ boundsSet esL) ob' model qZero).Optimal π ∧ (loopEnd.turn T E Sv).2 = .ok (π.U 0 [], y) ∧ asState y = π.X 1 (extend 0 0 [] r) := by
  obtain ⟨ob', h1, h2⟩ := C111_turn S model E (by simp [E]) before (by simp [before, Configures]) T plantT sops (by simp [sops, SimConfigures]) predictsT
    0 0 0 0 esL esL_fair (by decide +kernel) (by decide +kernel) plainBefore
  obtain ⟨ob'', h3, h4⟩ := C96_solvable S model before later (by simp [before, Configures]) (by simp [later, Later]) (by decide +kernel) plainCalls
  obtain rfl := Option.some.inj (h1.symm.trans h3)
  refine ⟨ob', h1, ?_⟩
  have hx : lastOf plantState (loop0.history T mkD E esL) 0 = 0 := by decide +kernel
  have hu : lastOf inputGiven (loop0.history T mkD E esL) 0 = 0 := by decide +kernel
  have key : ∀ q : OptP ℚ dm, q = (⟨lastOf plantState (loop0.history T mkD E esL) 0, E.tvpFun ((turns (loop0.history T mkD E esL) : ℚ) * E.tStep),
      E.pFun ((turns (loop0.history T mkD E esL) : ℚ) * E.tStep), lastOf inputGiven (loop0.history T mkD E esL) 0⟩ : OptP ℚ dm) →
      FindsMinimiser loopEnd.ctrl.obj q Sv → (∃ π, (configured S (before ++ boundsSet esL) ob' model q).Admissible π) →
      ∃ π r y, (configured S (before ++ boundsSet esL) ob' model q).Optimal π ∧ (loopEnd.turn T E Sv).2 = .ok (π.U 0 [], y) ∧ asState y = π.X 1 (extend 0 0 [] r) := by
    rintro q rfl f1 f2
    obtain ⟨π, r, y, g1, -, -, g2, g3⟩ := h2 Sv (fun _ _ s hs => by simp [Sv] at hs) f1 f2
    exact ⟨π, r, y, g1, g2, g3⟩
  refine key qZero ?_ (fun _ _ _ _ _ => loopEnd_minimised) ((h4 qZero).1 ⟨wZero, oEnd_minimised.1⟩)
  rw [hx, hu]
  rfl

end LifecycleExample
end DoMpc
