import Verif.Props.Configured
import Verif.Props.MpcRun
import Verif.Spec.Live

/-!
# C109: a configured controller over its whole life
-/
set_option linter.unusedSectionVars false
namespace DoMpc
open Spec
variable {K : Type} [Field K] [LinearOrder K] [IsStrictOrderedRing K] {d : Dims}

section
variable (mk : Vec K d.nx → Vec K d.nu → Vec K d.nz → Ifcn K d)

/-- What every history after `setup()` maintains. -/
structure LiveInv (E : MpcEnv K d) (S : MpcSettings) (ops : List (MpcOp K d)) (ob : Objective K d) (nEps : Nat) (u0 : Vec K d.nu)
    (es : List (LiveEv K d E.nLagr)) (h : List (LiveEv K d E.nLagr × Option (Except String (Vec K d.nu)))) (l : Live K d) : Prop where
  after : After mk S (ops ++ boundsIn es) ob l.obj
  lam : ∀ P, l.obj.prep = some P → l.obj.lamX = none ∨ l.obj.lamX = some P.cfg.nOptX
  setup : l.st.setup = true
  fields : l.st.data.fields = E.fields nEps
  time : l.st.t0 = clock E.tStep h
  input : l.st.u0 = lastOf inputOf h u0

theorem boundsIn_snoc {n : Nat} (es : List (LiveEv K d n)) (e : LiveEv K d n) : boundsIn (es ++ [e]) = boundsIn es ++ boundsIn [e] := by
  simp [boundsIn, List.filterMap_append]

theorem boundsIn_config {n : Nat} (op : MpcOp K d) : boundsIn [(.config op : LiveEv K d n)] = [op].filter isBound := by
  cases op <;> rfl

theorem clock_snoc_set {n : Nat} (tStep : K) (h : List (LiveEv K d n × Option (Except String (Vec K d.nu)))) (e) (v : K) (he : clockSet e = some v) :
    clock tStep (h ++ [e]) = v := by
  simp [clock, lastOf_snoc, he]

theorem clock_snoc_step {n : Nat} (tStep : K) (h : List (LiveEv K d n × Option (Except String (Vec K d.nu)))) (e) (he : clockSet e = none)
    (hs : stepped e = true) : clock tStep (h ++ [e]) = clock tStep h + tStep := by
  simp [clock, lastOf_snoc, he, hs, List.countP_cons]
  ring

theorem clock_snoc_other {n : Nat} (tStep : K) (h : List (LiveEv K d n × Option (Except String (Vec K d.nu)))) (e) (he : clockSet e = none)
    (hs : stepped e = false) : clock tStep (h ++ [e]) = clock tStep h := by
  simp [clock, lastOf_snoc, he, hs, List.countP_cons]

/-- `solve` of an object after `setup()` only records the length of the multipliers -/
theorem live_solve (S : MpcSettings) (calls : List (MpcOp K d)) (ob : Objective K d) (o : MpcObj K d) (h : After mk S calls ob o)
    (hl : ∀ P, o.prep = some P → o.lamX = none ∨ o.lamX = some P.cfg.nOptX) :
    ∃ P, o.prep = some P ∧ o.solve = ({ o with lamX := some P.cfg.nOptX }, none) := by
  obtain ⟨P, hP, -⟩ := h.prep
  refine ⟨P, hP, ?_⟩
  have : o.setup = true := h.isSet
  unfold MpcObj.solve
  rw [this]
  simp only [Bool.not_true, Bool.false_eq_true, if_false, hP]
  rcases hl P hP with e | e
  · rw [e]
  · rw [e]
    simp only [if_true]
    congr 1
    cases o
    simp_all

theorem live_problem (S : MpcSettings) (calls : List (MpcOp K d)) (ob : Objective K d) (o : MpcObj K d) (h : After mk S calls ob o) :
    ∃ pb, o.problem = some pb := by
  obtain ⟨P, hP, -⟩ := h.prep
  refine ⟨⟨⟨(wantedCfg mk S calls ob).obj, (wantedCfg mk S calls ob).rows⟩, P.lb, P.ub⟩, ?_⟩
  simp only [MpcObj.problem, h.solver, hP]

theorem solve_after (S : MpcSettings) (calls : List (MpcOp K d)) (ob : Objective K d) (o : MpcObj K d) (h : After mk S calls ob o) (k : Option Nat) :
    After mk S calls ob { o with lamX := k } := after_noop mk S calls ob o _ h ⟨k, rfl⟩

/-- `make_step` of a live object, in terms of the run-time model -/
theorem live_makeStep (E : MpcEnv K d) (S : MpcSettings) (calls : List (MpcOp K d)) (ob : Objective K d) (l : Live K d) (h : After mk S calls ob l.obj)
    (hl : ∀ P, l.obj.prep = some P → l.obj.lamX = none ∨ l.obj.lamX = some P.cfg.nOptX) (Sv : Solver K d E.nLagr) (x : List K) (hx : x.length = d.nx) :
    ∃ P pb, l.obj.prep = some P ∧ l.obj.problem = some pb ∧
      l.makeStep E Sv x = (⟨{ l.obj with lamX := some P.cfg.nOptX }, ((E.on l.obj P).makeStep (Sv pb) l.st x).1⟩, ((E.on l.obj P).makeStep (Sv pb) l.st x).2) := by
  obtain ⟨P, hP, hs⟩ := live_solve mk S calls ob l.obj h hl
  obtain ⟨pb, hpb⟩ := live_problem mk S calls ob l.obj h
  refine ⟨P, pb, hP, hpb, ?_⟩
  have h0 : ¬ (l.obj.setup = false ∨ x.length ≠ d.nx) := by
    rintro (e | e)
    · rw [h.isSet] at e; cases e
    · exact e hx
  unfold Live.makeStep
  rw [if_neg h0, hpb, hP, hs]

theorem live_refused (E : MpcEnv K d) (l : Live K d) (Sv : Solver K d E.nLagr) (x : List K) (hx : x.length ≠ d.nx) :
    l.makeStep E Sv x = (l, .error "AssertionError") := by
  unfold Live.makeStep
  rw [if_pos (.inr hx)]

theorem bound_lam (o : MpcObj K d) (op : MpcOp K d) (hop : Later op) (hs : o.setup = true) (hc : o.cat = true)
    (h : ∀ P, o.prep = some P → o.lamX = none ∨ o.lamX = some P.cfg.nOptX) (hne : op ≠ .solve) :
    ∀ P, (o.exec mk op).1.prep = some P → (o.exec mk op).1.lamX = none ∨ (o.exec mk op).1.lamX = some P.cfg.nOptX := by
  by_cases hg : op.guarded
  · rw [C37_guarded mk o hs op hg]; exact h
  · cases op with
    | solve => exact (hne rfl).elim
    | create =>
      have : (o.exec mk .create).1 = o := by
        simp only [MpcObj.exec, MpcObj.create]
        split
        · rfl
        · rw [hc]; rfl
      rw [this]; exact h
    | bound s v b =>
      intro P hP
      have e1 : (o.exec mk (.bound s v b)).1.lamX = o.lamX := by
        simp only [MpcObj.exec]
        cases s <;> cases v <;> rfl
      have e2 : (o.exec mk (.bound s v b)).1.prep = o.prep.map (o.writeBound s b v).updatePrepared := rfl
      rw [e2] at hP
      obtain ⟨P0, hP0, rfl⟩ := Option.map_eq_some_iff.1 hP
      rw [e1]
      exact h P0 hP0
    | settings _ => exact hop.elim
    | terminalBound _ _ _ => exact hop.elim
    | optBound _ _ _ => exact hop.elim
    | prepare => exact hop.elim
    | setup => exact hop.elim
    | _ => exact (hg trivial).elim

theorem update_ok_or (E : MpcEnv K d) (Sv : SolverArgs K d → SolverResult K d E.nLagr) (st : MpcSt K d) (x : List K) (e : String)
    (h : (E.makeStep Sv st x).2 = .error e) :
    (E.makeStep Sv st x).1.setup = st.setup ∧ (E.makeStep Sv st x).1.data.fields = st.data.fields ∧ (E.makeStep Sv st x).1.t0 = st.t0 ∧
      (E.makeStep Sv st x).1.u0 = st.u0 := by
  unfold MpcEnv.makeStep at h ⊢
  by_cases hs : st.setup
  · simp only [hs, Bool.not_true, Bool.false_eq_true, if_false] at h ⊢
    by_cases hl : x.length = d.nx
    · rw [dif_pos hl] at h ⊢
      simp only [MpcSt.solve] at h ⊢
      split
      · rename_i D e' heq
        refine ⟨by simp, ?_, by simp, by simp⟩
        simp only
        have := congrArg Prod.fst heq
        simp only at this
        rw [← this, Data.update_fields]
      · rename_i D heq
        rw [heq] at h
        simp at h
    · rw [dif_neg hl]; exact ⟨hs, rfl, rfl, rfl⟩
  · simp only [hs, Bool.not_false, if_true]
    exact ⟨by simpa using hs, trivial, trivial, trivial⟩

theorem inv_exec (E : MpcEnv K d) (S : MpcSettings) (ops : List (MpcOp K d)) (ob : Objective K d) (nEps : Nat) (u0 : Vec K d.nu) (es h) (l : Live K d)
    (hi : LiveInv mk E S ops ob nEps u0 es h l) (e : LiveEv K d E.nLagr) (he : LaterEv e) :
    LiveInv mk E S ops ob nEps u0 (es ++ [e]) (h ++ [(e, (l.exec mk E e).2)]) (l.exec mk E e).1 := by
  obtain ⟨i1, i2, i3, i4, i5, i6⟩ := hi
  cases e with
  | config op =>
    have hl : Later op := by cases op <;> first | exact he | exact he.elim
    have hne : op ≠ .solve := by rintro rfl; exact he
    refine ⟨?_, bound_lam mk l.obj op hl i1.isSet i1.cat i2 hne, i3, i4, ?_, ?_⟩
    · rw [boundsIn_snoc, boundsIn_config, ← List.append_assoc]
      exact after_step mk S _ ob l.obj i1 op hl
    · rw [clock_snoc_other _ _ _ rfl rfl]; exact i5
    · rw [lastOf_snoc]; exact i6
  | step x Sv =>
    have hb : boundsIn (es ++ [LiveEv.step x Sv]) = boundsIn es := by rw [boundsIn_snoc]; simp [boundsIn]
    by_cases hx : x.length = d.nx
    · obtain ⟨P, pb, hP, hpb, hm⟩ := live_makeStep mk E S _ ob l i1 i2 Sv x hx
      have hex : l.exec mk E (.step x Sv) = ((l.makeStep E Sv x).1, some (l.makeStep E Sv x).2) := rfl
      rw [hex, hm]
      cases hr : ((E.on l.obj P).makeStep (Sv pb) l.st x).2 with
      | error e =>
        obtain ⟨f1, f2, f3, f4⟩ := update_ok_or _ _ _ _ e hr
        refine ⟨by rw [hb]; exact solve_after mk S _ ob _ i1 _, ?_, f1.trans i3, f2.trans i4, ?_, ?_⟩
        · intro P' hP'
          obtain rfl := Option.some.inj (hP.symm.trans hP')
          exact .inr rfl
        · rw [clock_snoc_other _ _ _ rfl rfl]; exact f3.trans i5
        · rw [lastOf_snoc]; exact f4.trans i6
      | ok u =>
        obtain ⟨hl, -, -, -, hst⟩ := makeStep_ok _ _ _ _ u hr
        refine ⟨by rw [hb]; exact solve_after mk S _ ob _ i1 _, ?_, ?_, ?_, ?_, ?_⟩
        · intro P' hP'
          obtain rfl := Option.some.inj (hP.symm.trans hP')
          exact .inr rfl
        · simp only; rw [hst]
        · simp only; rw [hst]; simp only; rw [Data.update_fields]; exact i4
        · rw [clock_snoc_step _ _ _ rfl rfl, ← i5]; simp only; rw [hst]; rfl
        · rw [lastOf_snoc]; simp only; rw [hst]; rfl
    · have hex : l.exec mk E (.step x Sv) = (l, some (.error "AssertionError")) := by
        show ((l.makeStep E Sv x).1, some (l.makeStep E Sv x).2) = _
        rw [live_refused E l Sv x hx]
      rw [hex]
      refine ⟨by rw [hb]; exact i1, i2, i3, i4, ?_, ?_⟩
      · rw [clock_snoc_other _ _ _ rfl rfl]; exact i5
      · rw [lastOf_snoc]; exact i6
  | solve Sv =>
    have hb : boundsIn (es ++ [LiveEv.solve Sv]) = boundsIn es := by rw [boundsIn_snoc]; simp [boundsIn]
    obtain ⟨P, hP, hs⟩ := live_solve mk S _ ob l.obj i1 i2
    obtain ⟨pb, hpb⟩ := live_problem mk S _ ob l.obj i1
    have hex : l.exec mk E (.solve Sv) = (⟨{ l.obj with lamX := some P.cfg.nOptX }, l.st.solve (Sv pb)⟩, none) := by
      simp only [Live.exec, Live.solve, hpb, hs]
    rw [hex]
    refine ⟨by rw [hb]; exact solve_after mk S _ ob _ i1 _, ?_, i3, i4, ?_, ?_⟩
    · intro P' hP'
      obtain rfl := Option.some.inj (hP.symm.trans hP')
      exact .inr rfl
    · rw [clock_snoc_other _ _ _ rfl rfl]; exact i5
    · rw [lastOf_snoc]; exact i6
  | reset =>
    refine ⟨by rw [boundsIn_snoc, show boundsIn [_] = ([] : List (MpcOp K d)) from rfl, List.append_nil]; exact i1, i2, i3, i4, ?_, ?_⟩
    · rw [clock_snoc_set _ _ _ 0 rfl]; rfl
    · rw [lastOf_snoc]; exact i6
  | guess =>
    obtain ⟨P, hP, -⟩ := i1.prep
    have hex : l.exec mk E .guess = (⟨l.obj, ((E.on l.obj P).setInitialGuess l.st).1⟩, none) := by
      simp only [Live.exec, hP]
    rw [hex]
    have hg : ((E.on l.obj P).setInitialGuess l.st).1.setup = l.st.setup ∧ ((E.on l.obj P).setInitialGuess l.st).1.data = l.st.data ∧
        ((E.on l.obj P).setInitialGuess l.st).1.t0 = l.st.t0 ∧ ((E.on l.obj P).setInitialGuess l.st).1.u0 = l.st.u0 := by
      unfold MpcEnv.setInitialGuess
      split
      · exact ⟨rfl, rfl, rfl, rfl⟩
      · exact ⟨rfl, rfl, rfl, rfl⟩
    obtain ⟨g1, g2, g3, g4⟩ := hg
    refine ⟨by rw [boundsIn_snoc, show boundsIn [_] = ([] : List (MpcOp K d)) from rfl, List.append_nil]; exact i1, i2, g1.trans i3, (congrArg Data.fields g2).trans i4, ?_, ?_⟩
    · rw [clock_snoc_other _ _ _ rfl rfl]; exact g3.trans i5
    · rw [lastOf_snoc]; exact g4.trans i6
  | setX0 x =>
    refine ⟨by rw [boundsIn_snoc, show boundsIn [_] = ([] : List (MpcOp K d)) from rfl, List.append_nil]; exact i1, i2, i3, i4, ?_, ?_⟩
    · rw [clock_snoc_other _ _ _ rfl rfl]; exact i5
    · rw [lastOf_snoc]; exact i6
  | setU0 u =>
    refine ⟨by rw [boundsIn_snoc, show boundsIn [_] = ([] : List (MpcOp K d)) from rfl, List.append_nil]; exact i1, i2, i3, i4, ?_, ?_⟩
    · rw [clock_snoc_other _ _ _ rfl rfl]; exact i5
    · rw [lastOf_snoc]; rfl
  | setZ0 z =>
    refine ⟨by rw [boundsIn_snoc, show boundsIn [_] = ([] : List (MpcOp K d)) from rfl, List.append_nil]; exact i1, i2, i3, i4, ?_, ?_⟩
    · rw [clock_snoc_other _ _ _ rfl rfl]; exact i5
    · rw [lastOf_snoc]; exact i6
  | setT0 t =>
    refine ⟨by rw [boundsIn_snoc, show boundsIn [_] = ([] : List (MpcOp K d)) from rfl, List.append_nil]; exact i1, i2, i3, i4, ?_, ?_⟩
    · rw [clock_snoc_set _ _ _ t rfl]; rfl
    · rw [lastOf_snoc]; exact i6

theorem inv_run (E : MpcEnv K d) (S : MpcSettings) (ops : List (MpcOp K d)) (ob : Objective K d) (nEps : Nat) (u0 : Vec K d.nu)
    (es' : List (LiveEv K d E.nLagr)) : ∀ es h l, LiveInv mk E S ops ob nEps u0 es h l → (∀ e ∈ es', LaterEv e) →
    LiveInv mk E S ops ob nEps u0 (es ++ es') (h ++ l.history mk E es') (l.run mk E es') := by
  induction es' with
  | nil => intro es h l hi _; simpa [Live.history, Live.run] using hi
  | cons e es' ih =>
    intro es h l hi hl
    have := ih _ _ _ (inv_exec mk E S ops ob nEps u0 es h l hi e (hl e (by simp))) (fun p hp => hl p (by simp [hp]))
    simpa [Live.history, Live.run] using this

theorem conf_lam (S : MpcSettings) (ops : List (MpcOp K d)) (h : ∀ op ∈ ops, Configures op) : ((MpcObj.new S : MpcObj K d).run mk ops).lamX = none := by
  induction ops using List.reverseRecOn with
  | nil => rfl
  | append_singleton ops op ih =>
    rw [MpcObj.run_append]
    have hi := ih fun p hp => h p (by simp [hp])
    have hop := h op (by simp)
    generalize (MpcObj.new S : MpcObj K d).run mk ops = o at hi
    show ((o.exec mk op).1).lamX = none
    cases op with
    | bound s v b => simp only [MpcObj.exec]; cases s <;> cases v <;> exact hi
    | terminalBound s j b =>
      simp only [MpcObj.exec, MpcObj.writeTerminal]
      repeat' split
      all_goals exact hi
    | scaling v a =>
      simp only [MpcObj.exec]
      split
      · exact hi
      · cases v <;> exact hi
    | setParam _ => simp only [MpcObj.exec]; split <;> exact hi
    | settings _ => exact hi
    | setObjective _ => simp only [MpcObj.exec]; split <;> exact hi
    | setRterm _ => simp only [MpcObj.exec]; split <;> exact hi
    | setNlCons _ => simp only [MpcObj.exec]; split <;> exact hi
    | _ => exact hop.elim

theorem inv_start (E : MpcEnv K d) (S : MpcSettings) (ops : List (MpcOp K d)) (h : ∀ op ∈ ops, Configures op)
    (hs : (((MpcObj.new S : MpcObj K d).run mk ops).exec mk .setup).2 = none) (nEps : Nat) (x0 : Vec K d.nx) (u0 : Vec K d.nu) (z0 : Vec K d.nz) :
    ∃ ob, lastOf (fun op => (objectiveOf op).map some) ops none = some ob ∧
      LiveInv mk E S ops ob nEps u0 [] [] (Live.start E (((MpcObj.new S : MpcObj K d).run mk ops).exec mk .setup).1 nEps x0 u0 z0) := by
  obtain ⟨ob, ha⟩ := after_setup mk S ops h hs
  refine ⟨ob, ha.objective, by rw [show boundsIn [] = ([] : List (MpcOp K d)) from rfl, List.append_nil]; exact ha, ?_, rfl, rfl, ?_, rfl⟩
  · intro P hP
    left
    have F := conf_run mk S ops h
    obtain ⟨ob', -, he⟩ := setup_fresh mk _ F.unset.2.2 hs
    simp only [Live.start]
    rw [he]
    exact conf_lam mk S ops h
  · simp [Live.start, MpcEnv.fresh, clock, lastOf]

/-- Bounds do not matter for the restrictions on the calls. -/
theorem plain_bounds {n : Nat} (S : MpcSettings) (ops : List (MpcOp K d)) (es : List (LiveEv K d n)) (h : PlainCalls S ops) : PlainCalls S (ops ++ boundsIn es) := by
  have key : ∀ {β : Type} (f : MpcOp K d → Option β) (v : β), (∀ s v b, f (.bound s v b) = none) → lastOf f (ops ++ boundsIn es) v = lastOf f ops v := by
    intro β f v hf
    unfold lastOf
    rw [List.filterMap_append]
    have : (boundsIn es).filterMap f = [] := by
      rw [List.filterMap_eq_nil_iff]
      intro a ha
      obtain ⟨e, -, he⟩ := List.mem_filterMap.1 ha
      split at he
      · cases he; exact hf _ _ _
      · cases he
    rw [this, List.append_nil]
  have k1 := key settingsOf S (fun _ _ _ => rfl)
  have k2 := fun v => key (scalingOf v) 1 (fun _ _ _ => rfl)
  have k3 := key rtermOf (.factor fun _ => 0) (fun _ _ _ => rfl)
  have k4 : (ops ++ boundsIn es).filterMap nlConsOf = ops.filterMap nlConsOf := by
    rw [List.filterMap_append]
    have : (boundsIn es).filterMap nlConsOf = [] := by
      rw [List.filterMap_eq_nil_iff]
      intro a ha
      obtain ⟨e, -, he⟩ := List.mem_filterMap.1 ha
      split at he
      · cases he; rfl
      · cases he
    rw [this, List.append_nil]
  obtain ⟨h1, h2, h3, h4, h5, h6, h7, h8⟩ := h
  exact ⟨k1 ▸ h1, k1 ▸ h2, k1 ▸ h3, k1 ▸ h4, k1 ▸ h5, fun v => k2 v ▸ h6 v, k4 ▸ h7, fun f hf j => k2 _ ▸ h8 f (k3 ▸ hf) j⟩

/-- one step of a history, with any solver -/
theorem live_step (E : MpcEnv K d) (hst : ∀ s ∈ E.storeStats, s ∈ validStats) (S : MpcSettings) (ops : List (MpcOp K d)) (ob : Objective K d) (nEps : Nat)
    (u0 : Vec K d.nu) (es h) (l : Live K d) (hi : LiveInv mk E S ops ob nEps u0 es h l) (Sv : Solver K d E.nLagr) (hn : ReportsNumbers E.storeStats Sv)
    (x : List K) (hx : x.length = d.nx) :
    ∃ pb a, l.obj.problem = some pb ∧
      a.p = ⟨fun i => x.get (i.cast hx.symm), E.tvpFun (clock E.tStep h), E.pFun (clock E.tStep h), lastOf inputOf h u0⟩ ∧
      (l.makeStep E Sv x).2 = .ok (l.obj.returnedInput (Sv pb a).x) := by
  obtain ⟨P, pb, hP, hpb, hm⟩ := live_makeStep mk E S _ ob l hi.after hi.lam Sv x hx
  obtain ⟨u, hu⟩ := (C54_make_step_succeeds_iff (E.on l.obj P) hst (Sv pb) l.st nEps hi.fields hi.setup x hx).2
    (fun s hs hm => hn pb _ s hs hm)
  obtain ⟨hl, -, he, -⟩ := makeStep_ok _ _ _ _ u hu
  refine ⟨pb, ⟨l.st.optX, ⟨fun i => x.get (i.cast hx.symm), E.tvpFun l.st.t0, E.pFun l.st.t0, l.st.u0⟩,
    if l.st.initialRun then some (l.st.lamG, l.st.lamX) else none⟩, hpb, ?_, ?_⟩
  · rw [hi.time, hi.input]
  · rw [hm]
    simp only
    rw [hu, he]
    rfl

end

/-- **C109** (discrete-time models): configure a new MPC object by any calls and `setup()` it.  From then on, in *every* history – steps, `reset_history()`, `set_initial_guess()`,
calls of `solve()`, assignments of bounds and of `x0`, `u0`, `z0`, `t0`, refused calls, in any order and number – a `make_step(x)` with a state of the right size succeeds and
returns the first input of an optimal policy of the problem with the configuration given before `setup()` and the bounds given so far, for the state `x`, the input
returned (or assigned) last and the parameters of the controller's time – if there is an admissible policy and the solver finds global minimisers. -/
theorem C109_step (S : MpcSettings) (m : DaeModel K d) (E : MpcEnv K d) (hst : ∀ s ∈ E.storeStats, s ∈ validStats) (ops : List (MpcOp K d))
    (hc : ∀ op ∈ ops, Configures op) (nEps : Nat) (x0 : Vec K d.nx) (u0 : Vec K d.nu) (z0 : Vec K d.nz) (es : List (LiveEv K d E.nLagr)) (he : ∀ e ∈ es, LaterEv e) :
    let mk := fun sx su sz => discreteIfcn m sx su sz 1
    let o1 := (MpcObj.new S : MpcObj K d).run mk ops
    let l0 := Live.start E (o1.exec mk .setup).1 nEps x0 u0 z0
    let l := l0.run mk E es
    let h := l0.history mk E es
    (o1.exec mk .setup).2 = none → PlainCalls S ops →
      ∃ ob, lastOf (fun op => (objectiveOf op).map some) ops none = some ob ∧
        ∀ (x : List K) (hx : x.length = d.nx) (Sv : Solver K d E.nLagr), ReportsNumbers E.storeStats Sv →
          let q : OptP K d := ⟨fun i => x.get (i.cast hx.symm), E.tvpFun (clock E.tStep h), E.pFun (clock E.tStep h), lastOf inputOf h u0⟩
          let problem := configured S (ops ++ boundsIn es) ob m q
          FindsMinimiser l.obj q Sv → (∃ π, problem.Admissible π) → ∃ π, problem.Optimal π ∧ (l.makeStep E Sv x).2 = .ok (π.U 0 []) := by
  intro mk o1 l0 l h hs hp
  obtain ⟨ob, hob, hi0⟩ := inv_start mk E S ops hc hs nEps x0 u0 z0
  refine ⟨ob, hob, ?_⟩
  intro x hx Sv hn q problem hf hπ
  have hi := inv_run mk E S ops ob nEps u0 es [] [] l0 hi0 he
  rw [List.nil_append, List.nil_append] at hi
  obtain ⟨pb, a, hpb, ha, hu⟩ := live_step mk E hst S ops ob nEps u0 es h l hi Sv hn x hx
  have hR := plain_regular S (ops ++ boundsIn es) ob m (plain_bounds S ops es hp)
  have hex : ∃ w, SolverFeasible l.obj w q := by
    rw [show problem = _ from (wantedCfg_problem mk S (ops ++ boundsIn es) ob m q).symm, ← C12_solver_problem_feasible_iff _ m hR q] at hπ
    obtain ⟨w, hw⟩ := hπ
    exact ⟨w, (after_feasible mk S _ ob l.obj hi.after w q).2 hw⟩
  have hmin := hf pb hpb a ha hex
  obtain ⟨e1, e2⟩ := C12_first_input_of_optimal_policy_partial _ m hR _ q ((after_minimises mk S _ ob l.obj hi.after _ q).1 hmin)
  refine ⟨_, wantedCfg_problem mk S (ops ++ boundsIn es) ob m q ▸ e1, ?_⟩
  rw [hu, ← e2]
  exact congrArg (fun v => Except.ok ((Sv pb a).x.u 0 0 * v)) hi.after.su

/-- **C109** (continuous-time models, collocation): the same, for a stage cost and an input penalty that do not depend on the algebraic states. -/
theorem C109_step_collocation (S : MpcSettings) (m : DaeModel K d) (mk : Vec K d.nx → Vec K d.nu → Vec K d.nz → Ifcn K d) (deg ni : Nat) (tau : Nat → K) (tStep : K)
    (htau : tau 0 = 0) (hinj : ∀ i ≤ deg, ∀ j ≤ deg, tau i = tau j → i = j) (hmk : ∀ sx su sz, setupCollocation m sx su sz 1 deg ni tau tStep = .ok (mk sx su sz))
    (E : MpcEnv K d) (hst : ∀ s ∈ E.storeStats, s ∈ validStats) (ops : List (MpcOp K d))
    (hc : ∀ op ∈ ops, Configures op) (nEps : Nat) (x0 : Vec K d.nx) (u0 : Vec K d.nu) (z0 : Vec K d.nz) (es : List (LiveEv K d E.nLagr)) (he : ∀ e ∈ es, LaterEv e) :
    let o1 := (MpcObj.new S : MpcObj K d).run mk ops
    let l0 := Live.start E (o1.exec mk .setup).1 nEps x0 u0 z0
    let l := l0.run mk E es
    let h := l0.history mk E es
    (o1.exec mk .setup).2 = none → PlainCalls S ops →
    (∀ f, lastOf rtermOf (ops ++ boundsIn es) (.factor fun _ => 0) = .user f → ∀ x u v z z' tv p, f x u v z tv p = f x u v z' tv p) →
      ∃ ob, lastOf (fun op => (objectiveOf op).map some) ops none = some ob ∧
        ((∀ x u z z' tv p, ob.lterm x u z tv p = ob.lterm x u z' tv p) →
        ∀ (x : List K) (hx : x.length = d.nx) (Sv : Solver K d E.nLagr), ReportsNumbers E.storeStats Sv →
          let q : OptP K d := ⟨fun i => x.get (i.cast hx.symm), E.tvpFun (clock E.tStep h), E.pFun (clock E.tStep h), lastOf inputOf h u0⟩
          let problem := configuredColl S (ops ++ boundsIn es) ob m deg ni tau tStep q
          FindsMinimiser l.obj q Sv → (∃ π, problem.Admissible π) → ∃ π, problem.Optimal π ∧ (l.makeStep E Sv x).2 = .ok (π.U 0 [])) := by
  intro o1 l0 l h hs hp hz
  obtain ⟨ob, hob, hi0⟩ := inv_start mk E S ops hc hs nEps x0 u0 z0
  refine ⟨ob, hob, ?_⟩
  intro hlt x hx Sv hn q problem hf hπ
  have hi := inv_run mk E S ops ob nEps u0 es [] [] l0 hi0 he
  rw [List.nil_append, List.nil_append] at hi
  obtain ⟨pb, a, hpb, ha, hu⟩ := live_step mk E hst S ops ob nEps u0 es h l hi Sv hn x hx
  have hp := plain_bounds S ops es hp
  have hR : (wantedCfg mk S (ops ++ boundsIn es) ob).CollRegular m deg ni tau tStep :=
    { setup := hmk _ _ _, tau0 := htau, tauInj := hinj, cpos := hp.cpos, sx := fun j => hp.scaling (.x j), su := fun j => hp.scaling (.u j),
      sz := fun j => hp.scaling (.z j), noColl := hp.noColl, names := hp.names, noAlg := hp.noAlg, slack := hp.slack, horizon := hp.horizon,
      lterm := hlt, rterm := fun f hf => ⟨hp.rterm f hf, hz f hf⟩ }
  have hpr : (wantedCfg mk S (ops ++ boundsIn es) ob).collProblem m deg ni tau tStep q = problem := by
    unfold MpcCfg.collProblem
    rw [wantedCfg_problem]
    rfl
  have hex : ∃ w, SolverFeasible l.obj w q := by
    obtain ⟨π, hπ⟩ := hπ
    rw [← hpr] at hπ
    have hw := (C12_admissible_is_feasible_collocation hR q π hπ).1
    exact ⟨_, (after_feasible mk S _ ob l.obj hi.after _ q).2 hw⟩
  have hmin := hf pb hpb a ha hex
  obtain ⟨π, e1, e2, e3⟩ := C12_first_input_collocation_partial hR _ q ((after_minimises mk S _ ob l.obj hi.after _ q).1 hmin)
  refine ⟨π, hpr ▸ e1, ?_⟩
  rw [hu, e3]
  exact congrArg (fun v => Except.ok ((Sv pb a).x.u 0 0 * v)) hi.after.su

/-- **C109** (no stop): in every such history a `make_step` with a state of the right size succeeds – whatever the solver found, as long as the statistics to be stored are
numbers –, and one with a state of another size is refused and changes nothing. -/
theorem C109_runs (S : MpcSettings) (mk : Vec K d.nx → Vec K d.nu → Vec K d.nz → Ifcn K d) (E : MpcEnv K d) (hst : ∀ s ∈ E.storeStats, s ∈ validStats)
    (ops : List (MpcOp K d)) (hc : ∀ op ∈ ops, Configures op) (nEps : Nat) (x0 : Vec K d.nx) (u0 : Vec K d.nu) (z0 : Vec K d.nz)
    (es : List (LiveEv K d E.nLagr)) (he : ∀ e ∈ es, LaterEv e) :
    let o1 := (MpcObj.new S : MpcObj K d).run mk ops
    let l := (Live.start E (o1.exec mk .setup).1 nEps x0 u0 z0).run mk E es
    (o1.exec mk .setup).2 = none →
      (∀ x Sv, x.length = d.nx → ReportsNumbers E.storeStats Sv → ∃ u, (l.makeStep E Sv x).2 = .ok u) ∧
      ∀ x Sv, x.length ≠ d.nx → l.makeStep E Sv x = (l, .error "AssertionError") := by
  intro o1 l hs
  obtain ⟨ob, hob, hi0⟩ := inv_start mk E S ops hc hs nEps x0 u0 z0
  have hi := inv_run mk E S ops ob nEps u0 es [] [] _ hi0 he
  refine ⟨fun x Sv hx hn => ?_, fun x Sv hx => live_refused E l Sv x hx⟩
  obtain ⟨pb, a, -, -, hu⟩ := live_step mk E hst S ops ob nEps u0 es _ l hi Sv hn x hx
  exact ⟨_, hu⟩

/-- columns of the log -/
def LogShows (E : MpcEnv K d) (h : List (LiveEv K d E.nLagr × Option (Except String (Vec K d.nu)))) (l : Live K d) : Prop :=
  l.st.data.rows "_x" = ((sinceReset h).filterMap pairOf).map (·.1) ∧ l.st.data.rows "_u" = ((sinceReset h).filterMap pairOf).map fun p => List.ofFn p.2

theorem sinceReset_snoc {n : Nat} (h : List (LiveEv K d n × Option (Except String (Vec K d.nu)))) (e : LiveEv K d n) (r)
    (he : e ≠ .reset) : sinceReset (h ++ [(e, r)]) = sinceReset h ++ [(e, r)] := by
  unfold sinceReset
  rw [List.reverse_append, List.reverse_singleton, List.singleton_append, List.takeWhile_cons]
  cases e with
  | reset => exact (he rfl).elim
  | _ => simp

/-- solvers of the steps report numbers -/
def NumbersIn {n : Nat} (names : List String) : LiveEv K d n → Prop
  | .step _ S => ReportsNumbers names S
  | _ => True

theorem logs_exec (mk : Vec K d.nx → Vec K d.nu → Vec K d.nz → Ifcn K d) (E : MpcEnv K d) (hst : ∀ s ∈ E.storeStats, s ∈ validStats) (S : MpcSettings)
    (ops : List (MpcOp K d)) (ob : Objective K d) (nEps : Nat) (u0 : Vec K d.nu) (es h) (l : Live K d) (hi : LiveInv mk E S ops ob nEps u0 es h l)
    (hl : LogShows E h l) (e : LiveEv K d E.nLagr) (hn : NumbersIn E.storeStats e) :
    LogShows E (h ++ [(e, (l.exec mk E e).2)]) (l.exec mk E e).1 := by
  have keep : ∀ l' : Live K d, e ≠ .reset → l'.st.data = l.st.data → pairOf (e, (l.exec mk E e).2) = none → LogShows E (h ++ [(e, (l.exec mk E e).2)]) l' := by
    intro l' h1 h2 h3
    unfold LogShows
    rw [sinceReset_snoc _ _ _ h1, List.filterMap_append, h2]
    simp only [List.filterMap_cons, List.filterMap_nil, h3, List.append_nil]
    exact hl
  cases e with
  | step x Sv =>
    by_cases hx : x.length = d.nx
    · obtain ⟨P, pb, hP, hpb, hm⟩ := live_makeStep mk E S _ ob l hi.after hi.lam Sv x hx
      obtain ⟨pb', a, hpb', -, hu⟩ := live_step mk E hst S ops ob nEps u0 es h l hi Sv hn x hx
      obtain rfl := Option.some.inj (hpb.symm.trans hpb')
      set u := l.obj.returnedInput (Sv pb a).x
      have hu' : ((E.on l.obj P).makeStep (Sv pb) l.st x).2 = .ok u := by rw [hm] at hu; exact hu
      obtain ⟨hlen, -, hue, hup, hst'⟩ := makeStep_ok _ _ _ _ u hu'
      have hex : l.exec mk E (.step x Sv) = ((l.makeStep E Sv x).1, some (.ok u)) := by
        show ((l.makeStep E Sv x).1, some (l.makeStep E Sv x).2) = _
        rw [hu]
      rw [hex]
      unfold LogShows
      rw [sinceReset_snoc _ _ _ (by simp), List.filterMap_append]
      have hp : [(LiveEv.step x Sv, some (Except.ok u))].filterMap (pairOf (K := K) (d := d) (n := E.nLagr)) = [(x, u)] := rfl
      have hx0 : List.ofFn (fun i : Fin d.nx => x.get (i.cast hx.symm)) = x := by
        apply List.ext_getElem
        · simp [hx]
        · intro i h1 h2; simp
      rw [hp]
      simp only [List.map_append, List.map_cons, List.map_nil]
      have g := record_given (E.on l.obj P) hst l.st.t0 (fun i => x.get (i.cast hx.symm))
        ⟨fun i => x.get (i.cast hx.symm), (E.on l.obj P).tvpFun l.st.t0, (E.on l.obj P).pFun l.st.t0, l.st.u0⟩
        (Sv pb ⟨l.st.optX, ⟨fun i => x.get (i.cast hx.symm), (E.on l.obj P).tvpFun l.st.t0, (E.on l.obj P).pFun l.st.t0, l.st.u0⟩,
          if l.st.initialRun then some (l.st.lamG, l.st.lamX) else none⟩)
      rw [hm]
      simp only
      rw [hst']
      simp only
      rw [C17_update_appends _ _ hup, C17_update_appends _ _ hup, g.1, g.2.1, hx0, ← hue]
      exact ⟨by rw [hl.1], by rw [hl.2]⟩
    · have hex : l.exec mk E (.step x Sv) = (l, some (.error "AssertionError")) := by
        show ((l.makeStep E Sv x).1, some (l.makeStep E Sv x).2) = _
        rw [live_refused E l Sv x hx]
      exact keep _ (by simp) (by rw [hex]) (by rw [hex]; rfl)
  | reset =>
    show LogShows E (h ++ [(LiveEv.reset, none)]) ⟨l.obj, l.st.resetHistory⟩
    unfold LogShows sinceReset
    obtain ⟨w1, w2, -⟩ := width_standard E nEps l.st.data hi.fields
    simp [MpcSt.resetHistory, Data.initStorage, w1, w2]
  | solve Sv =>
    refine keep _ (by simp) ?_ rfl
    simp only [Live.exec, Live.solve]
    repeat' split
    all_goals rfl
  | guess =>
    refine keep _ (by simp) ?_ ?_
    · simp only [Live.exec]
      split
      · unfold MpcEnv.setInitialGuess
        split <;> rfl
      · rfl
    · simp only [Live.exec]
      split <;> rfl
  | _ => exact keep _ (by simp) rfl rfl

/-- **C109** (the log): after every such history, the columns `_x` and `_u` of the log are the states passed to and the inputs returned by the successful `make_step` calls since
the last `reset_history()`, in order. -/
theorem C109_log (S : MpcSettings) (mk : Vec K d.nx → Vec K d.nu → Vec K d.nz → Ifcn K d) (E : MpcEnv K d) (hst : ∀ s ∈ E.storeStats, s ∈ validStats)
    (ops : List (MpcOp K d)) (hc : ∀ op ∈ ops, Configures op) (nEps : Nat) (x0 : Vec K d.nx) (u0 : Vec K d.nu) (z0 : Vec K d.nz)
    (es : List (LiveEv K d E.nLagr)) (he : ∀ e ∈ es, LaterEv e) (hn : ∀ x Sv, LiveEv.step x Sv ∈ es → ReportsNumbers E.storeStats Sv) :
    let o1 := (MpcObj.new S : MpcObj K d).run mk ops
    let l0 := Live.start E (o1.exec mk .setup).1 nEps x0 u0 z0
    let l := l0.run mk E es
    let steps := (sinceReset (l0.history mk E es)).filterMap pairOf
    (o1.exec mk .setup).2 = none →
      l.st.data.rows "_x" = steps.map (·.1) ∧ l.st.data.rows "_u" = steps.map fun p => List.ofFn p.2 := by
  intro o1 l0 l steps hs
  obtain ⟨ob, hob, hi0⟩ := inv_start mk E S ops hc hs nEps x0 u0 z0
  have key : ∀ (es' : List (LiveEv K d E.nLagr)) es h l, LiveInv mk E S ops ob nEps u0 es h l → LogShows E h l → (∀ e ∈ es', LaterEv e) →
      (∀ e ∈ es', NumbersIn E.storeStats e) → LogShows E (h ++ l.history mk E es') (l.run mk E es') := by
    intro es'
    induction es' with
    | nil => intro es h l _ hl _ _; simpa [Live.history, Live.run] using hl
    | cons e es' ih =>
      intro es h l hi hl h1 h2
      have := ih _ _ _ (inv_exec mk E S ops ob nEps u0 es h l hi e (h1 e (by simp))) (logs_exec mk E hst S ops ob nEps u0 es h l hi hl e (h2 e (by simp)))
        (fun p hp => h1 p (by simp [hp])) (fun p hp => h2 p (by simp [hp]))
      simpa [Live.history, Live.run] using this
  have := key es [] [] l0 hi0 ⟨rfl, rfl⟩ he (fun e hm => by
    cases e with
    | step x Sv => exact hn x Sv hm
    | _ => trivial)
  rw [List.nil_append] at this
  exact this

/-! ## A concrete history -/
namespace LifecycleExample

/-- the environment of the example -/
def E : MpcEnv ℚ dm where
  model := model
  cfg := wantedCfg mkD S before ob
  tStep := 1
  tvpFun := fun _ _ => 0
  pFun := fun _ _ => 0
  nOptX := 0
  nOptP := 0
  nOptAux := 0
  nLagr := 0
  flatX := fun _ i => i.elim0
  flatP := fun _ i => i.elim0
  flatAux := fun _ _ i => i.elim0

/-- a solver that returns the origin -/
def Sv : Solver ℚ dm E.nLagr := fun _ _ => ⟨wZero, fun i => i.elim0, [], []⟩
/-- a refused call, a bound, `solve()`, a step, a step with a state of the wrong size, a reset, another step, an assignment to `u0` -/
def es : List (LiveEv ℚ dm E.nLagr) :=
  [.config (.setObjective ob), .config (.bound .upper (.x x0) (.fin 3)), .solve Sv, .step [0] Sv, .step [0, 1] Sv, .reset, .step [0] Sv, .setU0 0]
def l0 : Live ℚ dm := Live.start E (((MpcObj.new S).run mkD before).exec mkD .setup).1 0 0 0 0
def lEnd : Live ℚ dm := l0.run mkD E es

theorem lEnd_solver : lEnd.obj.solver = oEnd.solver := rfl
theorem lEnd_prep : lEnd.obj.prep = oEnd.prep := rfl

theorem es_later : ∀ e ∈ es, LaterEv e := by
  intro e he
  simp only [es, List.mem_cons, List.not_mem_nil, or_false] at he
  rcases he with rfl | rfl | rfl | rfl | rfl | rfl | rfl | rfl <;> trivial

theorem lEnd_minimised : SolverMinimises lEnd.obj wZero qZero := by
  have h := oEnd_minimised
  unfold SolverMinimises SolverFeasible at h ⊢
  rw [lEnd_solver, lEnd_prep]
  exact h

-- the clock and the last input of this history: one successful step since the reset
example : clock E.tStep (l0.history mkD E es) = 1 := by decide +kernel
example : lastOf inputOf (l0.history mkD E es) (fun _ => 5) = 0 := by
  funext j
  obtain rfl : j = u0 := Subsingleton.elim (α := Fin 1) _ _
  decide +kernel
example : boundsIn es = [.bound .upper (.x x0) (.fin 3)] := rfl
-- one row since the reset
example : lEnd.st.data.rows "_x" = [[0]] ∧ lEnd.st.data.rows "_u" = [[0]] := by decide +kernel

theorem plainBefore : PlainCalls S before where
  cpos := by decide
  horizon := by decide
  slack := rfl
  noColl := rfl
  noAlg := .inl rfl
  scaling := plainCalls.scaling
  names := by decide
  rterm := by
    intro f hf
    have : lastOf rtermOf before (.factor fun _ => 0) = (.factor 1 : RTerm ℚ dm) := rfl
    rw [this] at hf
    cases hf

/-- Non-vacuity of `C109_step`: every hypothesis holds for this history and the state 0. -/
example : ∃ ob', lastOf (fun op => (objectiveOf op).map some) before none = some ob' ∧
    ∃ π, (configured S (before ++ boundsIn es) ob' model qZero).Optimal π ∧ (lEnd.makeStep E Sv [0]).2 = .ok (π.U 0 []) := by
  obtain ⟨ob', h1, h2⟩ := C109_step S model E (by simp [E]) before (by simp [before, Configures]) 0 0 0 0 es es_later (by decide +kernel) plainBefore
  have hs := C96_solvable S model before later (by simp [before, Configures]) (by simp [later, Later]) (by decide +kernel) plainCalls
  obtain ⟨ob'', h3, h4⟩ := hs
  obtain rfl := Option.some.inj (h1.symm.trans h3)
  refine ⟨ob', h1, ?_⟩
  have hlen : [(0 : ℚ)].length = dm.nx := rfl
  have hq : (⟨fun i => [(0 : ℚ)].get (i.cast hlen.symm), E.tvpFun (clock E.tStep (l0.history mkD E es)), E.pFun (clock E.tStep (l0.history mkD E es)),
      lastOf inputOf (l0.history mkD E es) 0⟩ : OptP ℚ dm) = qZero := by
    have : lastOf inputOf (l0.history mkD E es) 0 = 0 := by
      funext j
      obtain rfl : j = u0 := Subsingleton.elim (α := Fin 1) _ _
      decide +kernel
    rw [this]
    have : (fun i : Fin dm.nx => [(0 : ℚ)].get (i.cast hlen.symm)) = 0 := by
      funext j
      obtain rfl : j = x0 := Subsingleton.elim (α := Fin 1) _ _
      rfl
    rw [this]
    rfl
  have key : ∀ q : OptP ℚ dm, q = (⟨fun i => [(0 : ℚ)].get (i.cast hlen.symm), E.tvpFun (clock E.tStep (l0.history mkD E es)),
      E.pFun (clock E.tStep (l0.history mkD E es)), lastOf inputOf (l0.history mkD E es) 0⟩ : OptP ℚ dm) → FindsMinimiser lEnd.obj q Sv →
      (∃ π, (configured S (before ++ boundsIn es) ob' model q).Admissible π) →
      ∃ π, (configured S (before ++ boundsIn es) ob' model q).Optimal π ∧ (lEnd.makeStep E Sv [0]).2 = .ok (π.U 0 []) := by
    rintro q rfl
    exact h2 [0] hlen Sv (fun _ _ s hs => by simp [Sv] at hs)
  exact key qZero hq.symm (fun _ _ _ _ _ => lEnd_minimised) ((h4 qZero).1 ⟨wZero, oEnd_minimised.1⟩)

end LifecycleExample
end DoMpc
