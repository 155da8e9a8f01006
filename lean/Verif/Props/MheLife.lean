import Verif.Model.MheLife
import Verif.Props.MheRun
import Mathlib.Algebra.Field.Rat
import Mathlib.Algebra.Order.Ring.Unbundled.Rat

/-! # Property C86: a moving horizon estimator that has been set up keeps its configuration -/
set_option linter.unusedSectionVars false
namespace DoMpc
variable {K : Type} [Field K] [LinearOrder K] {d : Dims} {ne ns : Nat} (T : MheTools K d ne ns)

theorem MheObj.run_append (a b : List (MheOp K d ne ns)) : ∀ o : MheObj K d ne ns, o.run T (a ++ b) = (o.run T a).run T b := by
  induction a with
  | nil => intro o; rfl
  | cons op a ih => intro o; exact ih _

/-- the calls that are refused after `setup` -/
def MheOp.guarded : MheOp K d ne ns → Prop
  | .setParam _ | .setObjective _ | .setNlCons _ | .scaling _ _ | .nlpObj _ | .nlpCons _ => True
  | _ => False

/-- the calls that (re)build the problem -/
def MheOp.builds : MheOp K d ne ns → Prop
  | .prepare | .create | .setup => True
  | _ => False

/-- **C86** (refusal): once set up, `set_param`, `set_objective`, `set_nl_cons`, `scaling[…] =`, `nlp_obj =` and `nlp_cons =` raise and change nothing. -/
theorem C86_guarded (o : MheObj K d ne ns) (h : o.setup = true) (op : MheOp K d ne ns) (hop : op.guarded) : o.exec T op = (o, some "AssertionError") := by
  cases op with
  | nlpObj f => cases hp : o.prep <;> simp [MheObj.exec, h, hp]
  | nlpCons f => cases hp : o.prep <;> simp [MheObj.exec, h, hp]
  | setParam s => simp [MheObj.exec, h]
  | setObjective s => simp [MheObj.exec, h]
  | setNlCons s => simp [MheObj.exec, h]
  | scaling v a => simp [MheObj.exec, h]
  | _ => exact hop.elim

/-- what the bounds setter does not touch -/
theorem mhe_writeBound_fields (o : MheObj K d ne ns) (s : Side) (v : MheIx d ne) (b : Bound K) :
    (o.writeBound s b v).setup = o.setup ∧ (o.writeBound s b v).solver = o.solver ∧ (o.writeBound s b v).cost = o.cost ∧ (o.writeBound s b v).nl = o.nl ∧
    (o.writeBound s b v).sx = o.sx ∧ (o.writeBound s b v).su = o.su ∧ (o.writeBound s b v).sz = o.sz ∧ (o.writeBound s b v).sp = o.sp ∧
    (o.writeBound s b v).set = o.set ∧ (o.writeBound s b v).yFun = o.yFun ∧ (o.writeBound s b v).ys = o.ys ∧ (o.writeBound s b v).yTmpl = o.yTmpl ∧
    (o.writeBound s b v).t0 = o.t0 := by
  cases s <;> cases v <;> exact ⟨rfl, rfl, rfl, rfl, rfl, rfl, rfl, rfl, rfl, rfl, rfl, rfl, rfl⟩

/-- one call of `make_step` changes the log, the clock and the template only -/
theorem mhe_step_fields (o : MheObj K d ne ns) (y0 : List K) :
    ∃ t T ys, (o.step y0).1 = { o with ys := ys, t0 := t, yTmpl := T } := by
  unfold MheObj.step
  repeat' (first | split | dsimp only)
  all_goals exact ⟨_, _, _, rfl⟩

theorem mhe_frozen_step (o : MheObj K d ne ns) (h : o.setup = true) (op : MheOp K d ne ns) (hop : ¬ op.builds) :
    (o.exec T op).1.setup = true ∧ (o.exec T op).1.solver = o.solver ∧ (o.exec T op).1.cost = o.cost ∧ (o.exec T op).1.nl = o.nl ∧
    (o.exec T op).1.sx = o.sx ∧ (o.exec T op).1.su = o.su ∧ (o.exec T op).1.sz = o.sz ∧ (o.exec T op).1.sp = o.sp := by
  by_cases hg : op.guarded
  · rw [C86_guarded T o h op hg]
    exact ⟨h, rfl, rfl, rfl, rfl, rfl, rfl, rfl⟩
  · cases op with
    | settings s => exact ⟨h, rfl, rfl, rfl, rfl, rfl, rfl, rfl⟩
    | resetHistory => exact ⟨h, rfl, rfl, rfl, rfl, rfl, rfl, rfl⟩
    | bound s v b =>
      obtain ⟨a1, a2, a3, a4, a5, a6, a7, a8, _⟩ := mhe_writeBound_fields o s v b
      exact ⟨a1.trans h, a2, a3, a4, a5, a6, a7, a8⟩
    | optBound s i b =>
      simp only [MheObj.exec]
      repeat' split
      all_goals exact ⟨h, rfl, rfl, rfl, rfl, rfl, rfl, rfl⟩
    | setTvpFun f v => simp only [MheObj.exec]; split <;> exact ⟨h, rfl, rfl, rfl, rfl, rfl, rfl, rfl⟩
    | setPFun f v => simp only [MheObj.exec]; split <;> exact ⟨h, rfl, rfl, rfl, rfl, rfl, rfl, rfl⟩
    | setYFun f v => simp only [MheObj.exec]; split <;> exact ⟨h, rfl, rfl, rfl, rfl, rfl, rfl, rfl⟩
    | makeStep y0 =>
      obtain ⟨t, Tm, ys, e⟩ := mhe_step_fields o y0
      simp only [MheObj.exec]
      split <;> rename_i o1 _ he <;> (rw [he] at e; dsimp only at e; rw [e]; exact ⟨h, rfl, rfl, rfl, rfl, rfl, rfl, rfl⟩)
    | prepare => exact (hop trivial).elim
    | create => exact (hop trivial).elim
    | setup => exact (hop trivial).elim
    | _ => exact (hg trivial).elim

/-- **C86** (freezing): after `setup`, no sequence of calls other than `prepare_nlp`, `create_nlp`, `setup` changes the objective function and the constraints the
solver works on, nor the configured costs, nonlinear constraints and scaling. -/
theorem C86_frozen (ops : List (MheOp K d ne ns)) : ∀ o : MheObj K d ne ns, o.setup = true → (∀ op ∈ ops, ¬ op.builds) →
    (o.run T ops).setup = true ∧ (o.run T ops).solver = o.solver ∧ (o.run T ops).cost = o.cost ∧ (o.run T ops).nl = o.nl ∧
    (o.run T ops).sx = o.sx ∧ (o.run T ops).su = o.su ∧ (o.run T ops).sz = o.sz ∧ (o.run T ops).sp = o.sp := by
  induction ops with
  | nil => intro o h _; exact ⟨h, rfl, rfl, rfl, rfl, rfl, rfl, rfl⟩
  | cons op ops ih =>
    intro o h hops
    obtain ⟨a1, a2, a3, a4, a5, a6, a7, a8⟩ := mhe_frozen_step T o h op (hops op (by simp))
    obtain ⟨b1, b2, b3, b4, b5, b6, b7, b8⟩ := ih _ a1 (fun p hp => hops p (by simp [hp]))
    exact ⟨b1, b2.trans a2, b3.trans a3, b4.trans a4, b5.trans a5, b6.trans a6, b7.trans a7, b8.trans a8⟩

/-! ### Bounds -/

/-- **C86** (bounds read back): after `bounds[s, v] = b` reading `bounds[s, v]` gives `b` and every other entry reads as before. -/
theorem C86_bounds_read_back (o : MheObj K d ne ns) (s : Side) (v : MheIx d ne) (b : Bound K) :
    (o.exec T (.bound s v b)).2 = none ∧ (o.exec T (.bound s v b)).1.getBound s v = b ∧
    ∀ s' v', (s', v') ≠ (s, v) → (o.exec T (.bound s v b)).1.getBound s' v' = o.getBound s' v' := by
  refine ⟨rfl, ?_, ?_⟩
  · cases s <;> cases v <;> simp [MheObj.exec, MheObj.writeBound, MheObj.getBound]
  · intro s' v' hne
    cases s <;> cases v <;> cases s' <;> cases v' <;>
      simp_all [MheObj.exec, MheObj.writeBound, MheObj.getBound, Function.update_apply]

/-- the calls after which the variable bounds follow `bounds` -/
def MheOp.keepsBounds : MheOp K d ne ns → Prop
  | .settings _ | .setParam _ | .optBound _ _ _ | .prepare | .setup => False
  | _ => True

theorem mhe_updateBounds_twice (c : MheCfg K d ne ns) (xb xb' : Fin d.nx → Bound K) (zb zb' : Fin d.nz → Bound K) (ub ub' : Fin d.nu → Bound K)
    (eb eb' : String → Nat → Bound K) (pb pb' : Fin ne → Bound K) (B : MheBounds K d ne) :
    c.updateBounds xb zb ub eb pb (c.updateBounds xb' zb' ub' eb' pb' B) = c.updateBounds xb zb ub eb pb B := by
  unfold MheCfg.updateBounds
  cases hc : c.consColloc
  · simp only [Bool.false_eq_true, if_false, MheBounds.mk.injEq, and_true]
    constructor
    · funext k i j; split <;> rfl
    · funext k i j; split <;> rfl
  · simp only [if_true]

/-- the configuration `c` with the bounds currently set on `o` -/
def MheObj.withBounds (o : MheObj K d ne ns) (c : MheCfg K d ne ns) : MheCfg K d ne ns :=
  { c with xlb := o.xlb, xub := o.xub, ulb := o.ulb, uub := o.uub, zlb := o.zlb, zub := o.zub, plb := o.plb, pub := o.pub }

/-- the variable bounds of a prepared object follow its configuration -/
def MheObj.Synced (o : MheObj K d ne ns) (c : MheCfg K d ne ns) : Prop :=
  ∃ P, o.prep = some P ∧ P.cfg = c ∧ c.N = o.set.N ∧ c.consColloc = o.set.consColloc ∧ P.lb = (o.withBounds c).lbx ∧ P.ub = (o.withBounds c).ubx

theorem mhe_synced_step (o : MheObj K d ne ns) (c : MheCfg K d ne ns) (h : o.Synced c) (op : MheOp K d ne ns) (hop : op.keepsBounds) :
    (o.exec T op).1.Synced c := by
  obtain ⟨P, h1, h2, h3, h4, h5, h6⟩ := h
  cases op with
  | bound s v b =>
    have hs : (o.writeBound s b v).set = o.set := (mhe_writeBound_fields o s v b).2.2.2.2.2.2.2.2.1
    have hc : ({ P.cfg with N := (o.writeBound s b v).set.N, consColloc := (o.writeBound s b v).set.consColloc } : MheCfg K d ne ns) = c := by
      rw [hs, h2, ← h3, ← h4]
    refine ⟨(o.writeBound s b v).updatePrepared P, by simp [MheObj.exec, h1], h2, ?_, ?_, ?_, ?_⟩
    · rw [h3]; exact congrArg MheSettings.N hs.symm
    · rw [h4]; exact congrArg MheSettings.consColloc hs.symm
    · simp only [MheObj.updatePrepared, hc, h5]
      exact mhe_updateBounds_twice c _ _ _ _ _ _ _ _ _ _ _
    · simp only [MheObj.updatePrepared, hc, h6]
      rw [h2]
      exact mhe_updateBounds_twice c _ _ _ _ _ _ _ _ _ _ _
  | setObjective ob => simp only [MheObj.exec]; split <;> exact ⟨P, h1, h2, h3, h4, h5, h6⟩
  | setNlCons ob => simp only [MheObj.exec]; split <;> exact ⟨P, h1, h2, h3, h4, h5, h6⟩
  | scaling v a =>
    simp only [MheObj.exec]
    split
    · exact ⟨P, h1, h2, h3, h4, h5, h6⟩
    · cases v <;> exact ⟨P, h1, h2, h3, h4, h5, h6⟩
  | nlpObj f =>
    simp only [MheObj.exec, h1]
    split
    · exact ⟨P, h1, h2, h3, h4, h5, h6⟩
    · exact ⟨{ P with obj := f }, rfl, h2, h3, h4, h5, h6⟩
  | nlpCons f =>
    simp only [MheObj.exec, h1]
    split
    · exact ⟨P, h1, h2, h3, h4, h5, h6⟩
    · exact ⟨{ P with rows := f }, rfl, h2, h3, h4, h5, h6⟩
  | create =>
    simp only [MheObj.exec, MheObj.create, h1]
    split
    · exact ⟨P, h1, h2, h3, h4, h5, h6⟩
    · exact ⟨P, rfl, h2, h3, h4, h5, h6⟩
  | setTvpFun f v => simp only [MheObj.exec]; split <;> exact ⟨P, h1, h2, h3, h4, h5, h6⟩
  | setPFun f v => simp only [MheObj.exec]; split <;> exact ⟨P, h1, h2, h3, h4, h5, h6⟩
  | setYFun f v => simp only [MheObj.exec]; split <;> exact ⟨P, h1, h2, h3, h4, h5, h6⟩
  | resetHistory => exact ⟨P, h1, h2, h3, h4, h5, h6⟩
  | makeStep y0 =>
    obtain ⟨t, Tm, ys, e⟩ := mhe_step_fields o y0
    simp only [MheObj.exec]
    split <;> rename_i o1 _ he <;> (rw [he] at e; dsimp only at e; rw [e]; exact ⟨P, h1, h2, h3, h4, h5, h6⟩)
  | _ => exact hop.elim

theorem mhe_prepare_ok (o o1 : MheObj K d ne ns) (h : o.prepare T = (o1, none)) :
    ∃ co, o1.cost = some co ∧ o1.prep = some ⟨o1.cfg T co, (o1.cfg T co).obj, (o1.cfg T co).rows, (o1.cfg T co).lbx, (o1.cfg T co).ubx⟩ ∧ o1.cat = false := by
  unfold MheObj.prepare at h
  split at h
  · simp at h
  · split at h
    · simp at h
    · split at h
      · simp at h
      · rename_i co hco
        dsimp only at h
        split at h
        · simp at h
        · simp only [Prod.mk.injEq, and_true] at h
          subst h
          exact ⟨co, hco, rfl, rfl⟩

/-- **C86** (bounds take effect): from a successful `prepare_nlp` (or `setup`) on, after any sequence of calls that neither assign settings nor rebuild the problem
nor write `lb_opt_x`, `ub_opt_x`, the variable bounds of the problem, including those of the estimated parameters, are the ones that the transcription computes
from the bounds *currently* set. -/
theorem C86_bounds_effect_partial (o o1 : MheObj K d ne ns) (h : o.prepare T = (o1, none)) (ops : List (MheOp K d ne ns)) (hops : ∀ op ∈ ops, op.keepsBounds) :
    ∃ co P, o1.cost = some co ∧ (o1.run T ops).prep = some P ∧ P.lb = ((o1.run T ops).withBounds (o1.cfg T co)).lbx ∧
      P.ub = ((o1.run T ops).withBounds (o1.cfg T co)).ubx := by
  obtain ⟨co, hco, hp, -⟩ := mhe_prepare_ok T o o1 h
  have key : ∀ (ops : List (MheOp K d ne ns)) (o : MheObj K d ne ns), (∀ op ∈ ops, op.keepsBounds) → o.Synced (o1.cfg T co) → (o.run T ops).Synced (o1.cfg T co) := by
    intro ops
    induction ops with
    | nil => intro o _ hs; exact hs
    | cons op ops ih => intro o hk hs; exact ih _ (fun p hp => hk p (by simp [hp])) (mhe_synced_step T o _ hs op (hk op (by simp)))
  obtain ⟨P, h1, h2, h3, h4, h5, h6⟩ := key ops o1 hops ⟨_, hp, rfl, rfl, rfl, rfl, rfl⟩
  exact ⟨co, P, hco, h1, h5, h6⟩

/-! ### `setup` -/

/-- some lower bound of states, inputs or algebraic states exceeds the upper bound -/
def MheObj.crossed (o : MheObj K d ne ns) : Prop :=
  ∃ v : MheIx d ne, (∀ j, v ≠ .p j) ∧ (o.getBound .lower v).gt (o.getBound .upper v) = true

theorem mhe_checkValidity_ok (o : MheObj K d ne ns) : o.checkValidity.2 = none ↔
    o.cost.isSome ∧ (0 < d.ntv → o.tvpFun.isSome) ∧ (0 < ns → o.pFun.isSome) ∧
    ¬ ((∃ j, (o.xlb j).gt (o.xub j) = true) ∨ (∃ j, (o.ulb j).gt (o.uub j) = true) ∨ (∃ j, (o.zlb j).gt (o.zub j) = true)) ∧
    (o.yFun.isSome ∨ o.set.measFromData = true) := by
  unfold MheObj.checkValidity
  split
  · rename_i h; simp only [reduceCtorEq, false_iff]; rintro ⟨h', -⟩; rw [Option.isNone_iff_eq_none] at h; simp [h] at h'
  · rename_i h0
    split
    · rename_i h; simp only [reduceCtorEq, false_iff]; rintro ⟨-, h', -⟩; have := h' h.2; rw [Option.isNone_iff_eq_none] at h; simp [h.1] at this
    · rename_i h1
      split
      · rename_i h; simp only [reduceCtorEq, false_iff]; rintro ⟨-, -, h', -⟩; have := h' h.2; rw [Option.isNone_iff_eq_none] at h; simp [h.1] at this
      · rename_i h2
        split
        · rename_i h; simp only [reduceCtorEq, false_iff]; rintro ⟨-, -, -, h', -⟩; exact h' h
        · rename_i h3
          have k0 : o.cost.isSome = true := by cases hc : o.cost <;> simp [hc] at h0 ⊢
          have k1 : 0 < d.ntv → o.tvpFun.isSome = true := by intro h; cases hc : o.tvpFun <;> simp [hc] at h1 ⊢; omega
          have k2 : 0 < ns → o.pFun.isSome = true := by intro h; cases hc : o.pFun <;> simp [hc] at h2 ⊢; omega
          dsimp only
          split
          · rename_i y hy; simp only [true_iff]; exact ⟨k0, k1, k2, h3, .inl (by rw [hy]; rfl)⟩
          · rename_i hy
            split
            · rename_i hm; simp only [true_iff]; exact ⟨k0, k1, k2, h3, .inr hm⟩
            · rename_i hm; simp only [reduceCtorEq, false_iff]; rintro ⟨-, -, -, -, h | h⟩
              · simp [hy] at h
              · exact hm h

theorem mhe_checkValidity_keeps (o : MheObj K d ne ns) : (∀ co, o.checkValidity.1.cfg T co = o.cfg T co) ∧ o.checkValidity.1.cost = o.cost := by
  unfold MheObj.checkValidity
  repeat' (first | split | dsimp only)
  all_goals exact ⟨fun _ => rfl, rfl⟩

/-- **C86** (`setup`): the first `setup()` succeeds iff the objective was set, the functions that the model needs were given, no lower bound of states, inputs and
algebraic states exceeds the upper bound, and there is a measurement function or `meas_from_data` is set (the last condition excludes
`nl_cons_check_colloc_points` for a discrete-time model). -/
theorem C86_setup_succeeds_iff (o : MheObj K d ne ns) (hfresh : o.slackCost = []) :
    (o.exec T .setup).2 = none ↔
      (∃ co, o.cost = some co ∧ ¬ (o.set.nlColloc = true ∧ (o.cfg T co).ifcn.ncoll = 0 ∧ 0 < o.set.N)) ∧ (0 < d.ntv → o.tvpFun.isSome) ∧ (0 < ns → o.pFun.isSome) ∧
      ¬ o.crossed ∧ (o.yFun.isSome ∨ o.set.measFromData = true) := by
  have hc : o.crossed ↔ ((∃ j, (o.xlb j).gt (o.xub j) = true) ∨ (∃ j, (o.ulb j).gt (o.uub j) = true) ∨ (∃ j, (o.zlb j).gt (o.zub j) = true)) := by
    constructor
    · rintro ⟨v, hv, h⟩
      cases v with
      | x j => exact .inl ⟨j, h⟩
      | u j => exact .inr (.inl ⟨j, h⟩)
      | z j => exact .inr (.inr ⟨j, h⟩)
      | p j => exact (hv j rfl).elim
    · rintro (⟨j, h⟩ | ⟨j, h⟩ | ⟨j, h⟩)
      · exact ⟨.x j, by simp, h⟩
      · exact ⟨.u j, by simp, h⟩
      · exact ⟨.z j, by simp, h⟩
  have hnl : o.setupNlCons = (⟨o.set, o.sx, o.su, o.sz, o.sp, o.xlb, o.xub, o.ulb, o.uub, o.zlb, o.zub, o.plb, o.pub, o.cost, o.nl,
      o.slackCost ++ (slackVars o.nl).map fun sl => (o.gen + 1, sl), o.gen + 1, o.tvpFun, o.pFun, o.yFun, o.yTmpl, o.prep, o.solver, o.setup, o.cat, o.t0, o.ys⟩, none) := by
    unfold MheObj.setupNlCons
    dsimp only
    rw [if_pos]
    intro t ht
    rw [hfresh, List.nil_append, List.mem_map] at ht
    obtain ⟨sl, -, rfl⟩ := ht
    exact .inl rfl
  rw [hc]
  generalize ho' : (⟨o.set, o.sx, o.su, o.sz, o.sp, o.xlb, o.xub, o.ulb, o.uub, o.zlb, o.zub, o.plb, o.pub, o.cost, o.nl,
      o.slackCost ++ (slackVars o.nl).map fun sl => (o.gen + 1, sl), o.gen + 1, o.tvpFun, o.pFun, o.yFun, o.yTmpl, o.prep, o.solver, o.setup, o.cat, o.t0, o.ys⟩ :
      MheObj K d ne ns) = o' at hnl
  have hv := mhe_checkValidity_ok o'
  have hk := mhe_checkValidity_keeps T o'
  have hcfg : ∀ co, o'.cfg T co = o.cfg T co := by subst ho'; intro; rfl
  have hN : ∀ co, (o.cfg T co).N = o.set.N ∧ (o.cfg T co).nlColloc = o.set.nlColloc := fun _ => ⟨rfl, rfl⟩
  have e1 : o'.cost = o.cost := by subst ho'; rfl
  have e2 : (o'.checkValidity.2 = none ↔ _) := hv
  rw [e1] at e2 hk
  have e3 : o'.tvpFun = o.tvpFun ∧ o'.pFun = o.pFun ∧ o'.xlb = o.xlb ∧ o'.xub = o.xub ∧ o'.ulb = o.ulb ∧ o'.uub = o.uub ∧ o'.zlb = o.zlb ∧ o'.zub = o.zub ∧
    o'.yFun = o.yFun ∧ o'.set = o.set := by subst ho'; exact ⟨rfl, rfl, rfl, rfl, rfl, rfl, rfl, rfl, rfl, rfl⟩
  obtain ⟨f1, f2, f3, f4, f5, f6, f7, f8, f9, f10⟩ := e3
  rw [f1, f2, f3, f4, f5, f6, f7, f8, f9, f10] at e2
  simp only [MheObj.exec, MheObj.prepare, hnl]
  rcases hcv : o'.checkValidity with ⟨o2, _ | e⟩
  · rw [hcv] at e2 hk
    dsimp only at e2 hk ⊢
    obtain ⟨g1, g2, g3, g4, g5⟩ := e2.mp rfl
    obtain ⟨co, hco⟩ := Option.isSome_iff_exists.mp g1
    rw [hk.2, hco]
    dsimp only
    rw [hk.1 co, hcfg co, (hN co).1, (hN co).2]
    by_cases h8 : o.set.nlColloc = true ∧ (o.cfg T co).ifcn.ncoll = 0 ∧ 0 < o.set.N
    · rw [if_pos h8]
      simp only [reduceCtorEq, false_iff]
      rintro ⟨⟨co', hco', h'⟩, -⟩
      cases hco'
      exact h' h8
    · rw [if_neg h8]
      simp only [MheObj.create, Bool.false_eq_true, if_false, true_iff]
      exact ⟨⟨co, rfl, h8⟩, g2, g3, g4, g5⟩
  · rw [hcv] at e2
    dsimp only at e2 ⊢
    simp only [reduceCtorEq, false_iff] at e2 ⊢
    rintro ⟨⟨co, hco, -⟩, g2, g3, g4, g5⟩
    exact e2 ⟨by rw [hco]; rfl, g2, g3, g4, g5⟩

/-- **C86** (what is set up): after a successful `setup()` the solver works on the objective and the constraints, and with the variable bounds, of the problem
(C24-C26) with exactly the configured horizon, options, costs, constraints, scaling and bounds. -/
theorem C86_setup_problem (o : MheObj K d ne ns) (h : (o.exec T .setup).2 = none) :
    ∃ (co : MheCost K d ne ns) (c : MheCfg K d ne ns) (P : MhePrepared K d ne ns), o.cost = some co ∧ (o.exec T .setup).1.solver = some ⟨c.obj, c.rows⟩ ∧ (o.exec T .setup).1.prep = some P ∧ P.lb = c.lbx ∧ P.ub = c.ubx ∧
      (o.exec T .setup).1.setup = true ∧
      c.N = o.set.N ∧ c.singleSlack = o.set.singleSlack ∧ c.nlColloc = o.set.nlColloc ∧ c.consColloc = o.set.consColloc ∧
      c.stage = co.stage ∧ c.arrival = co.arrival ∧ c.nl = o.nl ∧ c.model = T.model ∧ c.sel = T.sel ∧ c.sx = o.sx ∧ c.su = o.su ∧ c.sz = o.sz ∧ c.sp = o.sp ∧
      c.ifcn = T.ifcn o.set o.sx o.su o.sz c.pScaling ∧
      (∀ j, c.xlb j = o.getBound .lower (.x j) ∧ c.xub j = o.getBound .upper (.x j)) ∧ (∀ j, c.ulb j = o.getBound .lower (.u j) ∧ c.uub j = o.getBound .upper (.u j)) ∧
      (∀ j, c.zlb j = o.getBound .lower (.z j) ∧ c.zub j = o.getBound .upper (.z j)) ∧ (∀ j, c.plb j = o.getBound .lower (.p j) ∧ c.pub j = o.getBound .upper (.p j)) := by
  simp only [MheObj.exec] at h ⊢
  rcases hp : o.prepare T with ⟨o1, _ | e⟩
  · rw [hp] at h
    dsimp only at h ⊢
    obtain ⟨co, hco, hpr, hcat⟩ := mhe_prepare_ok T o o1 hp
    have hk : o1.cfg T co = o.cfg T co ∧ o1.cost = o.cost := by
      unfold MheObj.prepare at hp
      have hs : (∀ co, o.setupNlCons.1.cfg T co = o.cfg T co) ∧ o.setupNlCons.1.cost = o.cost := by
        unfold MheObj.setupNlCons
        dsimp only
        split <;> exact ⟨fun _ => rfl, rfl⟩
      rcases hsn : o.setupNlCons with ⟨o3, _ | e⟩
      · rw [hsn] at hp hs
        dsimp only at hp hs
        have hv := mhe_checkValidity_keeps T o3
        rcases hcv : o3.checkValidity with ⟨o2, _ | e⟩
        · rw [hcv] at hp hv
          dsimp only at hp hv
          split at hp
          · simp at hp
          · split at hp
            · simp at hp
            · simp only [Prod.mk.injEq, and_true] at hp
              rw [← hp]
              exact ⟨(hv.1 co).trans (hs.1 co), hv.2.trans hs.2⟩
        · rw [hcv] at hp; simp at hp
      · rw [hsn] at hp; simp at hp
    rw [hk.1] at hpr
    unfold MheObj.create
    rw [hpr]
    simp only [hcat]
    exact ⟨co, o.cfg T co, _, hk.2 ▸ hco, rfl, rfl, rfl, rfl, rfl, rfl, rfl, rfl, rfl, rfl, rfl, rfl, rfl, rfl, rfl, rfl, rfl, rfl, rfl,
      fun _ => ⟨rfl, rfl⟩, fun _ => ⟨rfl, rfl⟩, fun _ => ⟨rfl, rfl⟩, fun _ => ⟨rfl, rfl⟩⟩
  · rw [hp] at h; simp at h

/-! ### Measurements -/

/-- **Specification**: the measurements that were accepted since the last `reset_history`, after the ones in `ys`. -/
def Spec.measuredSince (ny : Nat) (ys : List (List K)) : List (MheOp K d ne ns) → List (List K)
  | [] => ys
  | .makeStep y :: ops => Spec.measuredSince ny (if y.length = ny then ys ++ [y] else ys) ops
  | .resetHistory :: ops => Spec.measuredSince ny [] ops
  | _ :: ops => Spec.measuredSince ny ys ops

theorem yFunDefault_same (N : Nat) (ys : List (List K)) (Tm : Nat → Vec K d.ny) : yFunDefault N N ys Tm = .ok (defaultYFun N ys Tm) := by
  unfold yFunDefault defaultYFun
  dsimp only
  rw [if_neg (by omega), show min (N - min ys.length N) N = N - min ys.length N by omega]

/-- **C86** (measurements): if `setup` made the default measurement function, then after every sequence of calls that neither assign settings nor rebuild
the problem nor set another measurement function, every `make_step(y0)` with a measurement of the right size succeeds and the problem gets the last `n_horizon`
measurements, `y0` being the newest. -/
theorem C86_measurements_partial (o : MheObj K d ne ns) (hset : (o.exec T .setup).2 = none) (hy : o.yFun = none) (hlen : ∀ y ∈ o.ys, y.length = d.ny)
    (ops : List (MheOp K d ne ns)) (hops : ∀ op ∈ ops, ¬ op.builds ∧ (∀ s, op ≠ .settings s) ∧ ∀ f v, op ≠ .setYFun f v) (y0 : List K) (h0 : y0.length = d.ny) :
    ∃ y, ((((o.exec T .setup).1).run T ops).step y0).2 = .ok y ∧
      (List.range o.set.N).map (fun k => List.ofFn (y k)) = Spec.measurementWindow o.set.N (Spec.measuredSince d.ny o.ys ops ++ [y0]) := by
  -- the invariant
  let Inv : MheObj K d ne ns → List (List K) → Prop := fun o1 ys => o1.setup = true ∧ o1.yFun = some (.dflt o.set.N) ∧ o1.set = o.set ∧ o1.ys = ys ∧
    (∀ y ∈ ys, y.length = d.ny) ∧ ∃ P, o1.prep = some P ∧ P.cfg.N = o.set.N
  have hstep : ∀ (o1 : MheObj K d ne ns) (ys : List (List K)) (y : List K), Inv o1 ys → y.length = d.ny →
      ∃ t, o1.step y = ({ o1 with ys := ys ++ [y], yTmpl := defaultYFun o.set.N (ys ++ [y]) o1.yTmpl, t0 := t }, .ok (defaultYFun o.set.N (ys ++ [y]) o1.yTmpl)) := by
    rintro o1 ys y ⟨a1, a2, a3, a4, a5, P, a6, a7⟩ hyl
    refine ⟨o1.t0 + o1.set.tStep, ?_⟩
    unfold MheObj.step
    rw [if_neg (by simp [a1]), if_neg (by simp [hyl])]
    simp only [a2, a6, a3, a4, yFunDefault_same, a7, lt_irrefl, if_false]
  have hinv : ∀ (ops : List (MheOp K d ne ns)) (o1 : MheObj K d ne ns) (ys : List (List K)), Inv o1 ys →
      (∀ op ∈ ops, ¬ op.builds ∧ (∀ s, op ≠ .settings s) ∧ ∀ f v, op ≠ .setYFun f v) → Inv (o1.run T ops) (Spec.measuredSince d.ny ys ops) := by
    intro ops
    induction ops with
    | nil => intro o1 ys hI _; exact hI
    | cons op ops ih =>
      intro o1 ys hI hk
      have hrest := fun p hp => hk p (List.mem_cons_of_mem op hp)
      obtain ⟨k1, k2, k3⟩ := hk op (by simp)
      have hI' := hI
      obtain ⟨a1, a2, a3, a4, a5, P, a6, a7⟩ := hI
      by_cases hg : op.guarded
      · have : o1.exec T op = (o1, some "AssertionError") := C86_guarded T o1 a1 op hg
        simp only [MheObj.run, this]
        have e : Spec.measuredSince d.ny ys (op :: ops) = Spec.measuredSince d.ny ys ops := by cases op <;> first | rfl | exact hg.elim
        rw [e]
        exact ih o1 ys hI' hrest
      · cases op with
        | settings s => exact (k2 s rfl).elim
        | setYFun f v => exact (k3 f v rfl).elim
        | prepare => exact (k1 trivial).elim
        | create => exact (k1 trivial).elim
        | setup => exact (k1 trivial).elim
        | setTvpFun f v =>
          simp only [MheObj.run, MheObj.exec, Spec.measuredSince]
          split <;> exact ih _ ys ⟨a1, a2, a3, a4, a5, P, a6, a7⟩ hrest
        | setPFun f v =>
          simp only [MheObj.run, MheObj.exec, Spec.measuredSince]
          split <;> exact ih _ ys ⟨a1, a2, a3, a4, a5, P, a6, a7⟩ hrest
        | optBound s i b =>
          simp only [MheObj.run, MheObj.exec, Spec.measuredSince, a6]
          cases s
          · exact ih _ ys ⟨a1, a2, a3, a4, a5, _, rfl, a7⟩ hrest
          · exact ih _ ys ⟨a1, a2, a3, a4, a5, _, rfl, a7⟩ hrest
        | bound s v b =>
          obtain ⟨w1, -, -, -, -, -, -, -, w9, w10, w11, -⟩ := mhe_writeBound_fields o1 s v b
          refine ih _ ys ⟨w1.trans a1, w10.trans a2, w9.trans a3, w11.trans a4, a5, ?_⟩ hrest
          exact ⟨(o1.writeBound s b v).updatePrepared P, by simp [MheObj.exec, a6], a7⟩
        | resetHistory => exact ih _ [] ⟨a1, a2, a3, rfl, by simp, P, a6, a7⟩ hrest
        | makeStep y =>
          simp only [MheObj.run, MheObj.exec, Spec.measuredSince]
          by_cases hyl : y.length = d.ny
          · obtain ⟨t, ht⟩ := hstep o1 ys y hI' hyl
            rw [ht, if_pos hyl]
            refine ih _ _ ⟨a1, a2, a3, rfl, ?_, P, a6, a7⟩ hrest
            intro y' hy'
            rcases List.mem_append.mp hy' with h | h
            · exact a5 y' h
            · rw [List.mem_singleton.mp h]; exact hyl
          · have : o1.step y = (o1, .error "AssertionError") := by
              unfold MheObj.step
              rw [if_neg (by simp [a1]), if_pos hyl]
            rw [this, if_neg hyl]
            exact ih _ ys hI' hrest
        | _ => exact (hg trivial).elim
  -- `setup` establishes it
  have hstart : Inv (o.exec T .setup).1 o.ys := by
    simp only [MheObj.exec] at hset ⊢
    rcases hp : o.prepare T with ⟨o1, _ | e⟩
    · rw [hp] at hset
      dsimp only at hset ⊢
      obtain ⟨co, hco, hpr, hcat⟩ := mhe_prepare_ok T o o1 hp
      have hfl : o1.yFun = some (.dflt o.set.N) ∧ o1.set = o.set ∧ o1.ys = o.ys := by
        unfold MheObj.prepare at hp
        have hs : o.setupNlCons.1.yFun = none ∧ o.setupNlCons.1.set = o.set ∧ o.setupNlCons.1.ys = o.ys := by
          unfold MheObj.setupNlCons
          dsimp only
          split <;> exact ⟨hy, rfl, rfl⟩
        rcases hsn : o.setupNlCons with ⟨o3, _ | e⟩
        · rw [hsn] at hp hs
          dsimp only at hp hs
          rcases hcv : o3.checkValidity with ⟨o2, _ | e⟩
          · rw [hcv] at hp
            dsimp only at hp
            have hcv2 : o2.yFun = some (.dflt o.set.N) ∧ o2.set = o.set ∧ o2.ys = o.ys := by
              unfold MheObj.checkValidity at hcv
              dsimp only at hcv
              rw [hs.1] at hcv
              dsimp only at hcv
              repeat' split at hcv
              all_goals first
                | (have e : _ = o2 := congrArg Prod.fst hcv
                   subst e
                   exact ⟨congrArg (fun s => some (MheYFun.dflt (MheSettings.N s))) hs.2.1, hs.2.1, hs.2.2⟩)
                | exact absurd (congrArg Prod.snd hcv) (by simp)
            split at hp
            · simp at hp
            · split at hp
              · simp at hp
              · simp only [Prod.mk.injEq, and_true] at hp
                rw [← hp]
                exact hcv2
          · rw [hcv] at hp; simp at hp
        · rw [hsn] at hp; simp at hp
      unfold MheObj.create
      rw [hpr]
      simp only [hcat]
      exact ⟨rfl, hfl.1, hfl.2.1, hfl.2.2, hlen, _, rfl, congrArg MheSettings.N hfl.2.1⟩
    · rw [hp] at hset; simp at hset
  have hI := hinv ops _ _ hstart hops
  obtain ⟨t, ht⟩ := hstep _ _ y0 hI h0
  refine ⟨_, by rw [ht], ?_⟩
  have hne : Spec.measuredSince d.ny o.ys ops ++ [y0] ≠ [] := by simp
  refine List.ext_getElem (by simp [window_length]) fun k hk1 hk2 => ?_
  simp only [List.getElem_map, List.getElem_range]
  have hk : k < o.set.N := by simpa using hk1
  rw [defaultYFun_eq _ _ hne _ _ hk, List.getD_eq_getElem?_getD, List.getElem?_eq_getElem hk2, Option.getD_some]
  refine ofFn_rowVec _ ?_
  have hm := window_mem _ _ hne _ (List.getElem_mem hk2)
  rcases List.mem_append.mp hm with h | h
  · exact hI.2.2.2.2.1 _ h
  · rw [List.mem_singleton.mp h]; exact h0

theorem mheCreated_step (o : MheObj K d ne ns) (h1 : o.cat = true) (h2 : o.prep.isSome = true) (op : MheOp K d ne ns) (hop : op ≠ .prepare ∧ op ≠ .setup) :
    (o.exec T op).1.cat = true ∧ (o.exec T op).1.prep.isSome = true := by
  obtain ⟨P, hP⟩ := Option.isSome_iff_exists.1 h2
  cases op with
  | prepare => exact (hop.1 rfl).elim
  | setup => exact (hop.2 rfl).elim
  | bound s v b =>
    simp only [MheObj.exec, hP]
    refine ⟨?_, rfl⟩
    cases s <;> cases v <;> exact h1
  | scaling v a =>
    simp only [MheObj.exec]
    split
    · exact ⟨h1, h2⟩
    · cases v <;> exact ⟨h1, h2⟩
  | create =>
    have : (o.exec T .create).1 = o := by
      show o.create.1 = o
      unfold MheObj.create
      rw [hP]
      dsimp only
      rw [if_pos h1]
    rw [this]
    exact ⟨h1, h2⟩
  | makeStep y =>
    have : ∀ o : MheObj K d ne ns, o.cat = true → o.prep.isSome = true → (o.step y).1.cat = true ∧ (o.step y).1.prep.isSome = true := by
      intro o h1 h2
      unfold MheObj.step
      dsimp only
      repeat' split
      all_goals exact ⟨h1, h2⟩
    have := this o h1 h2
    simp only [MheObj.exec]
    split <;> simp_all
  | _ =>
    simp only [MheObj.exec, hP]
    repeat' split
    all_goals first | exact ⟨h1, h2⟩ | exact ⟨h1, rfl⟩

/-- **C86** (`create_nlp` twice): once `create_nlp()` (or `setup()`) has succeeded, a further `create_nlp()` raises and changes nothing, until `prepare_nlp()` or `setup()`
is called. -/
theorem C86_create_again (o : MheObj K d ne ns) (op : MheOp K d ne ns) (hop : op = .create ∨ op = .setup) (h : (o.exec T op).2 = none) (ops : List (MheOp K d ne ns))
    (hops : ∀ op ∈ ops, op ≠ .prepare ∧ op ≠ .setup) :
    let o' := (o.exec T op).1.run T ops
    o'.exec T .create = (o', some "Exception") := by
  have hc : ∀ o : MheObj K d ne ns, o.create.2 = none → o.create.1.cat = true ∧ o.create.1.prep.isSome = true := by
    intro o h
    unfold MheObj.create at h ⊢
    cases hP : o.prep with
    | none => simp [hP] at h
    | some P =>
      simp only [hP] at h ⊢
      split at h
      · simp at h
      · rename_i hcat
        simp [hcat]
  have h0 : (o.exec T op).1.cat = true ∧ (o.exec T op).1.prep.isSome = true := by
    rcases hop with rfl | rfl
    · exact hc o h
    · simp only [MheObj.exec] at h ⊢
      split at h
      · simp at h
      · exact hc _ h
  have key : ∀ (ops : List (MheOp K d ne ns)) (o : MheObj K d ne ns), o.cat = true ∧ o.prep.isSome = true → (∀ op ∈ ops, op ≠ .prepare ∧ op ≠ .setup) →
      (o.run T ops).cat = true ∧ (o.run T ops).prep.isSome = true := by
    intro ops
    induction ops with
    | nil => intro o h _; exact h
    | cons op ops ih => intro o h hl; exact ih _ (mheCreated_step T o h.1 h.2 op (hl op (by simp))) (fun p hp => hl p (by simp [hp]))
  obtain ⟨k1, k2⟩ := key ops _ h0 hops
  obtain ⟨P, hP⟩ := Option.isSome_iff_exists.1 k2
  show MheObj.create _ = _
  unfold MheObj.create
  rw [hP]
  dsimp only
  rw [if_pos k1]

/-! ### Examples and failures -/

namespace MheLifeEx
/-- one measured state, one estimated parameter -/
abbrev dd : Dims := ⟨1, 0, 0, 0, 1, 0, 0, 1, 0⟩
/-- `x⁺ = p x` -/
abbrev mm : DaeModel ℚ dd where
  rhs := fun x _ _ _ p _ => fun _ => p 0 * x 0
  alg := fun _ _ _ _ _ _ => Fin.elim0
  meas := fun x _ _ _ _ _ => x
  aux := fun _ _ _ _ _ => Fin.elim0
abbrev tools : MheTools ℚ dd 1 0 := ⟨mm, fun _ => .inl 0, fun _ sx su sz sp => discreteIfcn mm sx su sz sp⟩
abbrev co : MheCost ℚ dd 1 0 := ⟨fun _ _ _ _ => 0, fun x xp p pp _ => (x 0 - xp 0) ^ 2 + (p 0 - pp 0) ^ 2⟩
abbrev S (N : Nat) : MheSettings ℚ := ⟨N, 1, true, false, false, true⟩
/-- configured, not set up -/
abbrev o (N : Nat) : MheObj ℚ dd 1 0 := (MheObj.new (S N)).run tools [.setObjective co, .bound .upper (.x 0) (.fin 3)]
/-- the first `N` entries of the measurement trajectory -/
abbrev seen (N : Nat) (r : Except String (Nat → Vec ℚ 1)) : Option (List ℚ) := r.toOption.map fun y => (List.range N).map fun k => y k 0
end MheLifeEx

open MheLifeEx in
/-- Non-vacuity: `setup` succeeds, and the estimator gets the windows. -/
example : ((o 3).exec tools .setup).2 = none ∧ (o 3).slackCost = [] ∧ (o 3).yFun = none ∧
    seen 3 ((((o 3).exec tools .setup).1.run tools [.makeStep [1], .bound .lower (.p 0) (.fin 0), .makeStep [2], .setParam (S 7), .makeStep [3]]).step [4]).2 = some [2, 3, 4] := by
  decide +kernel

open MheLifeEx in
/-- **C86 fails for the settings**: `mhe.settings.n_horizon = 1` after `setup` is accepted (the documentation of the settings says that they cannot be updated);
the problem keeps its horizon 3, but from then on only the last entry of its measurements is renewed: after the measurements 1, 2, 3, 4 it gets 1, 2, 4. -/
theorem C86_fails_settings :
    let o1 := ((o 3).exec tools .setup).1.run tools [.makeStep [1], .makeStep [2], .makeStep [3]]
    let o2 := (o1.exec tools (.settings (S 1))).1
    (o1.exec tools (.settings (S 1))).2 = none ∧ o2.prep.map (·.cfg.N) = some 3 ∧ seen 3 (o2.step [4]).2 = some [1, 2, 4] ∧
    seen 3 (o1.step [4]).2 = some [2, 3, 4] ∧ Spec.measurementWindow (K := ℚ) 3 [[1], [2], [3], [4]] = [[2], [3], [4]] := by
  decide +kernel

open MheLifeEx in
/-- **C86 fails for a second `setup`** (another horizon): the default measurement function keeps the template of the first horizon.  Set up for the horizon 4 and
then, without any error, for the horizon 2, the estimator never gets the new measurements: after the measurements 1, 2, 3 it works with 1, 0. -/
theorem C86_fails_setup_again :
    let o1 := ((o 4).exec tools .setup).1.run tools [.settings (S 2), .setup]
    ((((o 4).exec tools .setup).1.run tools [.settings (S 2)]).exec tools .setup).2 = none ∧
    o1.prep.map (·.cfg.N) = some 2 ∧ seen 2 (o1.step [1]).2 = some [1, 0] ∧
    seen 2 ((o1.run tools [.makeStep [1]]).step [2]).2 = some [1, 0] ∧ seen 2 ((o1.run tools [.makeStep [1], .makeStep [2]]).step [3]).2 = some [1, 0] ∧
    Spec.measurementWindow (K := ℚ) 2 [[1], [2], [3]] = [[2], [3]] := by
  decide +kernel

open MheLifeEx in
/-- **C86 fails for the bounds of the estimated parameters**: `setup` accepts a lower bound above the upper bound, although it refuses this for the states; no
point satisfies the bounds of the problem. -/
theorem C86_fails_parameter_bounds :
    let o1 := (o 3).run tools [.bound .lower (.p 0) (.fin 2), .bound .upper (.p 0) (.fin 1)]
    (o1.exec tools .setup).2 = none ∧ (((o 3).run tools [.bound .lower (.x 0) (.fin 4)]).exec tools .setup).2 = some "Exception" ∧
    ∃ P, (o1.exec tools .setup).1.prep = some P ∧ ∀ w : MheX ℚ dd 1, ¬ ((P.lb.pEst 0).le (w.pEst 0) ∧ (P.ub.pEst 0).ge (w.pEst 0)) := by
  refine ⟨by decide +kernel, by decide +kernel, ?_⟩
  obtain ⟨P, hP⟩ : ∃ P, (((o 3).run tools [.bound .lower (.p 0) (.fin 2), .bound .upper (.p 0) (.fin 1)]).exec tools .setup).1.prep = some P :=
    Option.isSome_iff_exists.mp (by decide +kernel)
  have hb : (((o 3).run tools [.bound .lower (.p 0) (.fin 2), .bound .upper (.p 0) (.fin 1)]).exec tools .setup).1.prep.map (fun P => (P.lb.pEst 0, P.ub.pEst 0)) =
      some (.fin 2, .fin 1) := by decide +kernel
  rw [hP] at hb
  simp only [Option.map_some, Option.some.injEq, Prod.mk.injEq] at hb
  refine ⟨P, hP, fun w => ?_⟩
  rw [hb.1, hb.2]
  rintro ⟨h1, h2⟩
  exact absurd (show (2 : ℚ) ≤ 1 from le_trans h1 h2) (by norm_num)

end DoMpc
