import Verif.Props.MheLife
import Verif.Props.LifecycleConf

/-!
# C86: what was configured is what is estimated
-/
set_option linter.unusedSectionVars false
namespace DoMpc
open Spec
variable {K : Type} [Field K] [LinearOrder K] {d : Dims} {ne ns : Nat} (T : MheTools K d ne ns)

/-- the object that the calls ask for -/
structure MheConf (S : MheSettings K) (ops : List (MheOp K d ne ns)) (o : MheObj K d ne ns) : Prop where
  set : o.set = lastOf mheSettingsOf ops S
  cost : o.cost = lastOf (fun op => (mheCostOf op).map some) ops none
  nl : o.nl = ops.filterMap mheNlConsOf
  sx : ∀ j, o.sx j = lastOf (mheScalingOf (.x j)) ops 1
  su : ∀ j, o.su j = lastOf (mheScalingOf (.u j)) ops 1
  sz : ∀ j, o.sz j = lastOf (mheScalingOf (.z j)) ops 1
  sp : ∀ j, o.sp j = lastOf (mheScalingOf (.p j)) ops 1
  bounds : ∀ s v, o.getBound s v = lastOf (mheBoundOf s v) ops (infOf s)
  tvp : o.tvpFun = lastOf (fun op => (mheTvpOf op).map some) ops none
  p : o.pFun = lastOf (fun op => (mhePOf op).map some) ops none
  y : o.yFun = lastOf (fun op => (mheYOf op).map fun f => some (.user f)) ops none
  unset : o.setup = false ∧ o.prep = none ∧ o.slackCost = [] ∧ o.ys = [] ∧ o.t0 = 0

theorem mheConf_new (S : MheSettings K) : MheConf S [] (MheObj.new S : MheObj K d ne ns) := by
  refine ⟨rfl, rfl, rfl, fun _ => rfl, fun _ => rfl, fun _ => rfl, fun _ => rfl, ?_, rfl, rfl, rfl, rfl, rfl, rfl, rfl, rfl⟩
  intro s v
  cases s <;> cases v <;> rfl

set_option maxHeartbeats 2000000 in
theorem mheConf_step (S : MheSettings K) (ops : List (MheOp K d ne ns)) (o : MheObj K d ne ns) (h : MheConf S ops o) (op : MheOp K d ne ns) (hop : MheConfigures op) :
    MheConf S (ops ++ [op]) (o.exec T op).1 := by
  obtain ⟨h1, h2, h3, h4, h5, h6, h7, h8, h9, h10, h11, h12, h13, h14, h15, h16⟩ := h
  have hb : ∀ s v, (o.exec T op).1.getBound s v = lastOf (mheBoundOf s v) (ops ++ [op]) (infOf s) := by
    intro s v
    rw [lastOf_snoc, ← h8]
    cases op with
    | bound s' v' b' =>
      have := C86_bounds_read_back T o s' v' b'
      by_cases he : s' = s ∧ v' = v
      · obtain ⟨rfl, rfl⟩ := he
        rw [this.2.1]
        simp [mheBoundOf]
      · rw [this.2.2 s v (fun hc => he (by simp only [Prod.mk.injEq] at hc; exact ⟨hc.1.symm, hc.2.symm⟩))]
        simp [mheBoundOf, he]
    | scaling v' a =>
      simp only [MheObj.exec, h12, Bool.false_eq_true, if_false, mheBoundOf, Option.getD_none]
      cases v' <;> cases s <;> cases v <;> rfl
    | setParam s' => simp only [MheObj.exec, h12, Bool.false_eq_true, if_false, mheBoundOf, Option.getD_none]; cases s <;> cases v <;> rfl
    | settings s' => cases s <;> cases v <;> rfl
    | setObjective s' => simp only [MheObj.exec, h12, Bool.false_eq_true, if_false, mheBoundOf, Option.getD_none]; cases s <;> cases v <;> rfl
    | setNlCons s' => simp only [MheObj.exec, h12, Bool.false_eq_true, if_false, mheBoundOf, Option.getD_none]; cases s <;> cases v <;> rfl
    | setTvpFun f b => cases b <;> cases s <;> cases v <;> rfl
    | setPFun f b => cases b <;> cases s <;> cases v <;> rfl
    | setYFun f b => cases b <;> cases s <;> cases v <;> rfl
    | _ => exact hop.elim
  cases op with
  | bound s v b =>
    cases s <;> cases v <;>
    · refine ⟨?_, ?_, ?_, fun j => ?_, fun j => ?_, fun j => ?_, fun j => ?_, hb, ?_, ?_, ?_, ?_⟩ <;> (try simp only [lastOf_snoc, List.filterMap_append]) <;>
        simp [MheObj.exec, MheObj.writeBound, mheSettingsOf, mheCostOf, mheNlConsOf, mheScalingOf, mheTvpOf, mhePOf, mheYOf, h1, h2, h3, h4, h5, h6, h7, h9, h10, h11, h12, h13, h14, h15, h16]
  | scaling v a =>
    rcases v with jv | jv | jv | jv <;>
    · refine ⟨?_, ?_, ?_, fun j => ?_, fun j => ?_, fun j => ?_, fun j => ?_, hb, ?_, ?_, ?_, ?_⟩ <;> (try simp only [lastOf_snoc, List.filterMap_append]) <;>
        simp [MheObj.exec, MheObj.writeScaling, mheSettingsOf, mheCostOf, mheNlConsOf, mheScalingOf, mheTvpOf, mhePOf, mheYOf, h1, h2, h3, h4, h5, h6, h7, h9, h10, h11, h12, h13, h14, h15, h16,
          Function.update_apply]
      all_goals
        by_cases e : j = jv
        · subst e; simp
        · simp [e, Ne.symm e]
  | setParam s =>
    refine ⟨?_, ?_, ?_, fun j => ?_, fun j => ?_, fun j => ?_, fun j => ?_, hb, ?_, ?_, ?_, ?_⟩ <;> (try simp only [lastOf_snoc, List.filterMap_append]) <;>
      simp [MheObj.exec, mheSettingsOf, mheCostOf, mheNlConsOf, mheScalingOf, mheTvpOf, mhePOf, mheYOf, h1, h2, h3, h4, h5, h6, h7, h9, h10, h11, h12, h13, h14, h15, h16]
  | settings s =>
    refine ⟨?_, ?_, ?_, fun j => ?_, fun j => ?_, fun j => ?_, fun j => ?_, hb, ?_, ?_, ?_, ?_⟩ <;> (try simp only [lastOf_snoc, List.filterMap_append]) <;>
      simp [MheObj.exec, mheSettingsOf, mheCostOf, mheNlConsOf, mheScalingOf, mheTvpOf, mhePOf, mheYOf, h1, h2, h3, h4, h5, h6, h7, h9, h10, h11, h12, h13, h14, h15, h16]
  | setObjective s =>
    refine ⟨?_, ?_, ?_, fun j => ?_, fun j => ?_, fun j => ?_, fun j => ?_, hb, ?_, ?_, ?_, ?_⟩ <;> (try simp only [lastOf_snoc, List.filterMap_append]) <;>
      simp [MheObj.exec, mheSettingsOf, mheCostOf, mheNlConsOf, mheScalingOf, mheTvpOf, mhePOf, mheYOf, h1, h2, h3, h4, h5, h6, h7, h9, h10, h11, h12, h13, h14, h15, h16]
  | setNlCons s =>
    refine ⟨?_, ?_, ?_, fun j => ?_, fun j => ?_, fun j => ?_, fun j => ?_, hb, ?_, ?_, ?_, ?_⟩ <;> (try simp only [lastOf_snoc, List.filterMap_append]) <;>
      simp [MheObj.exec, mheSettingsOf, mheCostOf, mheNlConsOf, mheScalingOf, mheTvpOf, mhePOf, mheYOf, h1, h2, h3, h4, h5, h6, h7, h9, h10, h11, h12, h13, h14, h15, h16]
  | setTvpFun f b =>
    cases b <;>
    · refine ⟨?_, ?_, ?_, fun j => ?_, fun j => ?_, fun j => ?_, fun j => ?_, hb, ?_, ?_, ?_, ?_⟩ <;> (try simp only [lastOf_snoc, List.filterMap_append]) <;>
        simp [MheObj.exec, mheSettingsOf, mheCostOf, mheNlConsOf, mheScalingOf, mheTvpOf, mhePOf, mheYOf, h1, h2, h3, h4, h5, h6, h7, h9, h10, h11, h12, h13, h14, h15, h16]
  | setPFun f b =>
    cases b <;>
    · refine ⟨?_, ?_, ?_, fun j => ?_, fun j => ?_, fun j => ?_, fun j => ?_, hb, ?_, ?_, ?_, ?_⟩ <;> (try simp only [lastOf_snoc, List.filterMap_append]) <;>
        simp [MheObj.exec, mheSettingsOf, mheCostOf, mheNlConsOf, mheScalingOf, mheTvpOf, mhePOf, mheYOf, h1, h2, h3, h4, h5, h6, h7, h9, h10, h11, h12, h13, h14, h15, h16]
  | setYFun f b =>
    cases b <;>
    · refine ⟨?_, ?_, ?_, fun j => ?_, fun j => ?_, fun j => ?_, fun j => ?_, hb, ?_, ?_, ?_, ?_⟩ <;> (try simp only [lastOf_snoc, List.filterMap_append]) <;>
        simp [MheObj.exec, mheSettingsOf, mheCostOf, mheNlConsOf, mheScalingOf, mheTvpOf, mhePOf, mheYOf, h1, h2, h3, h4, h5, h6, h7, h9, h10, h11, h12, h13, h14, h15, h16]
  | _ => exact hop.elim

theorem mheConf_run (S : MheSettings K) (ops : List (MheOp K d ne ns)) (h : ∀ op ∈ ops, MheConfigures op) :
    MheConf S ops ((MheObj.new S : MheObj K d ne ns).run T ops) := by
  induction ops using List.reverseRecOn with
  | nil => exact mheConf_new S
  | append_singleton ops op ih =>
    rw [MheObj.run_append]
    exact mheConf_step T S ops _ (ih fun p hp => h p (by simp [hp])) op (h op (by simp))

theorem isSome_lastOf {α β : Type} (f : α → Option β) (ops : List α) :
    (lastOf (fun op => (f op).map some) ops none).isSome = true ↔ ∃ op ∈ ops, (f op).isSome = true := by
  induction ops using List.reverseRecOn with
  | nil => simp [lastOf]
  | append_singleton ops op ih =>
    rw [lastOf_snoc]
    cases h : f op with
    | none => simpa [h] using ih
    | some v => simp [h]

/-- **C86** (when `setup` succeeds): after any sequence of configuration calls on a new estimator, `setup()` returns without an exception iff an objective was given; if the
model has time-varying parameters (parameters that are not estimated), a function for them was accepted; every lower bound of states, inputs and algebraic states is at
most the upper one; measurements come from a function or from the log; and constraints at the collocation points are not asked for with a discrete-time model. -/
theorem C86_setup_returns_iff (S : MheSettings K) (ops : List (MheOp K d ne ns)) (h : ∀ op ∈ ops, MheConfigures op) :
    (((MheObj.new S : MheObj K d ne ns).run T ops).exec T .setup).2 = none ↔
      (∃ c, MheOp.setObjective c ∈ ops) ∧ (0 < d.ntv → ∃ f, MheOp.setTvpFun f true ∈ ops) ∧ (0 < ns → ∃ f, MheOp.setPFun f true ∈ ops) ∧
      (∀ v, (∀ j, v ≠ .p j) → Ordered (lastOf (mheBoundOf .lower v) ops .ninf) (lastOf (mheBoundOf .upper v) ops .pinf)) ∧
      ((∃ f, MheOp.setYFun f true ∈ ops) ∨ (lastOf mheSettingsOf ops S).measFromData = true) ∧
      ((lastOf mheSettingsOf ops S).nlColloc = true → 0 < (lastOf mheSettingsOf ops S).N →
        (T.ifcn (lastOf mheSettingsOf ops S) (fun j => lastOf (mheScalingOf (.x j)) ops 1) (fun j => lastOf (mheScalingOf (.u j)) ops 1)
          (fun j => lastOf (mheScalingOf (.z j)) ops 1) (fun i => Sum.elim (fun j => lastOf (mheScalingOf (.p j)) ops 1) 1 (T.sel i))).ncoll ≠ 0) := by
  have c := mheConf_run T S ops h
  have hcost : (∃ co, MheOp.setObjective co ∈ ops) ↔ ∃ co, ((MheObj.new S : MheObj K d ne ns).run T ops).cost = some co := by
    rw [← Option.isSome_iff_exists, c.cost, isSome_lastOf]
    constructor
    · rintro ⟨co, hm⟩; exact ⟨_, hm, rfl⟩
    · rintro ⟨op, hm, hs⟩; cases op <;> simp [mheCostOf] at hs; exact ⟨_, hm⟩
  have htvp : (∃ f, MheOp.setTvpFun f true ∈ ops) ↔ ((MheObj.new S : MheObj K d ne ns).run T ops).tvpFun.isSome := by
    rw [c.tvp, isSome_lastOf]
    constructor
    · rintro ⟨co, hm⟩; exact ⟨_, hm, rfl⟩
    · rintro ⟨op, hm, hs⟩
      cases op with
      | setTvpFun f b => cases b <;> simp [mheTvpOf] at hs; exact ⟨_, hm⟩
      | _ => simp [mheTvpOf] at hs
  have hp : (∃ f, MheOp.setPFun f true ∈ ops) ↔ ((MheObj.new S : MheObj K d ne ns).run T ops).pFun.isSome := by
    rw [c.p, isSome_lastOf]
    constructor
    · rintro ⟨co, hm⟩; exact ⟨_, hm, rfl⟩
    · rintro ⟨op, hm, hs⟩
      cases op with
      | setPFun f b => cases b <;> simp [mhePOf] at hs; exact ⟨_, hm⟩
      | _ => simp [mhePOf] at hs
  have hy : (∃ f, MheOp.setYFun f true ∈ ops) ↔ ((MheObj.new S : MheObj K d ne ns).run T ops).yFun.isSome := by
    have hmm : (fun op : MheOp K d ne ns => (mheYOf op).map fun f => some (MheYFun.user f)) = fun op => ((mheYOf op).map MheYFun.user).map some := by
      funext op; cases mheYOf op <;> rfl
    rw [c.y, hmm, isSome_lastOf]
    constructor
    · rintro ⟨co, hm⟩; exact ⟨_, hm, rfl⟩
    · rintro ⟨op, hm, hs⟩
      cases op with
      | setYFun f b => cases b <;> simp [mheYOf] at hs; exact ⟨_, hm⟩
      | _ => simp [mheYOf] at hs
  have hcr : ¬ ((MheObj.new S : MheObj K d ne ns).run T ops).crossed ↔
      ∀ v, (∀ j, v ≠ .p j) → Ordered (lastOf (mheBoundOf .lower v) ops .ninf) (lastOf (mheBoundOf .upper v) ops .pinf) := by
    unfold MheObj.crossed
    push Not
    refine forall_congr' fun v => forall_congr' fun _ => ?_
    rw [← gt_iff, c.bounds, c.bounds]
    simp [infOf]
  have hic : ∀ co, (((MheObj.new S : MheObj K d ne ns).run T ops).cfg T co).ifcn =
      T.ifcn (lastOf mheSettingsOf ops S) (fun j => lastOf (mheScalingOf (.x j)) ops 1) (fun j => lastOf (mheScalingOf (.u j)) ops 1)
          (fun j => lastOf (mheScalingOf (.z j)) ops 1) (fun i => Sum.elim (fun j => lastOf (mheScalingOf (.p j)) ops 1) 1 (T.sel i)) := by
    intro co
    rw [← c.set, ← funext c.sx, ← funext c.su, ← funext c.sz, ← funext c.sp]
    rfl
  rw [C86_setup_succeeds_iff T _ c.unset.2.2.1, hcost, htvp, hp, hcr, hy]
  simp only [hic]
  rw [← c.set]
  constructor
  · rintro ⟨⟨co, e1, e2⟩, e3, e4, e5, e6⟩
    exact ⟨⟨co, e1⟩, e3, e4, e5, e6, fun h2 h3 h4 => e2 ⟨h2, h4, h3⟩⟩
  · rintro ⟨⟨co, e1⟩, e3, e4, e5, e6, e7⟩
    exact ⟨⟨co, e1, fun hh => e7 hh.1 hh.2.2 hh.2.1⟩, e3, e4, e5, e6⟩

/-- **C86** (what is solved): after any sequence of configuration calls on a new estimator and a successful `setup()`, the problem handed to the solver is the one
(C23-C26) with the settings and costs given last, all constraints in the order of the calls, and the scaling (default 1) and bounds (default infinite) given last for
every entry of states, inputs, algebraic states and estimated parameters. -/
theorem C86_configured_problem (S : MheSettings K) (ops : List (MheOp K d ne ns)) (h : ∀ op ∈ ops, MheConfigures op)
    (hs : (((MheObj.new S : MheObj K d ne ns).run T ops).exec T .setup).2 = none) :
    ∃ (co : MheCost K d ne ns) (c : MheCfg K d ne ns) (P : MhePrepared K d ne ns), lastOf (fun op => (mheCostOf op).map some) ops none = some co ∧
      (((MheObj.new S : MheObj K d ne ns).run T ops).exec T .setup).1.solver = some ⟨c.obj, c.rows⟩ ∧
      (((MheObj.new S : MheObj K d ne ns).run T ops).exec T .setup).1.prep = some P ∧ P.lb = c.lbx ∧ P.ub = c.ubx ∧
      (let s := lastOf mheSettingsOf ops S
       c.N = s.N ∧ c.singleSlack = s.singleSlack ∧ c.nlColloc = s.nlColloc ∧ c.consColloc = s.consColloc ∧ c.ifcn = T.ifcn s c.sx c.su c.sz c.pScaling) ∧
      c.stage = co.stage ∧ c.arrival = co.arrival ∧ c.nl = ops.filterMap mheNlConsOf ∧ c.model = T.model ∧ c.sel = T.sel ∧
      (∀ j, c.sx j = lastOf (mheScalingOf (.x j)) ops 1) ∧ (∀ j, c.su j = lastOf (mheScalingOf (.u j)) ops 1) ∧ (∀ j, c.sz j = lastOf (mheScalingOf (.z j)) ops 1) ∧
      (∀ j, c.sp j = lastOf (mheScalingOf (.p j)) ops 1) ∧
      (∀ j, c.xlb j = lastOf (mheBoundOf .lower (.x j)) ops .ninf ∧ c.xub j = lastOf (mheBoundOf .upper (.x j)) ops .pinf) ∧
      (∀ j, c.ulb j = lastOf (mheBoundOf .lower (.u j)) ops .ninf ∧ c.uub j = lastOf (mheBoundOf .upper (.u j)) ops .pinf) ∧
      (∀ j, c.zlb j = lastOf (mheBoundOf .lower (.z j)) ops .ninf ∧ c.zub j = lastOf (mheBoundOf .upper (.z j)) ops .pinf) ∧
      ∀ j, c.plb j = lastOf (mheBoundOf .lower (.p j)) ops .ninf ∧ c.pub j = lastOf (mheBoundOf .upper (.p j)) ops .pinf := by
  have F := mheConf_run T S ops h
  obtain ⟨co, c, P, g0, g1, g2, g3, g4, g5, g6, g7, g8, g9, g10, g11, g12, g13, g14, g15, g16, g17, g18, g19, g20, g21, g22, g23⟩ := C86_setup_problem T _ hs
  refine ⟨co, c, P, F.cost ▸ g0, g1, g2, g3, g4, ?_, g10, g11, g12.trans F.nl, g13, g14, fun j => ?_, fun j => ?_, fun j => ?_, fun j => ?_, fun j => ?_, fun j => ?_, fun j => ?_, fun j => ?_⟩
  · rw [← F.set]
    refine ⟨g6, g7, g8, g9, ?_⟩
    rw [g15, g16, g17]
    exact g19
  · rw [g15, F.sx]
  · rw [g16, F.su]
  · rw [g17, F.sz]
  · rw [g18, F.sp]
  · rw [(g20 j).1, (g20 j).2, F.bounds, F.bounds]; exact ⟨rfl, rfl⟩
  · rw [(g21 j).1, (g21 j).2, F.bounds, F.bounds]; exact ⟨rfl, rfl⟩
  · rw [(g22 j).1, (g22 j).2, F.bounds, F.bounds]; exact ⟨rfl, rfl⟩
  · rw [(g23 j).1, (g23 j).2, F.bounds, F.bounds]; exact ⟨rfl, rfl⟩

/-- **C86** (`lb_opt_x`, `ub_opt_x`): after `prepare_nlp`, assigning a value to one entry sets the solver's bound of exactly this entry on this side to the value divided by
the scaling of the variable; no other bound changes, nor does the objective or a constraint. -/
theorem C86_opt_bound (o : MheObj K d ne ns) (P : MhePrepared K d ne ns) (h : o.prep = some P) (s : Side) (i : MheOptIx d ne) (b : Bound K) :
    ∃ P', o.exec T (.optBound s i b) = ({ o with prep := some P' }, none) ∧ P'.obj = P.obj ∧ P'.rows = P.rows ∧
      (∀ i', MheSameEntry i i' → mheEntry (match s with | .lower => P'.lb | .upper => P'.ub) i' =
        Scaled b (match i with | .x _ _ j => P.cfg.sx j | .u _ j => P.cfg.su j | .z _ _ j => P.cfg.sz j | .p j => P.cfg.sp j)) ∧
      (∀ i', ¬ MheSameEntry i i' → mheEntry P'.lb i' = mheEntry P.lb i' ∧ mheEntry P'.ub i' = mheEntry P.ub i') ∧
      (match s with | .lower => P'.ub = P.ub | .upper => P'.lb = P.lb) := by
  have hw : ∀ (B : MheBounds K d ne) (b : Bound K) (i i' : MheOptIx d ne), (MheSameEntry i i' → mheEntry (B.write b i) i' = b) ∧
      (¬ MheSameEntry i i' → mheEntry (B.write b i) i' = mheEntry B i') := by
    intro B b i i'
    cases i <;> cases i' <;> simp only [MheSameEntry, MheBounds.write, mheEntry, IsEmpty.forall_iff, true_and, not_false_eq_true, forall_true_left, Function.update_apply]
    all_goals
      constructor
      · intro h
        rw [if_pos]
        simp [h]
      · intro h
        rw [if_neg]
        intro h'
        exact h (by simp [h'])
  cases s with
  | lower =>
    refine ⟨{ P with lb := P.lb.write (b.divBy (P.cfg.scale i)) i }, by simp [MheObj.exec, h], rfl, rfl, fun i' hi => ?_, fun i' hi => ⟨(hw _ _ i i').2 hi, rfl⟩, rfl⟩
    rw [← divBy_scaled]
    cases i <;> exact (hw _ _ _ i').1 hi
  | upper =>
    refine ⟨{ P with ub := P.ub.write (b.divBy (P.cfg.scale i)) i }, by simp [MheObj.exec, h], rfl, rfl, fun i' hi => ?_, fun i' hi => ⟨rfl, (hw _ _ i i').2 hi⟩, rfl⟩
    rw [← divBy_scaled]
    cases i <;> exact (hw _ _ _ i').1 hi

open MheLifeEx in
/-- Non-vacuity: calls that meet the hypotheses; the bound of the state and the scaling of the estimated parameter are the last ones given. -/
example : let calls : List (MheOp ℚ dd 1 0) := [.setObjective co, .bound .upper (.x 0) (.fin 3), .scaling (.p 0) 2, .scaling (.p 0) 4, .bound .upper (.x 0) (.fin 5), .settings (S 2)]
    (∀ op ∈ calls, MheConfigures op) ∧ (((MheObj.new (S 3)).run tools calls).exec tools .setup).2 = none ∧ lastOf (mheBoundOf .upper (.x 0)) calls .pinf = .fin 5 ∧
    lastOf (mheScalingOf (.p 0)) calls 1 = 4 ∧ (lastOf mheSettingsOf calls (S 3)).N = 2 ∧ (((MheObj.new (S 3)).run tools calls).exec tools .setup).1.prep.isSome = true := by
  refine ⟨by simp [MheConfigures], ?_, rfl, rfl, rfl, ?_⟩ <;> decide +kernel

end DoMpc
