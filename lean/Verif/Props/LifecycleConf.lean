import Verif.Props.Lifecycle
import Verif.Spec.Lifecycle
import Mathlib.Data.List.Induction
import Mathlib.Data.Fintype.Sum
import Mathlib.Data.Fintype.Prod
import Mathlib.Tactic.Ring

/-!
# C37, C38: what was configured is what is solved
-/
set_option linter.unusedSectionVars false
namespace DoMpc
open Spec
variable {K : Type} [Field K] [LinearOrder K] {d : Dims} (mk : Vec K d.nx → Vec K d.nu → Vec K d.nz → Ifcn K d)

theorem lastOf_nil {α β : Type} (f : α → Option β) (v : β) : lastOf f [] v = v := rfl

theorem lastOf_snoc {α β : Type} (f : α → Option β) (ops : List α) (op : α) (v : β) :
    lastOf f (ops ++ [op]) v = (f op).getD (lastOf f ops v) := by
  unfold lastOf
  rw [List.filterMap_append]
  cases h : f op with
  | none => simp [h]
  | some b => simp [h]

/-- the object that the calls ask for -/
structure Conf (S : MpcSettings) (ops : List (MpcOp K d)) (o : MpcObj K d) : Prop where
  set : o.set = lastOf settingsOf ops S
  objective : o.objective = lastOf (fun op => (objectiveOf op).map some) ops none
  rterm : o.rterm = lastOf rtermOf ops (.factor 0)
  nl : o.nl = ops.filterMap nlConsOf
  sx : ∀ j, o.sx j = lastOf (scalingOf (.x j)) ops 1
  su : ∀ j, o.su j = lastOf (scalingOf (.u j)) ops 1
  sz : ∀ j, o.sz j = lastOf (scalingOf (.z j)) ops 1
  bounds : ∀ s v, o.getBound s v = lastOf (boundOf s v) ops (infOf s)
  tl : ∃ t, o.termLb = some t ∧ ∀ j, t j = lastOf (terminalOf .lower j) ops .ninf
  tu : ∃ t, o.termUb = some t ∧ ∀ j, t j = lastOf (terminalOf .upper j) ops .pinf
  unset : o.setup = false ∧ o.prep = none ∧ o.slackCost = []

theorem conf_new (S : MpcSettings) : Conf S [] (MpcObj.new S : MpcObj K d) := by
  refine ⟨rfl, rfl, rfl, rfl, fun _ => rfl, fun _ => rfl, fun _ => rfl, ?_, ⟨_, rfl, fun _ => rfl⟩, ⟨_, rfl, fun _ => rfl⟩, rfl, rfl, rfl⟩
  intro s v
  cases s <;> cases v <;> rfl

theorem conf_step (S : MpcSettings) (ops : List (MpcOp K d)) (o : MpcObj K d) (h : Conf S ops o) (op : MpcOp K d) (hop : Configures op) :
    Conf S (ops ++ [op]) (o.exec mk op).1 := by
  obtain ⟨h1, h2, h3, h4, h5, h6, h7, h8, ⟨tl, h9, h9'⟩, ⟨tu, h10, h10'⟩, h11, h12, h13⟩ := h
  have hb : ∀ s v, (o.exec mk op).1.getBound s v = (boundOf s v op).getD (o.getBound s v) := by
    intro s v
    by_cases hbo : ∃ s' v' b', op = .bound s' v' b'
    · obtain ⟨s', v', b', rfl⟩ := hbo
      have := C38_read_back mk o s' v' b'
      by_cases he : s' = s ∧ v' = v
      · obtain ⟨rfl, rfl⟩ := he
        rw [this.2.1]
        simp [boundOf]
      · rw [this.2.2 s v (fun hc => he (by simp only [Prod.mk.injEq] at hc; exact ⟨hc.1.symm, hc.2.symm⟩))]
        simp [boundOf, he]
    · by_cases ht : ∃ s' j' b', op = .terminalBound s' j' b'
      · obtain ⟨s', j', b', rfl⟩ := ht
        cases s' <;> simp only [MpcObj.exec, MpcObj.writeTerminal, h9, h10, boundOf, Option.getD_none] <;> (cases s <;> cases v <;> rfl)
      · rw [getBound_other mk o op (fun s j b hc => ht ⟨s, j, b, hc⟩) (fun s j b hc => hbo ⟨s, j, b, hc⟩)]
        cases op with
        | bound s' v' b' => exact absurd ⟨_, _, _, rfl⟩ hbo
        | _ => rfl
  have hb' : ∀ s v, (o.exec mk op).1.getBound s v = lastOf (boundOf s v) (ops ++ [op]) (infOf s) := by
    intro s v
    rw [hb, lastOf_snoc, h8]
  cases op with
  | setParam s =>
    refine ⟨?_, ?_, ?_, ?_, fun j => ?_, fun j => ?_, fun j => ?_, hb', ?_, ?_, ?_⟩ <;> (try simp only [lastOf_snoc, List.filterMap_append]) <;>
      simp [MpcObj.exec, h11, settingsOf, objectiveOf, rtermOf, nlConsOf, scalingOf, terminalOf, h2, h3, h4, h5, h6, h7, h9, h9', h10, h10', h12, h13]
  | settings s =>
    refine ⟨?_, ?_, ?_, ?_, fun j => ?_, fun j => ?_, fun j => ?_, hb', ?_, ?_, ?_⟩ <;> (try simp only [lastOf_snoc, List.filterMap_append]) <;>
      simp [MpcObj.exec, h11, settingsOf, objectiveOf, rtermOf, nlConsOf, scalingOf, terminalOf, h2, h3, h4, h5, h6, h7, h9, h9', h10, h10', h12, h13]
  | setObjective s =>
    refine ⟨?_, ?_, ?_, ?_, fun j => ?_, fun j => ?_, fun j => ?_, hb', ?_, ?_, ?_⟩ <;> (try simp only [lastOf_snoc, List.filterMap_append]) <;>
      simp [MpcObj.exec, h11, settingsOf, objectiveOf, rtermOf, nlConsOf, scalingOf, terminalOf, h1, h3, h4, h5, h6, h7, h9, h9', h10, h10', h12, h13]
  | setRterm s =>
    refine ⟨?_, ?_, ?_, ?_, fun j => ?_, fun j => ?_, fun j => ?_, hb', ?_, ?_, ?_⟩ <;> (try simp only [lastOf_snoc, List.filterMap_append]) <;>
      simp [MpcObj.exec, h11, settingsOf, objectiveOf, rtermOf, nlConsOf, scalingOf, terminalOf, h1, h2, h4, h5, h6, h7, h9, h9', h10, h10', h12, h13]
  | setNlCons s =>
    refine ⟨?_, ?_, ?_, ?_, fun j => ?_, fun j => ?_, fun j => ?_, hb', ?_, ?_, ?_⟩ <;> (try simp only [lastOf_snoc, List.filterMap_append]) <;>
      simp [MpcObj.exec, h11, settingsOf, objectiveOf, rtermOf, nlConsOf, scalingOf, terminalOf, h1, h2, h3, h4, h5, h6, h7, h9, h9', h10, h10', h12, h13]
  | scaling v a =>
    rcases v with jv | jv | jv <;>
    · refine ⟨?_, ?_, ?_, ?_, fun j => ?_, fun j => ?_, fun j => ?_, hb', ?_, ?_, ?_⟩ <;> (try simp only [lastOf_snoc, List.filterMap_append]) <;>
        simp [MpcObj.exec, MpcObj.writeScaling, h11, settingsOf, objectiveOf, rtermOf, nlConsOf, scalingOf, terminalOf, h1, h2, h3, h4, h5, h6, h7, h9, h9', h10, h10', h12, h13,
          Function.update_apply]
      all_goals
        by_cases e : j = jv
        · subst e; simp
        · simp [e, Ne.symm e]
  | bound s v b =>
    cases s <;> cases v <;>
    · refine ⟨?_, ?_, ?_, ?_, fun j => ?_, fun j => ?_, fun j => ?_, hb', ?_, ?_, ?_⟩ <;> (try simp only [lastOf_snoc, List.filterMap_append]) <;>
        simp [MpcObj.exec, MpcObj.writeBound, h11, settingsOf, objectiveOf, rtermOf, nlConsOf, scalingOf, terminalOf, h1, h2, h3, h4, h5, h6, h7, h9, h9', h10, h10', h12, h13]
  | terminalBound s jv b =>
    cases s <;>
    · refine ⟨?_, ?_, ?_, ?_, fun j => ?_, fun j => ?_, fun j => ?_, hb', ?_, ?_, ?_⟩ <;> (try simp only [lastOf_snoc, List.filterMap_append]) <;>
        simp [MpcObj.exec, MpcObj.writeTerminal, h11, settingsOf, objectiveOf, rtermOf, nlConsOf, scalingOf, terminalOf, h1, h2, h3, h4, h5, h6, h7, h9, h9', h10, h10', h12, h13,
          Function.update_apply]
      all_goals
        intro j
        by_cases e : j = jv
        · subst e; simp
        · simp [e, Ne.symm e]
  | _ => exact hop.elim

theorem conf_run (S : MpcSettings) (ops : List (MpcOp K d)) (h : ∀ op ∈ ops, Configures op) : Conf S ops ((MpcObj.new S : MpcObj K d).run mk ops) := by
  induction ops using List.reverseRecOn with
  | nil => exact conf_new S
  | append_singleton ops op ih =>
    rw [MpcObj.run_append]
    exact conf_step mk S ops _ (ih fun p hp => h p (by simp [hp])) op (h op (by simp))

theorem gt_iff (a b : Bound K) : a.gt b = false ↔ Ordered a b := by
  cases a <;> cases b <;> simp [Bound.gt, Ordered]

/-- **C37** (when `setup` succeeds): after any sequence of configuration calls on a new object, `setup()` returns without an exception iff an objective was given
and every lower bound (the last one given, `-inf` if none) is at most the upper one. -/
theorem C37_setup_returns_iff (S : MpcSettings) (ops : List (MpcOp K d)) (h : ∀ op ∈ ops, Configures op) :
    (((MpcObj.new S : MpcObj K d).run mk ops).exec mk .setup).2 = none ↔
      (∃ ob, MpcOp.setObjective ob ∈ ops) ∧ ∀ v, Ordered (lastOf (boundOf .lower v) ops .ninf) (lastOf (boundOf .upper v) ops .pinf) := by
  have c := conf_run mk S ops h
  rw [C37_setup_succeeds_iff mk _ c.unset.2.2]
  refine and_congr ?_ (forall_congr' fun v => ?_)
  · rw [c.objective]
    unfold lastOf
    induction ops using List.reverseRecOn with
    | nil => simp
    | append_singleton ops op ih =>
      have ih := ih (fun p hp => h p (by simp [hp])) (conf_run mk S ops fun p hp => h p (by simp [hp]))
      cases op <;> simp_all [objectiveOf]
  · rw [gt_iff, c.bounds, c.bounds]
    rfl

/-- **C37** (what is solved): after any sequence of configuration calls on a new object and a successful `setup()`, the problem handed to the solver is the one
(C04-C10) with the settings, the objective and the input penalty given last (penalty zero if none was given), all constraints in the order of the calls, and the
scaling (default 1) and bounds (default infinite) given last for every entry. -/
theorem C37_configured_problem (S : MpcSettings) (ops : List (MpcOp K d)) (h : ∀ op ∈ ops, Configures op)
    (hs : (((MpcObj.new S : MpcObj K d).run mk ops).exec mk .setup).2 = none) :
    ∃ (ob : Objective K d) (c : MpcCfg K d), lastOf (fun op => (objectiveOf op).map some) ops none = some ob ∧
      (((MpcObj.new S : MpcObj K d).run mk ops).exec mk .setup).1.problem = some ⟨⟨c.obj, c.rows⟩, c.lbx, c.ubx⟩ ∧
      (let s := lastOf settingsOf ops S
       c.N = s.N ∧ c.nRobust = s.nRobust ∧ c.c = s.c ∧ c.openLoop = s.openLoop ∧ c.singleSlack = s.singleSlack ∧ c.nlColloc = s.nlColloc ∧
        c.consColloc = s.consColloc) ∧
      c.lterm = ob.lterm ∧ c.mterm = ob.mterm ∧ c.rterm = lastOf rtermOf ops (.factor fun _ => 0) ∧ c.nl = ops.filterMap nlConsOf ∧
      (∀ j, c.sx j = lastOf (scalingOf (.x j)) ops 1) ∧ (∀ j, c.su j = lastOf (scalingOf (.u j)) ops 1) ∧ (∀ j, c.sz j = lastOf (scalingOf (.z j)) ops 1) ∧
      c.ifcn = mk c.sx c.su c.sz ∧
      (∀ j, c.xlb j = lastOf (boundOf .lower (.x j)) ops .ninf ∧ c.xub j = lastOf (boundOf .upper (.x j)) ops .pinf) ∧
      (∀ j, c.ulb j = lastOf (boundOf .lower (.u j)) ops .ninf ∧ c.uub j = lastOf (boundOf .upper (.u j)) ops .pinf) ∧
      (∀ j, c.zlb j = lastOf (boundOf .lower (.z j)) ops .ninf ∧ c.zub j = lastOf (boundOf .upper (.z j)) ops .pinf) ∧
      ∀ j, c.xtlb j = terminalWanted ops (lastOf settingsOf ops S) .lower j ∧ c.xtub j = terminalWanted ops (lastOf settingsOf ops S) .upper j := by
  have F := conf_run mk S ops h
  obtain ⟨ob, c, P, g0, g1, g2, g3, g4, g5, g6, g7, g8, g9, g10, g11, g12, g13, g14, g15, g16, g17, g18, g19, g20, g21, g22, g23, g24, g25⟩ :=
    C37_setup_problem mk _ hs
  refine ⟨ob, c, F.objective ▸ g0, ?_, ?_, g13, g14, g15.trans F.rterm, g16.trans F.nl, fun j => ?_, fun j => ?_, fun j => ?_, ?_, fun j => ?_, fun j => ?_, fun j => ?_, fun j => ?_⟩
  · simp only [MpcObj.problem, g1, g2, g3, g4]
  · rw [← F.set]
    exact ⟨g6, g7, g8, g9, g10, g11, g12⟩
  · rw [g17, F.sx]
  · rw [g18, F.su]
  · rw [g19, F.sz]
  · rw [g20, g17, g18, g19]
  · rw [(g21 j).1, (g21 j).2, F.bounds, F.bounds]; exact ⟨rfl, rfl⟩
  · rw [(g22 j).1, (g22 j).2, F.bounds, F.bounds]; exact ⟨rfl, rfl⟩
  · rw [(g23 j).1, (g23 j).2, F.bounds, F.bounds]; exact ⟨rfl, rfl⟩
  · obtain ⟨tl, e1, e2⟩ := F.tl
    obtain ⟨tu, e3, e4⟩ := F.tu
    have el : ∀ j, ((MpcObj.new S : MpcObj K d).run mk ops).term .lower j = lastOf (terminalOf .lower j) ops .ninf := by
      intro j; simp only [MpcObj.term, e1, Option.getD_some]; exact e2 j
    have eu : ∀ j, ((MpcObj.new S : MpcObj K d).run mk ops).term .upper j = lastOf (terminalOf .upper j) ops .pinf := by
      intro j; simp only [MpcObj.term, e3, Option.getD_some]; exact e4 j
    constructor
    · rw [g24]
      rw [← F.set]
      simp only [el]
      by_cases hc : (∀ j, lastOf (terminalOf .lower j) ops .ninf = (.ninf : Bound K)) ∧ ((MpcObj.new S : MpcObj K d).run mk ops).set.useTerminal = true
      · rw [if_pos hc]; exact (F.bounds .lower (.x j)).trans (if_pos hc).symm
      · rw [if_neg hc]; exact (el j).trans (if_neg hc).symm
    · rw [g25]
      rw [← F.set]
      simp only [eu]
      by_cases hc : (∀ j, lastOf (terminalOf .upper j) ops .pinf = (.pinf : Bound K)) ∧ ((MpcObj.new S : MpcObj K d).run mk ops).set.useTerminal = true
      · rw [if_pos hc]; exact (F.bounds .upper (.x j)).trans (if_pos hc).symm
      · rw [if_neg hc]; exact (eu j).trans (if_neg hc).symm

theorem divBy_scaled (b : Bound K) (s : K) : b.divBy s = Scaled b s := by
  cases b <;> simp only [Bound.divBy, Scaled]
  all_goals (rcases lt_or_ge s 0 with h | h <;> simp [h, not_lt.2, not_le.2])

/-- **C38** (`lb_opt_x`, `ub_opt_x`): after `prepare_nlp`, assigning a value to one entry sets the solver's bound of exactly this entry on this side to the value divided by
the scaling of the variable; no other bound changes, nor does the objective or a constraint. -/
theorem C38_opt_bound (o : MpcObj K d) (P : Prepared K d) (h : o.prep = some P) (s : Side) (i : OptIx d) (b : Bound K) :
    ∃ P', o.exec mk (.optBound s i b) = ({ o with prep := some P' }, none) ∧ P'.obj = P.obj ∧ P'.rows = P.rows ∧
      (∀ i', SameEntry i i' → (match s with | .lower => P'.lb.get i' | .upper => P'.ub.get i') =
        Scaled b (match i with | .x _ _ _ j => P.cfg.sx j | .u _ _ j => P.cfg.su j | .z _ _ _ j => P.cfg.sz j)) ∧
      (∀ i', ¬ SameEntry i i' → P'.lb.get i' = P.lb.get i' ∧ P'.ub.get i' = P.ub.get i') ∧
      (∀ i', match s with | .lower => P'.ub.get i' = P.ub.get i' | .upper => P'.lb.get i' = P.lb.get i') := by
  have hw : ∀ (B : OptXBounds K d) (b : Bound K) (i i' : OptIx d), (SameEntry i i' → (B.write b i).get i' = b) ∧
      (¬ SameEntry i i' → (B.write b i).get i' = B.get i') := by
    intro B b i i'
    cases i <;> cases i' <;> simp only [SameEntry, OptXBounds.write, OptXBounds.get, IsEmpty.forall_iff, true_and, not_false_eq_true, forall_true_left]
    all_goals
      constructor
      · intro h
        rw [if_pos]
        simp [h]
      · intro h
        rw [if_neg]
        intro h'
        exact h (by simp [h'])
  cases s with
  | lower =>
    refine ⟨{ P with lb := P.lb.write (b.divBy (P.cfg.scale i)) i }, by simp [MpcObj.exec, h], rfl, rfl, fun i' hi => ?_, fun i' hi => ⟨(hw _ _ i i').2 hi, rfl⟩, fun _ => rfl⟩
    rw [← divBy_scaled]
    cases i <;> exact (hw _ _ _ i').1 hi
  | upper =>
    refine ⟨{ P with ub := P.ub.write (b.divBy (P.cfg.scale i)) i }, by simp [MpcObj.exec, h], rfl, rfl, fun i' hi => ?_, fun i' hi => ⟨rfl, (hw _ _ i i').2 hi⟩, fun _ => rfl⟩
    rw [← divBy_scaled]
    cases i <;> exact (hw _ _ _ i').1 hi

/-- The length of `opt_x` used for the multipliers is the number of its scalar entries: states at `N + 1` stages, algebraic states and inputs at `N` stages, slack variables. -/
theorem nOptX_card (cfg : MpcCfg K d) :
    cfg.nOptX = Fintype.card ((Fin (cfg.N + 1) × Fin cfg.nMax × Fin (1 + cfg.ifcn.ncoll) × Fin d.nx) ⊕
      (Fin cfg.N × Fin cfg.nMax × Fin (max cfg.ifcn.ncoll 1) × Fin d.nz) ⊕ (Fin cfg.N × Fin cfg.nU × Fin d.nu) ⊕
      (Fin cfg.nEps × Fin cfg.nMax × Fin ((slackVars cfg.nl).map (·.dim)).sum)) := by
  simp only [Fintype.card_sum, Fintype.card_prod, Fintype.card_fin, MpcCfg.nOptX]
  ring

/-! ## Concrete calls -/
namespace LifecycleExample

def calls : List (MpcOp ℚ dm) :=
  [.setObjective ob, .bound .upper (.x x0) (.fin 7), .scaling (.u u0) 2, .setNlCons soft, .setRterm (.factor 1), .bound .upper (.x x0) (.fin 3), .setNlCons hard,
    .settings { S with N := 5 }]

example : ∀ op ∈ calls, Configures op := by simp [calls, Configures]
example : (((MpcObj.new S).run mkD calls).exec mkD .setup).2 = none := by
  rw [C37_setup_returns_iff mkD S calls (by simp [calls, Configures])]
  refine ⟨⟨ob, by simp [calls]⟩, fun v => ?_⟩
  have : lastOf (boundOf .lower v) calls .ninf = (.ninf : Bound ℚ) := by
    cases v <;> rfl
  rw [this]
  trivial
example : lastOf (boundOf .upper (.x x0)) calls .pinf = .fin 3 := rfl
example : (lastOf settingsOf calls S).N = 5 := rfl
example : calls.filterMap nlConsOf = [soft, hard] := rfl
example : oPrep.prep.isSome = true := by rfl

end LifecycleExample
end DoMpc
