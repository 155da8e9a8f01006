import Verif.Model.Lifecycle
import Mathlib.Algebra.Order.Ring.Defs
import Mathlib.Algebra.Field.Rat
import Mathlib.Algebra.Order.Ring.Unbundled.Rat

/-! # Life cycle of an MPC object: C37 (freezing), C38 (bounds), C40 (setup again) -/
set_option linter.unusedSectionVars false
namespace DoMpc
variable {K : Type} [Field K] [LinearOrder K] {d : Dims}
variable (mk : Vec K d.nx → Vec K d.nu → Vec K d.nz → Ifcn K d)

/-! ## lemmas -/

theorem MpcObj.run_append (a b : List (MpcOp K d)) : ∀ o : MpcObj K d, o.run mk (a ++ b) = (o.run mk a).run mk b := by
  induction a with
  | nil => intro o; rfl
  | cons op a ih => intro o; exact ih _

/-- what `bounds[…] = …` does to the values that can be read -/
theorem writeBound_get (o : MpcObj K d) (s s' : Side) (v v' : VarIx d) (b : Bound K) :
    (o.writeBound s b v).getBound s' v' = if s' = s ∧ v' = v then b else o.getBound s' v' := by
  cases s <;> cases s' <;> cases v <;> cases v' <;> simp [MpcObj.writeBound, MpcObj.getBound, Function.update_apply]

theorem writeBound_set (o : MpcObj K d) (s : Side) (v : VarIx d) (b : Bound K) : (o.writeBound s b v).set = o.set := by
  cases s <;> cases v <;> rfl

theorem writeBound_fields (o : MpcObj K d) (s : Side) (v : VarIx d) (b : Bound K) :
    (o.writeBound s b v).setup = o.setup ∧ (o.writeBound s b v).solver = o.solver ∧ (o.writeBound s b v).objective = o.objective ∧
    (o.writeBound s b v).rterm = o.rterm ∧ (o.writeBound s b v).nl = o.nl ∧ (o.writeBound s b v).sx = o.sx ∧ (o.writeBound s b v).su = o.su ∧
    (o.writeBound s b v).sz = o.sz ∧ (o.writeBound s b v).termLb = o.termLb ∧ (o.writeBound s b v).termUb = o.termUb ∧
    (o.writeBound s b v).slackCost = o.slackCost ∧ (o.writeBound s b v).gen = o.gen := by
  cases s <;> cases v <;> exact ⟨rfl, rfl, rfl, rfl, rfl, rfl, rfl, rfl, rfl, rfl, rfl, rfl⟩

/-! ## C37 -/

/-- the calls that are refused after `setup` -/
def MpcOp.guarded : MpcOp K d → Prop
  | .setParam _ | .setObjective _ | .setRterm _ | .setNlCons _ | .scaling _ _ | .nlpObj _ | .nlpCons _ => True
  | _ => False

/-- the calls that (re)build the problem -/
def MpcOp.builds : MpcOp K d → Prop
  | .prepare | .create | .setup => True
  | _ => False

/-- **C37 (refusal).**  Once set up, `set_param`, `set_objective`, `set_rterm`, `set_nl_cons`, `scaling[…] =`, `nlp_obj =` and `nlp_cons =` raise
and change nothing. -/
theorem C37_guarded (o : MpcObj K d) (h : o.setup = true) (op : MpcOp K d) (hop : op.guarded) : o.exec mk op = (o, some "AssertionError") := by
  cases op with
  | nlpObj f => cases hp : o.prep <;> simp [MpcObj.exec, h, hp]
  | nlpCons f => cases hp : o.prep <;> simp [MpcObj.exec, h, hp]
  | setParam s => simp [MpcObj.exec, h]
  | setObjective s => simp [MpcObj.exec, h]
  | setRterm s => simp [MpcObj.exec, h]
  | setNlCons s => simp [MpcObj.exec, h]
  | scaling v a => simp [MpcObj.exec, h]
  | _ => exact hop.elim

theorem frozen_step (o : MpcObj K d) (h : o.setup = true) (op : MpcOp K d) (hop : ¬ op.builds) :
    (o.exec mk op).1.setup = true ∧ (o.exec mk op).1.solver = o.solver ∧ (o.exec mk op).1.objective = o.objective ∧
    (o.exec mk op).1.rterm = o.rterm ∧ (o.exec mk op).1.nl = o.nl ∧ (o.exec mk op).1.sx = o.sx ∧ (o.exec mk op).1.su = o.su ∧
    (o.exec mk op).1.sz = o.sz := by
  by_cases hg : op.guarded
  · rw [C37_guarded mk o h op hg]
    exact ⟨h, rfl, rfl, rfl, rfl, rfl, rfl, rfl⟩
  · cases op with
    | settings s => exact ⟨h, rfl, rfl, rfl, rfl, rfl, rfl, rfl⟩
    | bound s v b =>
      obtain ⟨a1, a2, a3, a4, a5, a6, a7, a8, _⟩ := writeBound_fields o s v b
      exact ⟨a1.trans h, a2, a3, a4, a5, a6, a7, a8⟩
    | terminalBound s j b =>
      simp only [MpcObj.exec, MpcObj.writeTerminal]
      repeat' split
      all_goals exact ⟨h, rfl, rfl, rfl, rfl, rfl, rfl, rfl⟩
    | optBound s i b =>
      simp only [MpcObj.exec]
      repeat' split
      all_goals exact ⟨h, rfl, rfl, rfl, rfl, rfl, rfl, rfl⟩
    | solve =>
      simp only [MpcObj.exec, MpcObj.solve]
      repeat' split
      all_goals exact ⟨h, rfl, rfl, rfl, rfl, rfl, rfl, rfl⟩
    | prepare => exact (hop trivial).elim
    | create => exact (hop trivial).elim
    | setup => exact (hop trivial).elim
    | _ => exact (hg trivial).elim

/-- **C37 (freezing).**  After `setup`, no sequence of calls other than `prepare_nlp`, `create_nlp`, `setup` changes the objective function and
the constraints the solver works on, nor the configured objective, input penalty, nonlinear constraints and scaling. -/
theorem C37_frozen (ops : List (MpcOp K d)) : ∀ o : MpcObj K d, o.setup = true → (∀ op ∈ ops, ¬ op.builds) →
    (o.run mk ops).setup = true ∧ (o.run mk ops).solver = o.solver ∧ (o.run mk ops).objective = o.objective ∧ (o.run mk ops).rterm = o.rterm ∧
    (o.run mk ops).nl = o.nl ∧ (o.run mk ops).sx = o.sx ∧ (o.run mk ops).su = o.su ∧ (o.run mk ops).sz = o.sz := by
  induction ops with
  | nil => intro o h _; exact ⟨h, rfl, rfl, rfl, rfl, rfl, rfl, rfl⟩
  | cons op ops ih =>
    intro o h hops
    obtain ⟨a1, a2, a3, a4, a5, a6, a7, a8⟩ := frozen_step mk o h op (hops op (by simp))
    obtain ⟨b1, b2, b3, b4, b5, b6, b7, b8⟩ := ih _ a1 (fun p hp => hops p (by simp [hp]))
    exact ⟨b1, b2.trans a2, b3.trans a3, b4.trans a4, b5.trans a5, b6.trans a6, b7.trans a7, b8.trans a8⟩

/-- **C37 is false for the settings.**  `mpc.settings.n_horizon = N` is accepted after `setup`, and the next assignment of any bound then puts
the terminal bounds on stage `N` of the problem that was set up for another horizon. -/
theorem C37_fails_settings (o : MpcObj K d) (P : Prepared K d) (hP : o.prep = some P) (S : MpcSettings) (v : VarIx d) (b : Bound K)
    (hv : ∀ j, v ≠ .x j) (sc : Nat) (j : Fin d.nx) :
    let o1 := (o.exec mk (.settings S)).1
    let o2 := (o1.exec mk (.bound .lower v b)).1
    (o.exec mk (.settings S)).2 = none ∧ o1.set = S ∧
      o2.getOptBound .lower (.x S.N sc P.cfg.xLast j) = some ((o.term .lower j).divBy (P.cfg.sx j)) := by
  intro o1 o2
  refine ⟨rfl, rfl, ?_⟩
  have hxlb : (o1.writeBound .lower b v).xlb = o.xlb := by
    cases v with
    | x j => exact (hv j rfl).elim
    | u j => rfl
    | z j => rfl
  have hterm : (o1.writeBound .lower b v).term .lower = o.term .lower := by
    simp only [MpcObj.term, hxlb, (writeBound_fields o1 .lower v b).2.2.2.2.2.2.2.2.1]
    rfl
  have hs : (o1.writeBound .lower b v).set = S := writeBound_set _ _ _ _
  have hp : o1.prep = some P := hP
  simp only [o2, MpcObj.exec, MpcObj.getOptBound, hp, Option.map_some, MpcObj.updatePrepared, MpcCfg.updateBounds, OptXBounds.get, hs, hterm]
  simp [MpcCfg.xLast]

theorem prepare_ok (o o1 : MpcObj K d) (h : o.prepare mk = (o1, none)) :
    ∃ ob, o1.objective = some ob ∧ o1.prep = some ⟨o1.cfg mk ob, (o1.cfg mk ob).obj, (o1.cfg mk ob).rows, (o1.cfg mk ob).lbx, (o1.cfg mk ob).ubx⟩ ∧ o1.cat = false := by
  unfold MpcObj.prepare at h
  split at h
  · simp at h
  · split at h
    · simp at h
    · rename_i o2 _
      split at h
      · simp at h
      · rename_i ob hob
        simp only [Prod.mk.injEq, and_true] at h
        subst h
        exact ⟨ob, hob, rfl, rfl⟩

/-- **C37 is false between `prepare_nlp` and `create_nlp`**: `set_objective` is accepted there but the solver gets the objective in force at
`prepare_nlp`. -/
theorem C37_fails_objective_after_prepare (o o1 : MpcObj K d) (h : o.prepare mk = (o1, none)) (h2 : o1.setup = false) (ob : Objective K d) :
    ∃ P, o1.prep = some P ∧ (o1.exec mk (.setObjective ob)).2 = none ∧ ((o1.exec mk (.setObjective ob)).1.exec mk .create).2 = none ∧
      (o1.run mk [.setObjective ob, .create]).solver = some ⟨P.obj, P.rows⟩ := by
  obtain ⟨ob', -, h1, h3⟩ := prepare_ok mk o o1 h
  exact ⟨_, h1, by simp [MpcObj.run, MpcObj.exec, h2, MpcObj.create, h1, h3]⟩

/-- **C37 is false for the scaling between `prepare_nlp` and `create_nlp`**: it is accepted there; afterwards `make_step` returns the first input
of the solution multiplied by the new scaling factor although the problem was formulated with the old one, so the returned input is not the
input whose consequences were optimised. -/
theorem C37_fails_scaling_after_prepare (o o1 : MpcObj K d) (h : o.prepare mk = (o1, none)) (h2 : o1.setup = false)
    (j : Fin d.nu) (a : K) (ha : a ≠ o1.su j) (w : OptX K d) (hw : w.u 0 0 j ≠ 0) :
    ∃ P, o1.prep = some P ∧ (o1.exec mk (.scaling (.u j) a)).2 = none ∧ (o1.run mk [.scaling (.u j) a, .create]).setup = true ∧
      (o1.run mk [.scaling (.u j) a, .create]).solver = some ⟨P.obj, P.rows⟩ ∧
      (o1.run mk [.scaling (.u j) a, .create]).returnedInput w j ≠ P.cfg.uPhys w 0 0 j := by
  obtain ⟨ob', -, h1, h3⟩ := prepare_ok mk o o1 h
  refine ⟨_, h1, ?_⟩
  have hrun : o1.run mk [.scaling (.u j) a, .create] = { o1 with su := Function.update o1.su j a, solver := some ⟨(o1.cfg mk ob').obj, (o1.cfg mk ob').rows⟩, setup := true, cat := true } := by
    simp [MpcObj.run, MpcObj.exec, h2, MpcObj.create, h1, h3, MpcObj.writeScaling]
  refine ⟨by simp [MpcObj.exec, h2], by rw [hrun], by rw [hrun], ?_⟩
  rw [hrun]
  simp only [MpcObj.returnedInput, MpcCfg.uPhys, Pi.mul_apply, Function.update_self, MpcObj.cfg]
  exact fun h => ha (mul_left_cancel₀ hw h)

/-! ## C38 -/

/-- **C38 (read back).**  In every state, after `bounds[s, v] = b` reading `bounds[s, v]` gives `b` and every other entry of `bounds` reads as
before. -/
theorem C38_read_back (o : MpcObj K d) (s : Side) (v : VarIx d) (b : Bound K) :
    (o.exec mk (.bound s v b)).2 = none ∧ (o.exec mk (.bound s v b)).1.getBound s v = b ∧
      ∀ s' v', (s', v') ≠ (s, v) → (o.exec mk (.bound s v b)).1.getBound s' v' = o.getBound s' v' := by
  have hg : ∀ s' v', (o.exec mk (.bound s v b)).1.getBound s' v' = (o.writeBound s b v).getBound s' v' := by
    intro s' v'
    cases s' <;> cases v' <;> rfl
  refine ⟨rfl, by rw [hg, writeBound_get, if_pos ⟨rfl, rfl⟩], fun s' v' h => ?_⟩
  rw [hg, writeBound_get, if_neg fun h' => h (by rw [h'.1, h'.2])]

/-- the value given last for an entry of `bounds`, `∓∞` if none was given -/
def lastBound (s : Side) (v : VarIx d) : List (MpcOp K d) → Bound K → Bound K
  | [], b => b
  | .bound s' v' b' :: rest, b => lastBound s v rest (if s' = s ∧ v' = v then b' else b)
  | _ :: rest, b => lastBound s v rest b

/-- default of a bound -/
def Side.inf : Side → Bound K
  | .lower => .ninf
  | .upper => .pinf

theorem getBound_other (o : MpcObj K d) (op : MpcOp K d) (h1 : ∀ s j b, op ≠ .terminalBound s j b) (h2 : ∀ s v b, op ≠ .bound s v b) (s : Side) (v : VarIx d) :
    (o.exec mk op).1.getBound s v = o.getBound s v := by
  have hprep : ∀ o : MpcObj K d, (o.prepare mk).1.getBound s v = o.getBound s v := by
    intro o
    have e1 : o.setupNlCons.1.getBound s v = o.getBound s v := by
      unfold MpcObj.setupNlCons
      dsimp only
      split <;> (cases s <;> cases v <;> rfl)
    have e2 : ∀ o1 : MpcObj K d, o1.checkValidity.1.getBound s v = o1.getBound s v := by
      intro o1
      unfold MpcObj.checkValidity
      repeat' split
      all_goals (cases s <;> cases v <;> rfl)
    unfold MpcObj.prepare
    split
    · rename_i o1 e h; rw [h] at e1; exact e1
    · rename_i o1 h
      have e1' : o1.getBound s v = o.getBound s v := by rw [h] at e1; exact e1
      split
      · rename_i o2 e h'; have := e2 o1; rw [h'] at this; exact this.trans e1'
      · rename_i o2 h'
        have e2' : o2.getBound s v = o.getBound s v := by have := e2 o1; rw [h'] at this; exact this.trans e1'
        split
        · exact e2'
        · rw [← e2']; cases s <;> cases v <;> rfl
  have hcr : ∀ o : MpcObj K d, o.create.1.getBound s v = o.getBound s v := by
    intro o
    unfold MpcObj.create
    repeat' split
    all_goals (cases s <;> cases v <;> rfl)
  cases op with
  | bound s v b => exact (h2 s v b rfl).elim
  | terminalBound s j b => exact (h1 s j b rfl).elim
  | prepare => exact hprep o
  | create => exact hcr o
  | setup =>
    simp only [MpcObj.exec]
    split
    · rename_i o1 e h; have := hprep o; rw [h] at this; exact this
    · rename_i o1 h; have := hprep o; rw [h] at this; rw [hcr]; exact this
  | scaling v' a =>
    simp only [MpcObj.exec]
    split
    · rfl
    · cases v' <;> (cases s <;> cases v <;> rfl)
  | solve =>
    simp only [MpcObj.exec, MpcObj.solve]
    repeat' split
    all_goals (cases s <;> cases v <;> rfl)
  | _ =>
    simp only [MpcObj.exec]
    repeat' split
    all_goals (cases s <;> cases v <;> rfl)

/-- **C38 (history), partial.**  After every sequence of calls in which no terminal bound is set, reading an entry of `bounds` gives the value
given last for it.  Missing: terminal bounds (`C38_fails_terminal_changes_path`). -/
theorem C38_history_partial (S : MpcSettings) (s : Side) (v : VarIx d) (ops : List (MpcOp K d)) (h : ∀ s j b, MpcOp.terminalBound s j b ∉ ops) :
    ((MpcObj.new S : MpcObj K d).run mk ops).getBound s v = lastBound s v ops s.inf := by
  have key : ∀ (ops : List (MpcOp K d)) (o : MpcObj K d), (∀ s j b, MpcOp.terminalBound s j b ∉ ops) →
      (o.run mk ops).getBound s v = lastBound s v ops (o.getBound s v) := by
    intro ops
    induction ops with
    | nil => intro o _; rfl
    | cons op ops ih =>
      intro o h
      have h' : ∀ s j b, MpcOp.terminalBound s j b ∉ ops := fun s j b hm => h s j b (List.mem_cons_of_mem _ hm)
      by_cases hb : ∃ s' v' b', op = .bound s' v' b'
      · obtain ⟨s', v', b', rfl⟩ := hb
        simp only [MpcObj.run, lastBound]
        rw [ih _ h']
        by_cases he : s' = s ∧ v' = v
        · obtain ⟨rfl, rfl⟩ := he
          rw [if_pos ⟨rfl, rfl⟩, (C38_read_back mk o s' v' b').2.1]
        · rw [if_neg he, (C38_read_back mk o s' v' b').2.2 s v (fun hc => he (by simp only [Prod.mk.injEq] at hc; exact ⟨hc.1.symm, hc.2.symm⟩))]
      · have hl : lastBound s v (op :: ops) (o.getBound s v) = lastBound s v ops (o.getBound s v) := by
          cases op with
          | bound s' v' b' => exact (hb ⟨s', v', b', rfl⟩).elim
          | _ => rfl
        rw [hl, ← getBound_other mk o op (fun s j b hc => h s j b (by rw [hc]; simp)) (fun s' v' b' hc => hb ⟨s', v', b', hc⟩) s v]
        exact ih _ h'
  rw [key ops _ h]
  cases s <;> cases v <;> rfl

/-- the calls after which the variable bounds follow `bounds` -/
def MpcOp.keepsBounds : MpcOp K d → Prop
  | .settings _ | .setParam _ | .terminalBound _ _ _ | .optBound _ _ _ | .prepare | .setup => False
  | _ => True

theorem updateBounds_twice (c : MpcCfg K d) (xb xtb xb' xtb' : Fin d.nx → Bound K) (zb zb' : Fin d.nz → Bound K) (ub ub' : Fin d.nu → Bound K)
    (eb eb' : String → Nat → Bound K) (B : OptXBounds K d) :
    c.updateBounds xb xtb zb ub eb (c.updateBounds xb' xtb' zb' ub' eb' B) = c.updateBounds xb xtb zb ub eb B := by
  unfold MpcCfg.updateBounds
  cases hc : c.consColloc
  · simp only [Bool.false_eq_true, if_false, OptXBounds.mk.injEq, and_true]
    constructor
    · funext k s i j
      split
      · rfl
      · rename_i h1
        split
        · rfl
        · rfl
    · funext k s i j
      split <;> rfl
  · simp only [if_true, OptXBounds.mk.injEq, and_true]
    funext k s i j
    split
    · rfl
    · split <;> rfl

/-- the configuration `c` with the bounds currently set on `o` -/
def MpcObj.withBounds (o : MpcObj K d) (c : MpcCfg K d) : MpcCfg K d :=
  { c with xlb := o.xlb, xub := o.xub, ulb := o.ulb, uub := o.uub, zlb := o.zlb, zub := o.zub, xtlb := o.term .lower, xtub := o.term .upper }

/-- the variable bounds of a prepared object follow its configuration -/
def MpcObj.Synced (o : MpcObj K d) (c : MpcCfg K d) : Prop :=
  ∃ P, o.prep = some P ∧ P.cfg = c ∧ c.N = o.set.N ∧ c.consColloc = o.set.consColloc ∧ P.lb = (o.withBounds c).lbx ∧ P.ub = (o.withBounds c).ubx

theorem synced_step (o : MpcObj K d) (c : MpcCfg K d) (h : o.Synced c) (op : MpcOp K d) (hop : op.keepsBounds) : (o.exec mk op).1.Synced c := by
  obtain ⟨P, h1, h2, h3, h4, h5, h6⟩ := h
  cases op with
  | bound s v b =>
    have hs := writeBound_set o s v b
    refine ⟨(o.writeBound s b v).updatePrepared P, by simp [MpcObj.exec, h1], h2, ?_, ?_, ?_, ?_⟩
    · rw [h3]; exact congrArg MpcSettings.N hs.symm
    · rw [h4]; exact congrArg MpcSettings.consColloc hs.symm
    · have hc : ({ P.cfg with N := (o.writeBound s b v).set.N, consColloc := (o.writeBound s b v).set.consColloc } : MpcCfg K d) = c := by
        rw [hs, h2, ← h3, ← h4]
      simp only [MpcObj.updatePrepared, hc, h5]
      exact updateBounds_twice c _ _ _ _ _ _ _ _ _ _ _
    · have hc : ({ P.cfg with N := (o.writeBound s b v).set.N, consColloc := (o.writeBound s b v).set.consColloc } : MpcCfg K d) = c := by
        rw [hs, h2, ← h3, ← h4]
      simp only [MpcObj.updatePrepared, hc, h6]
      rw [h2]
      exact updateBounds_twice c _ _ _ _ _ _ _ _ _ _ _
  | setObjective ob => simp only [MpcObj.exec]; split <;> exact ⟨P, h1, h2, h3, h4, h5, h6⟩
  | setRterm ob => simp only [MpcObj.exec]; split <;> exact ⟨P, h1, h2, h3, h4, h5, h6⟩
  | setNlCons ob => simp only [MpcObj.exec]; split <;> exact ⟨P, h1, h2, h3, h4, h5, h6⟩
  | scaling v a =>
    simp only [MpcObj.exec]
    split
    · exact ⟨P, h1, h2, h3, h4, h5, h6⟩
    · cases v <;> exact ⟨P, h1, h2, h3, h4, h5, h6⟩
  | nlpObj f =>
    simp only [MpcObj.exec, h1]
    split
    · exact ⟨P, h1, h2, h3, h4, h5, h6⟩
    · exact ⟨{ P with obj := f }, rfl, h2, h3, h4, h5, h6⟩
  | nlpCons f =>
    simp only [MpcObj.exec, h1]
    split
    · exact ⟨P, h1, h2, h3, h4, h5, h6⟩
    · exact ⟨{ P with rows := f }, rfl, h2, h3, h4, h5, h6⟩
  | create =>
    simp only [MpcObj.exec, MpcObj.create, h1]
    split
    · exact ⟨P, h1, h2, h3, h4, h5, h6⟩
    · exact ⟨P, rfl, h2, h3, h4, h5, h6⟩
  | solve =>
    simp only [MpcObj.exec, MpcObj.solve]
    repeat' split
    all_goals exact ⟨P, by simp_all, h2, h3, h4, h5, h6⟩
  | _ => exact hop.elim

/-- **C38 (effect), partial.**  From a successful `prepare_nlp` (or `setup`) on, after any sequence of calls that set bounds, solve, finish the
setup or are refused, the variable bounds of the optimisation problem are the ones that the problem's transcription computes from the bounds
*currently* set.  Missing: changed settings, terminal bounds and direct changes of `lb_opt_x` (see `C37_fails_settings`,
`C38_fails_terminal_no_effect`, `C38_fails_opt_bound_overwritten`). -/
theorem C38_effect_partial (o o1 : MpcObj K d) (h : o.prepare mk = (o1, none)) (ops : List (MpcOp K d)) (hops : ∀ op ∈ ops, op.keepsBounds) :
    ∃ ob P, o1.objective = some ob ∧ (o1.run mk ops).prep = some P ∧ P.lb = ((o1.run mk ops).withBounds (o1.cfg mk ob)).lbx ∧
      P.ub = ((o1.run mk ops).withBounds (o1.cfg mk ob)).ubx := by
  obtain ⟨ob, hob, hp, -⟩ := prepare_ok mk o o1 h
  have key : ∀ (ops : List (MpcOp K d)) (o : MpcObj K d), (∀ op ∈ ops, op.keepsBounds) → o.Synced (o1.cfg mk ob) → (o.run mk ops).Synced (o1.cfg mk ob) := by
    intro ops
    induction ops with
    | nil => intro o _ hs; exact hs
    | cons op ops ih => intro o hk hs; exact ih _ (fun p hp => hk p (by simp [hp])) (synced_step mk o _ hs op (hk op (by simp)))
  obtain ⟨P, h1, h2, h3, h4, h5, h6⟩ := key ops o1 hops ⟨_, hp, rfl, rfl, rfl, rfl, rfl⟩
  exact ⟨ob, P, hob, h1, h5, h6⟩

/-- In terms of entries: a bound set on a state after `setup` is the bound of that state at every stage `1 ≤ k < N`, whatever was set before. -/
theorem C38_effect_state (o o1 : MpcObj K d) (h : o.prepare mk = (o1, none)) (ops : List (MpcOp K d)) (hops : ∀ op ∈ ops, op.keepsBounds)
    (j : Fin d.nx) (b : Bound K) (k sc : Nat) (hk : 1 ≤ k) (hN : k < o1.set.N) :
    ∃ ob, o1.objective = some ob ∧ (o1.run mk (ops ++ [.bound .upper (.x j) b])).getOptBound .upper (.x k sc (o1.cfg mk ob).xLast j) = some (b.divBy (o1.sx j)) := by
  obtain ⟨ob, P, hob, h1, _, h3⟩ := C38_effect_partial mk o o1 h (ops ++ [.bound .upper (.x j) b]) (by
    intro op hm
    rcases List.mem_append.1 hm with hm | hm
    · exact hops op hm
    · simp at hm; subst hm; trivial)
  refine ⟨ob, hob, ?_⟩
  have hb : (o1.run mk (ops ++ [.bound .upper (.x j) b])).xub j = b := by
    rw [MpcObj.run_append]
    exact (C38_read_back mk (o1.run mk ops) .upper (.x j) b).2.1
  have hk' : k ≠ o1.set.N := by omega
  simp only [MpcObj.getOptBound, h1, Option.map_some, OptXBounds.get, h3, MpcCfg.ubx, MpcCfg.updateBounds, MpcObj.withBounds, MpcObj.cfg]
  by_cases hc : o1.set.consColloc = true <;> simp [hc, hk', hk, hN, hb, MpcCfg.xLast]

/-- **C38 is false for reading terminal bounds**: reading `terminal_bounds` gives the *state* bound, whatever terminal bound was set before. -/
theorem C38_fails_terminal_read (S : MpcSettings) (s : Side) (j : Fin d.nx) (a : K) :
    ((MpcObj.new S : MpcObj K d).run mk [.terminalBound s j (.fin a)]).getTerminalBound s j ≠ .fin a := by
  cases s <;> simp [MpcObj.run, MpcObj.exec, MpcObj.writeTerminal, MpcObj.new, MpcObj.getTerminalBound, MpcObj.getBound]

/-- **C38 is false for the effect of terminal bounds**: setting one never changes the problem of an object that is already set up. -/
theorem C38_fails_terminal_no_effect (o : MpcObj K d) (s : Side) (j : Fin d.nx) (b : Bound K) :
    (o.exec mk (.terminalBound s j b)).2 = none ∧ (o.exec mk (.terminalBound s j b)).1.problem = o.problem := by
  refine ⟨rfl, ?_⟩
  simp only [MpcObj.exec, MpcObj.writeTerminal]
  repeat' split
  all_goals rfl

/-- **C38 is false: setting a terminal bound changes the state bounds.**  If no terminal bound was set before `setup` (and terminal bounds are
used, the default), then after `setup` assigning `terminal_bounds['upper', x]` overwrites `bounds['upper', '_x', x]`. -/
theorem C38_fails_terminal_changes_path (o o1 : MpcObj K d) (h : o.prepare mk = (o1, none)) (hu : o.set.useTerminal = true)
    (ht : ∀ j, o.term .upper j = .pinf) (j : Fin d.nx) (b : Bound K) :
    (o1.exec mk (.terminalBound .upper j b)).1.getBound .upper (.x j) = b := by
  have hnone : o1.termUb = none := by
    unfold MpcObj.prepare at h
    split at h
    · simp at h
    · rename_i o0 h0
      have e0 : o0.set = o.set ∧ o0.termUb = o.termUb ∧ o0.xub = o.xub := by
        unfold MpcObj.setupNlCons at h0
        dsimp only at h0
        split at h0 <;> simp only [Prod.mk.injEq] at h0 <;> (try simp at h0) <;> (obtain rfl := h0) <;> exact ⟨rfl, rfl, rfl⟩
      split at h
      · simp at h
      · rename_i o2 h2
        have e2 : o2.termUb = none := by
          unfold MpcObj.checkValidity at h2
          split at h2
          · simp at h2
          · split at h2
            · simp at h2
            · simp only [Prod.mk.injEq, and_true] at h2
              subst h2
              dsimp only
              refine if_pos ⟨fun j => ?_, by rw [e0.1]; exact hu⟩
              have := ht j
              simp only [MpcObj.term, e0.2.1, e0.2.2] at this ⊢
              exact this
        split at h
        · simp at h
        · simp only [Prod.mk.injEq, and_true] at h
          subst h
          exact e2
  simp [MpcObj.exec, MpcObj.writeTerminal, hnone, MpcObj.getBound]

/-- **C38 is false for reading `lb_opt_x`/`ub_opt_x`**: the value read is the value set, divided by the scaling factor. -/
theorem C38_fails_opt_bound_read (o : MpcObj K d) (P : Prepared K d) (h : o.prep = some P) (s : Side) (i : OptIx d) (a : K) :
    (o.exec mk (.optBound s i (.fin a))).1.getOptBound s i = some (.fin (a / P.cfg.scale i)) := by
  cases s <;> cases i <;>
    simp [MpcObj.exec, h, MpcObj.getOptBound, OptXBounds.write, OptXBounds.get, Bound.divBy, MpcCfg.scale]

/-- **C38 is false for `lb_opt_x`/`ub_opt_x` together with `bounds`**: setting any bound of an input overwrites a bound that was set on a state of
one stage with `lb_opt_x`. -/
theorem C38_fails_opt_bound_overwritten (o : MpcObj K d) (P : Prepared K d) (h : o.prep = some P) (k sc : Nat) (j : Fin d.nx) (a : K)
    (hk : 1 ≤ k) (hN : k < o.set.N) (ju : Fin d.nu) (b : Bound K) :
    (o.run mk [.optBound .lower (.x k sc P.cfg.xLast j) (.fin a), .bound .upper (.u ju) b]).getOptBound .lower (.x k sc P.cfg.xLast j)
      = some ((o.xlb j).divBy (P.cfg.sx j)) := by
  have hk' : k ≠ o.set.N := by omega
  simp only [MpcObj.run, MpcObj.exec, h, Option.map_some, MpcObj.getOptBound, MpcObj.updatePrepared, MpcObj.writeBound, MpcCfg.updateBounds, OptXBounds.get]
  by_cases hc : o.set.consColloc = true <;> simp [hc, hk', hk, hN, MpcCfg.xLast]

/-! ## C40 -/

/-- configuration calls before the first `setup` -/
def MpcOp.configures : MpcOp K d → Prop
  | .setParam _ | .settings _ | .setObjective _ | .setRterm _ | .scaling _ _ | .bound _ _ _ | .terminalBound _ _ _ => True
  | .setNlCons c => c.soft = true → c.penalty = 0 ∨ c.dim = 0
  | _ => False

/-- calls between the two setups: bounds of variables, settings (not `use_terminal_bounds`), solver calls -/
def MpcOp.adapts (ut : Bool) : MpcOp K d → Prop
  | .settings s => s.useTerminal = ut
  | .bound _ _ _ | .optBound _ _ _ | .solve => True
  | _ => False

/-- a slack cost that is constant 0 -/
def trivialSlack (o : MpcObj K d) : Prop := (∀ t ∈ o.slackCost, t.2.penalty = 0 ∨ t.2.dim = 0) ∧ ∀ c ∈ o.nl, c.soft = true → c.penalty = 0 ∨ c.dim = 0

/-- `o2` (set up before) and `o1` (not set up) have the same configuration -/
structure SameCfg (o2 o1 : MpcObj K d) : Prop where
  set : o2.set = o1.set
  sx : o2.sx = o1.sx
  su : o2.su = o1.su
  sz : o2.sz = o1.sz
  xlb : o2.xlb = o1.xlb
  xub : o2.xub = o1.xub
  ulb : o2.ulb = o1.ulb
  uub : o2.uub = o1.uub
  zlb : o2.zlb = o1.zlb
  zub : o2.zub = o1.zub
  objective : o2.objective = o1.objective
  rterm : o2.rterm = o1.rterm
  nl : o2.nl = o1.nl
  tl : o2.termLb = o1.termLb ∨ (o2.termLb = none ∧ o1.termLb = some (fun _ => .ninf) ∧ o1.set.useTerminal = true)
  tu : o2.termUb = o1.termUb ∨ (o2.termUb = none ∧ o1.termUb = some (fun _ => .pinf) ∧ o1.set.useTerminal = true)
  s2 : trivialSlack o2
  s1 : trivialSlack o1

theorem setupNlCons_trivial (o : MpcObj K d) (h : trivialSlack o) :
    o.setupNlCons = ({ o with gen := o.gen + 1, slackCost := o.slackCost ++ (slackVars o.nl).map fun sl => (o.gen + 1, sl) }, none) ∧
      trivialSlack { o with gen := o.gen + 1, slackCost := o.slackCost ++ (slackVars o.nl).map fun sl => (o.gen + 1, sl) } := by
  have hall : ∀ t ∈ o.slackCost ++ (slackVars o.nl).map (fun sl => (o.gen + 1, sl)), t.2.penalty = 0 ∨ t.2.dim = 0 := by
    intro t ht
    rcases List.mem_append.1 ht with ht | ht
    · exact h.1 t ht
    · obtain ⟨sl, hsl, rfl⟩ := List.mem_map.1 ht
      exact h.2 sl (List.mem_filter.1 hsl).1 (List.mem_filter.1 hsl).2
  refine ⟨?_, hall, h.2⟩
  unfold MpcObj.setupNlCons
  dsimp only
  rw [if_pos]
  exact fun t ht => .inr (hall t ht)

/-- the state after the checks of `prepare_nlp` -/
def MpcObj.validated (o : MpcObj K d) : MpcObj K d :=
  { o with
    gen := o.gen + 1
    slackCost := o.slackCost ++ (slackVars o.nl).map fun sl => (o.gen + 1, sl)
    termUb := if (∀ j, o.term .upper j = .pinf) ∧ o.set.useTerminal = true then none else o.termUb
    termLb := if (∀ j, o.term .lower j = .ninf) ∧ o.set.useTerminal = true then none else o.termLb }

/-- some lower bound exceeds the upper bound -/
def MpcObj.crossed (o : MpcObj K d) : Prop :=
  (∃ j, (o.xlb j).gt (o.xub j) = true) ∨ (∃ j, (o.ulb j).gt (o.uub j) = true) ∨ (∃ j, (o.zlb j).gt (o.zub j) = true)

theorem setup_bad (o : MpcObj K d) (h : trivialSlack o) (hb : o.objective = none ∨ o.crossed) : (o.exec mk .setup).2 = some "Exception" := by
  have : ∃ o1, o.prepare mk = (o1, some "Exception") := by
    rw [MpcObj.prepare, (setupNlCons_trivial o h).1]
    simp only [MpcObj.checkValidity]
    by_cases ho : o.objective = none
    · simp [ho]
    · have hc := hb.resolve_left ho
      unfold MpcObj.crossed at hc
      rw [if_neg (by simpa using ho), if_pos hc]
      exact ⟨_, rfl⟩
  obtain ⟨o1, h1⟩ := this
  simp [MpcObj.exec, h1]

theorem setup_good (o : MpcObj K d) (h : trivialSlack o) (ob : Objective K d) (ho : o.objective = some ob) (hc : ¬ o.crossed) :
    o.exec mk .setup =
      ({ o.validated with
          prep := some ⟨o.validated.cfg mk ob, (o.validated.cfg mk ob).obj, (o.validated.cfg mk ob).rows, (o.validated.cfg mk ob).lbx,
            (o.validated.cfg mk ob).ubx⟩
          solver := some ⟨(o.validated.cfg mk ob).obj, (o.validated.cfg mk ob).rows⟩
          setup := true
          cat := true }, none) := by
  have : o.prepare mk = ({ o.validated with
          prep := some ⟨o.validated.cfg mk ob, (o.validated.cfg mk ob).obj, (o.validated.cfg mk ob).rows, (o.validated.cfg mk ob).lbx,
            (o.validated.cfg mk ob).ubx⟩
          cat := false }, none) := by
    rw [MpcObj.prepare, (setupNlCons_trivial o h).1]
    simp only [MpcObj.checkValidity]
    unfold MpcObj.crossed at hc
    rw [if_neg (by simp [ho]), if_neg hc]
    dsimp only
    split
    · rename_i hn; exact absurd (ho.symm.trans hn) (by simp)
    · rename_i ob' hob
      obtain rfl : ob = ob' := Option.some.inj (ho.symm.trans hob)
      rfl
  simp only [MpcObj.exec, this, MpcObj.create]
  rfl

/-- **C37** (`setup`): the first `setup()` succeeds iff an objective was set and no lower bound exceeds the upper bound. -/
theorem C37_setup_succeeds_iff (o : MpcObj K d) (hfresh : o.slackCost = []) :
    (o.exec mk .setup).2 = none ↔ o.objective.isSome ∧ ∀ v, (o.getBound .lower v).gt (o.getBound .upper v) = false := by
  have hc : o.crossed ↔ ∃ v, (o.getBound .lower v).gt (o.getBound .upper v) = true := by
    constructor
    · rintro (⟨j, h⟩ | ⟨j, h⟩ | ⟨j, h⟩)
      · exact ⟨.x j, h⟩
      · exact ⟨.u j, h⟩
      · exact ⟨.z j, h⟩
    · rintro ⟨v, h⟩
      cases v with
      | x j => exact .inl ⟨j, h⟩
      | u j => exact .inr (.inl ⟨j, h⟩)
      | z j => exact .inr (.inr ⟨j, h⟩)
  have hc2 : (∀ v, (o.getBound .lower v).gt (o.getBound .upper v) = false) ↔ ¬ o.crossed := by
    rw [hc]; push Not; simp
  rw [hc2]
  have hnl : o.setupNlCons.2 = none ∧ o.setupNlCons.1.objective = o.objective ∧ (o.setupNlCons.1.crossed ↔ o.crossed) := by
    unfold MpcObj.setupNlCons
    dsimp only
    rw [if_pos]
    · exact ⟨rfl, rfl, Iff.rfl⟩
    · intro t ht
      rw [hfresh, List.nil_append, List.mem_map] at ht
      obtain ⟨sl, -, rfl⟩ := ht
      exact .inl rfl
  rcases hsn : o.setupNlCons with ⟨o1, _ | e⟩
  · rw [hsn] at hnl
    dsimp only at hnl
    simp only [MpcObj.exec, MpcObj.prepare, hsn, MpcObj.checkValidity]
    rcases hob : o.objective with _ | ob
    · simp [hnl.2.1.trans hob]
    · rw [if_neg (by simp [hnl.2.1.trans hob])]
      by_cases hcr : o.crossed
      · have := hnl.2.2.mpr hcr
        unfold MpcObj.crossed at this
        rw [if_pos this]
        simp [hcr]
      · have := fun h => hcr (hnl.2.2.mp h)
        unfold MpcObj.crossed at this
        rw [if_neg this]
        dsimp only
        rw [hnl.2.1, hob]
        simp [MpcObj.create, hcr]
  · rw [hsn] at hnl; simp at hnl

/-- **C37** (what is set up): after a successful `setup()` the solver works on the objective and the constraints, and with the variable bounds, of the problem
(C04-C10) with exactly the configured horizon, options, objective, penalty, constraints, scaling and bounds; the terminal bounds are those set by the user, or the
state bounds if all terminal bounds of one side are infinite and `use_terminal_bounds` is set. -/
theorem C37_setup_problem (o : MpcObj K d) (h : (o.exec mk .setup).2 = none) :
    ∃ (ob : Objective K d) (c : MpcCfg K d) (P : Prepared K d), o.objective = some ob ∧ (o.exec mk .setup).1.solver = some ⟨c.obj, c.rows⟩ ∧
      (o.exec mk .setup).1.prep = some P ∧ P.lb = c.lbx ∧ P.ub = c.ubx ∧ (o.exec mk .setup).1.setup = true ∧
      c.N = o.set.N ∧ c.nRobust = o.set.nRobust ∧ c.c = o.set.c ∧ c.openLoop = o.set.openLoop ∧ c.singleSlack = o.set.singleSlack ∧
      c.nlColloc = o.set.nlColloc ∧ c.consColloc = o.set.consColloc ∧ c.lterm = ob.lterm ∧ c.mterm = ob.mterm ∧ c.rterm = o.rterm ∧ c.nl = o.nl ∧
      c.sx = o.sx ∧ c.su = o.su ∧ c.sz = o.sz ∧ c.ifcn = mk o.sx o.su o.sz ∧
      (∀ j, c.xlb j = o.getBound .lower (.x j) ∧ c.xub j = o.getBound .upper (.x j)) ∧ (∀ j, c.ulb j = o.getBound .lower (.u j) ∧ c.uub j = o.getBound .upper (.u j)) ∧
      (∀ j, c.zlb j = o.getBound .lower (.z j) ∧ c.zub j = o.getBound .upper (.z j)) ∧
      c.xtlb = (if (∀ j, o.term .lower j = .ninf) ∧ o.set.useTerminal = true then o.xlb else o.term .lower) ∧
      c.xtub = (if (∀ j, o.term .upper j = .pinf) ∧ o.set.useTerminal = true then o.xub else o.term .upper) := by
  simp only [MpcObj.exec] at h ⊢
  rcases hp : o.prepare mk with ⟨o1, _ | e⟩
  · rw [hp] at h
    dsimp only at h ⊢
    obtain ⟨ob, hob, hpr, hcat⟩ := prepare_ok mk o o1 hp
    have hk : o1.cfg mk ob = { o.cfg mk ob with
          xtlb := if (∀ j, o.term .lower j = .ninf) ∧ o.set.useTerminal = true then o.xlb else o.term .lower
          xtub := if (∀ j, o.term .upper j = .pinf) ∧ o.set.useTerminal = true then o.xub else o.term .upper } ∧ o1.objective = o.objective := by
      unfold MpcObj.prepare MpcObj.setupNlCons at hp
      dsimp only at hp
      split at hp
      · rename_i hsn; split at hsn <;> simp at hsn; simp at hp
      · rename_i o3 hsn
        split at hsn
        · simp only [Prod.mk.injEq, and_true] at hsn
          subst hsn
          simp only [MpcObj.checkValidity] at hp
          split at hp
          · rename_i hcv; simp at hp
          · rename_i o2 hcv
            split at hcv
            · simp at hcv
            · split at hcv
              · simp at hcv
              · simp only [Prod.mk.injEq, and_true] at hcv
                subst hcv
                dsimp only at hp
                split at hp
                · simp at hp
                · simp only [Prod.mk.injEq, and_true] at hp
                  subst hp
                  refine ⟨?_, rfl⟩
                  simp only [MpcObj.cfg, MpcCfg.mk.injEq, true_and, and_true]
                  constructor
                  · show (if (∀ j, o.term .lower j = .ninf) ∧ o.set.useTerminal = true then none else o.termLb).getD o.xlb = _
                    split_ifs <;> rfl
                  · show (if (∀ j, o.term .upper j = .pinf) ∧ o.set.useTerminal = true then none else o.termUb).getD o.xub = _
                    split_ifs <;> rfl
        · simp at hsn
    rw [hk.1] at hpr
    unfold MpcObj.create
    rw [hpr]
    simp only [hcat]
    exact ⟨ob, _, _, hk.2 ▸ hob, rfl, rfl, rfl, rfl, rfl, rfl, rfl, rfl, rfl, rfl, rfl, rfl, rfl, rfl, rfl, rfl, rfl, rfl, rfl, rfl,
      fun _ => ⟨rfl, rfl⟩, fun _ => ⟨rfl, rfl⟩, fun _ => ⟨rfl, rfl⟩, rfl, rfl⟩
  · rw [hp] at h; simp at h

theorem sameCfg_setup (o2 o1 : MpcObj K d) (h : SameCfg o2 o1) :
    (o2.exec mk .setup).2 = (o1.exec mk .setup).2 ∧ ((o1.exec mk .setup).2 = none → (o2.exec mk .setup).1.problem = (o1.exec mk .setup).1.problem) := by
  have hcr : o2.crossed ↔ o1.crossed := by
    unfold MpcObj.crossed
    rw [h.xlb, h.xub, h.ulb, h.uub, h.zlb, h.zub]
  by_cases hb : o1.objective = none ∨ o1.crossed
  · have hb2 : o2.objective = none ∨ o2.crossed := by rw [h.objective, hcr]; exact hb
    rw [setup_bad mk o1 h.s1 hb, setup_bad mk o2 h.s2 hb2]
    exact ⟨rfl, by simp⟩
  · push Not at hb
    obtain ⟨ob, ho⟩ := Option.ne_none_iff_exists'.1 hb.1
    rw [setup_good mk o1 h.s1 ob ho hb.2, setup_good mk o2 h.s2 ob (by rw [h.objective, ho]) (fun hx => hb.2 (hcr.1 hx))]
    refine ⟨rfl, fun _ => ?_⟩
    have hl : o2.validated.term .lower = o1.validated.term .lower := by
      simp only [MpcObj.validated, MpcObj.term, h.xlb, h.set]
      rcases h.tl with e | ⟨e2, e1, eu⟩
      · simp only [e]; congr!
      · simp [e2, e1, eu]
    have hu : o2.validated.term .upper = o1.validated.term .upper := by
      simp only [MpcObj.validated, MpcObj.term, h.xub, h.set]
      rcases h.tu with e | ⟨e2, e1, eu⟩
      · simp only [e]; congr!
      · simp [e2, e1, eu]
    have hcfg : o2.validated.cfg mk ob = o1.validated.cfg mk ob := by
      have es : o2.validated.set = o1.validated.set := h.set
      simp only [MpcObj.cfg, hl, hu, es, MpcCfg.mk.injEq, true_and]
      refine ⟨?_, h.sx, h.su, h.sz, h.xlb, h.xub, h.ulb, h.uub, h.zlb, h.zub, h.nl, h.rterm⟩
      show mk o2.sx o2.su o2.sz = mk o1.sx o1.su o1.sz
      rw [h.sx, h.su, h.sz]
    simp only [MpcObj.problem, hcfg]

/-- what holds before the first `setup` -/
structure MpcFresh (o : MpcObj K d) : Prop where
  setup : o.setup = false
  prep : o.prep = none
  tl : o.termLb ≠ none
  tu : o.termUb ≠ none
  sl : trivialSlack o

theorem writeTerminal_fields (o : MpcObj K d) (s : Side) (b : Bound K) (j : Fin d.nx) :
    (o.writeTerminal s b j).setup = o.setup ∧ (o.writeTerminal s b j).prep = o.prep ∧ (o.writeTerminal s b j).slackCost = o.slackCost ∧
    (o.writeTerminal s b j).nl = o.nl ∧ ((o.writeTerminal s b j).termLb = none ↔ o.termLb = none) ∧
    ((o.writeTerminal s b j).termUb = none ↔ o.termUb = none) := by
  unfold MpcObj.writeTerminal
  cases s <;> dsimp only <;> split <;> rename_i h <;> simp [h]

theorem mpcFresh_step (o : MpcObj K d) (h : MpcFresh o) (op : MpcOp K d) (hop : op.configures) : MpcFresh (o.exec mk op).1 := by
  obtain ⟨h1, h2, h3, h4, h5⟩ := h
  cases op with
  | setNlCons c =>
    rw [show o.exec mk (.setNlCons c) = (_, none) from if_neg (by simp [h1])]
    refine ⟨h1, h2, h3, h4, h5.1, fun c' hc' => ?_⟩
    rcases List.mem_append.1 hc' with hc' | hc'
    · exact h5.2 c' hc'
    · simp only [List.mem_singleton] at hc'
      subst hc'
      exact hop
  | scaling v a => rw [show o.exec mk (.scaling v a) = (_, none) from if_neg (by simp [h1])]; cases v <;> exact ⟨h1, h2, h3, h4, h5⟩
  | bound s v b =>
    obtain ⟨a1, _, _, _, a5, _, _, _, a9, a10, a11, _⟩ := writeBound_fields o s v b
    refine ⟨a1.trans h1, ?_, ?_, ?_, ?_, ?_⟩
    · simp [MpcObj.exec, h2]
    · show (o.writeBound s b v).termLb ≠ none
      rw [a9]; exact h3
    · show (o.writeBound s b v).termUb ≠ none
      rw [a10]; exact h4
    · show ∀ t ∈ (o.writeBound s b v).slackCost, _
      rw [a11]; exact h5.1
    · show ∀ t ∈ (o.writeBound s b v).nl, _
      rw [a5]; exact h5.2
  | terminalBound s j b =>
    obtain ⟨a1, a2, a3, a4, a5, a6⟩ := writeTerminal_fields o s b j
    simp only [MpcObj.exec]
    refine ⟨a1.trans h1, a2.trans h2, fun hc => h3 (a5.1 hc), fun hc => h4 (a6.1 hc), ?_, ?_⟩
    · rw [a3]; exact h5.1
    · rw [a4]; exact h5.2
  | setParam s => rw [show o.exec mk (.setParam s) = (_, none) from if_neg (by simp [h1])]; exact ⟨h1, h2, h3, h4, h5⟩
  | settings s => exact ⟨h1, h2, h3, h4, h5⟩
  | setObjective s => rw [show o.exec mk (.setObjective s) = (_, none) from if_neg (by simp [h1])]; exact ⟨h1, h2, h3, h4, h5⟩
  | setRterm s => rw [show o.exec mk (.setRterm s) = (_, none) from if_neg (by simp [h1])]; exact ⟨h1, h2, h3, h4, h5⟩
  | _ => exact hop.elim

theorem mpcFresh_run (ops : List (MpcOp K d)) : ∀ o : MpcObj K d, MpcFresh o → (∀ op ∈ ops, op.configures) → MpcFresh (o.run mk ops) := by
  induction ops with
  | nil => intro o h _; exact h
  | cons op ops ih => intro o h hops; exact ih _ (mpcFresh_step mk o h op (hops op (by simp))) (fun p hp => hops p (by simp [hp]))

theorem mpcFresh_new (S : MpcSettings) : MpcFresh (MpcObj.new S : MpcObj K d) :=
  ⟨rfl, rfl, by simp [MpcObj.new], by simp [MpcObj.new], by simp [MpcObj.new], by simp [MpcObj.new]⟩

theorem sameCfg_first (o : MpcObj K d) (h : MpcFresh o) (hs : (o.exec mk .setup).2 = none) : SameCfg (o.exec mk .setup).1 o := by
  have hb : ¬ (o.objective = none ∨ o.crossed) := by
    intro hb
    rw [setup_bad mk o h.sl hb] at hs
    simp at hs
  push Not at hb
  obtain ⟨ob, ho⟩ := Option.ne_none_iff_exists'.1 hb.1
  rw [setup_good mk o h.sl ob ho hb.2]
  have hsl := (setupNlCons_trivial o h.sl).2
  refine ⟨rfl, rfl, rfl, rfl, rfl, rfl, rfl, rfl, rfl, rfl, rfl, rfl, rfl, ?_, ?_, hsl, h.sl⟩
  · obtain ⟨t, ht⟩ := Option.ne_none_iff_exists'.1 h.tl
    simp only [MpcObj.validated, MpcObj.term, ht, Option.getD_some]
    split
    · rename_i hc
      refine .inr ⟨rfl, ?_, hc.2⟩
      rw [show t = fun _ => Bound.ninf from funext hc.1]
    · exact .inl rfl
  · obtain ⟨t, ht⟩ := Option.ne_none_iff_exists'.1 h.tu
    simp only [MpcObj.validated, MpcObj.term, ht, Option.getD_some]
    split
    · rename_i hc
      refine .inr ⟨rfl, ?_, hc.2⟩
      rw [show t = fun _ => Bound.pinf from funext hc.1]
    · exact .inl rfl

theorem sameCfg_step (ut : Bool) (o2 o1 : MpcObj K d) (h : SameCfg o2 o1) (hu : o1.set.useTerminal = ut) (op : MpcOp K d) (hop : op.adapts ut) :
    SameCfg (o2.exec mk op).1 (o1.exec mk op).1 ∧ (o1.exec mk op).1.set.useTerminal = ut := by
  cases op with
  | settings s =>
    refine ⟨⟨rfl, h.sx, h.su, h.sz, h.xlb, h.xub, h.ulb, h.uub, h.zlb, h.zub, h.objective, h.rterm, h.nl, ?_, ?_, h.s2, h.s1⟩, hop⟩
    · exact h.tl.imp id fun e => ⟨e.1, e.2.1, by show s.useTerminal = true; rw [show s.useTerminal = ut from hop, ← hu]; exact e.2.2⟩
    · exact h.tu.imp id fun e => ⟨e.1, e.2.1, by show s.useTerminal = true; rw [show s.useTerminal = ut from hop, ← hu]; exact e.2.2⟩
  | bound s v b =>
    obtain ⟨h1, h2, h3, h4, h5, h6, h7, h8, h9, h10, h11, h12, h13, h14, h15, h16, h17⟩ := h
    constructor
    · cases s <;> cases v <;>
        exact ⟨h1, h2, h3, h4, by first | exact h5 | exact (by simp only [MpcObj.exec, MpcObj.writeBound, h5]),
          by first | exact h6 | exact (by simp only [MpcObj.exec, MpcObj.writeBound, h6]), by first | exact h7 | exact (by simp only [MpcObj.exec, MpcObj.writeBound, h7]),
          by first | exact h8 | exact (by simp only [MpcObj.exec, MpcObj.writeBound, h8]), by first | exact h9 | exact (by simp only [MpcObj.exec, MpcObj.writeBound, h9]),
          by first | exact h10 | exact (by simp only [MpcObj.exec, MpcObj.writeBound, h10]), h11, h12, h13, h14, h15, h16, h17⟩
    · show (o1.writeBound s b v).set.useTerminal = ut
      rw [writeBound_set]; exact hu
  | optBound s i b =>
    have key : ∀ o : MpcObj K d, ∃ p, (o.exec mk (.optBound s i b)).1 = { o with prep := p } := by
      intro o
      simp only [MpcObj.exec]
      repeat' split
      all_goals exact ⟨_, rfl⟩
    obtain ⟨p2, e2⟩ := key o2
    obtain ⟨p1, e1⟩ := key o1
    rw [e1, e2]
    obtain ⟨h1, h2, h3, h4, h5, h6, h7, h8, h9, h10, h11, h12, h13, h14, h15, h16, h17⟩ := h
    exact ⟨⟨h1, h2, h3, h4, h5, h6, h7, h8, h9, h10, h11, h12, h13, h14, h15, h16, h17⟩, hu⟩
  | solve =>
    have key : ∀ o : MpcObj K d, ∃ p, (o.exec mk .solve).1 = { o with lamX := p } := by
      intro o
      simp only [MpcObj.exec, MpcObj.solve]
      repeat' split
      all_goals exact ⟨_, rfl⟩
    obtain ⟨p2, e2⟩ := key o2
    obtain ⟨p1, e1⟩ := key o1
    rw [e1, e2]
    obtain ⟨h1, h2, h3, h4, h5, h6, h7, h8, h9, h10, h11, h12, h13, h14, h15, h16, h17⟩ := h
    exact ⟨⟨h1, h2, h3, h4, h5, h6, h7, h8, h9, h10, h11, h12, h13, h14, h15, h16, h17⟩, hu⟩
  | _ => exact hop.elim

/-- **C40, partial.**  An MPC object is configured, set up, used (solver calls, `lb_opt_x` changes) and reconfigured (settings, bounds), and set
up again: the second `setup` raises exactly if a single `setup` of a new object with the final configuration raises, and otherwise yields the
same optimisation problem.  Missing: soft constraints with a penalty (`C40_fails_soft_constraint`), terminal bounds changed in between
(`C40_fails_terminal`), a switch of `use_terminal_bounds`, and the warm start (`C40_fails_warm_start`). -/
theorem C40_partial (S : MpcSettings) (ops1 ops2 : List (MpcOp K d)) (h1 : ∀ op ∈ ops1, op.configures)
    (h2 : ∀ op ∈ ops2, op.adapts ((MpcObj.new S).run mk ops1).set.useTerminal) (hs : (((MpcObj.new S).run mk ops1).exec mk .setup).2 = none) :
    let two := (MpcObj.new S).run mk (ops1 ++ [.setup] ++ ops2)
    let one := (MpcObj.new S).run mk (ops1 ++ ops2)
    (two.exec mk .setup).2 = (one.exec mk .setup).2 ∧
      ((one.exec mk .setup).2 = none → (two.exec mk .setup).1.problem = (one.exec mk .setup).1.problem) := by
  intro two one
  have hf := mpcFresh_run mk ops1 _ (mpcFresh_new S) h1
  have key : ∀ (ops : List (MpcOp K d)) (ut : Bool) (o2 o1 : MpcObj K d), SameCfg o2 o1 → o1.set.useTerminal = ut → (∀ op ∈ ops, op.adapts ut) →
      SameCfg (o2.run mk ops) (o1.run mk ops) := by
    intro ops
    induction ops with
    | nil => intro ut o2 o1 h _ _; exact h
    | cons op ops ih =>
      intro ut o2 o1 h hu hops
      obtain ⟨a, b⟩ := sameCfg_step mk ut o2 o1 h hu op (hops op (by simp))
      exact ih ut _ _ a b (fun p hp => hops p (by simp [hp]))
  have e2 : two = ((((MpcObj.new S).run mk ops1).exec mk .setup).1).run mk ops2 := by
    simp only [two, MpcObj.run_append]
    rfl
  have e1 : one = ((MpcObj.new S).run mk ops1).run mk ops2 := MpcObj.run_append mk _ _ _
  rw [e2, e1]
  exact sameCfg_setup mk _ _ (key ops2 _ _ _ (sameCfg_first mk _ hf hs) rfl h2)

/-- a slack cost term that refers to slack variables of an earlier (or the latest) `prepare_nlp` and is not constant 0 -/
def staleSlack (o : MpcObj K d) : Prop := ∃ t ∈ o.slackCost, t.1 ≤ o.gen ∧ t.2.penalty ≠ 0 ∧ t.2.dim ≠ 0

theorem stale_setupNlCons (o : MpcObj K d) (h : staleSlack o) : staleSlack o.setupNlCons.1 ∧ o.setupNlCons.2 = some "RuntimeError" := by
  obtain ⟨t, ht, h1, h2, h3⟩ := h
  unfold MpcObj.setupNlCons
  dsimp only
  rw [if_neg]
  · exact ⟨⟨t, List.mem_append_left _ ht, by show t.1 ≤ o.gen + 1; omega, h2, h3⟩, rfl⟩
  · intro hall
    rcases hall t (List.mem_append_left _ ht) with e | e | e
    · omega
    · exact h2 e
    · exact h3 e

theorem stale_prepare (o : MpcObj K d) (h : staleSlack o) : staleSlack (o.prepare mk).1 ∧ (o.prepare mk).2 = some "RuntimeError" := by
  obtain ⟨a, b⟩ := stale_setupNlCons o h
  have : o.setupNlCons = (o.setupNlCons.1, some "RuntimeError") := Prod.ext rfl b
  rw [MpcObj.prepare, this]
  exact ⟨a, rfl⟩

theorem stale_step (o : MpcObj K d) (h : staleSlack o) (op : MpcOp K d) : staleSlack (o.exec mk op).1 := by
  cases op with
  | prepare => exact (stale_prepare mk o h).1
  | setup =>
    obtain ⟨a, b⟩ := stale_prepare mk o h
    have : o.prepare mk = ((o.prepare mk).1, some "RuntimeError") := Prod.ext rfl b
    simp only [MpcObj.exec]
    rw [this]
    exact a
  | create => simp only [MpcObj.exec, MpcObj.create]; repeat' split
              all_goals exact h
  | solve =>
    simp only [MpcObj.exec, MpcObj.solve]
    repeat' split
    all_goals exact h
  | bound s v b => cases s <;> cases v <;> exact h
  | terminalBound s j b =>
    simp only [MpcObj.exec, MpcObj.writeTerminal]
    repeat' split
    all_goals exact h
  | scaling v a => simp only [MpcObj.exec]; split <;> [exact h; (cases v <;> exact h)]
  | _ =>
    simp only [MpcObj.exec]
    repeat' split
    all_goals exact h

/-- **C40 is false with soft constraints**: after a `setup` of an object with a soft constraint (penalty ≠ 0), every later `setup` raises, whatever
is called in between, because `slack_cost` still contains the slack variables of the first one. -/
theorem C40_fails_soft_constraint (o : MpcObj K d) (c : NlCall K d) (hc : c ∈ o.nl) (hsoft : c.soft = true) (hp : c.penalty ≠ 0) (hd : c.dim ≠ 0)
    (ops : List (MpcOp K d)) : (((o.exec mk .setup).1.run mk ops).exec mk .setup).2 = some "RuntimeError" := by
  have h0 : staleSlack o.setupNlCons.1 := by
    unfold MpcObj.setupNlCons
    dsimp only
    have hm : (o.gen + 1, c) ∈ o.slackCost ++ (slackVars o.nl).map (fun sl => (o.gen + 1, sl)) :=
      List.mem_append_right _ (List.mem_map.2 ⟨c, List.mem_filter.2 ⟨hc, hsoft⟩, rfl⟩)
    split <;> exact ⟨_, hm, le_refl _, hp, hd⟩
  have h1 : staleSlack (o.prepare mk).1 := by
    unfold MpcObj.prepare
    split
    · rename_i o1 e h; rw [h] at h0; exact h0
    · rename_i o1 h
      rw [h] at h0
      have h2 : staleSlack o1.checkValidity.1 := by
        unfold MpcObj.checkValidity
        repeat' split
        all_goals exact h0
      split
      · rename_i o2 e h'; rw [h'] at h2; exact h2
      · rename_i o2 h'
        rw [h'] at h2
        split <;> exact h2
  have h2 : staleSlack (o.exec mk .setup).1 := by
    simp only [MpcObj.exec]
    split
    · rename_i o1 e h; rw [h] at h1; exact h1
    · rename_i o1 h
      rw [h] at h1
      unfold MpcObj.create
      repeat' split
      all_goals exact h1
  have h3 : ∀ (ops : List (MpcOp K d)) (o : MpcObj K d), staleSlack o → staleSlack (o.run mk ops) := by
    intro ops
    induction ops with
    | nil => intro o h; exact h
    | cons op ops ih => intro o h; exact ih _ (stale_step mk o h op)
  obtain ⟨a, b⟩ := stale_prepare mk _ (h3 ops _ h2)
  have e : ∀ o : MpcObj K d, (o.prepare mk).2 = some "RuntimeError" → (o.exec mk .setup).2 = some "RuntimeError" := by
    intro o h
    have : o.prepare mk = ((o.prepare mk).1, some "RuntimeError") := Prod.ext rfl h
    simp only [MpcObj.exec]
    rw [this]
  exact e _ b

/-- a new object with an objective -/
theorem setup_new (S : MpcSettings) (ob : Objective K d) :
    ((MpcObj.new S : MpcObj K d).run mk [.setObjective ob]).objective = some ob ∧ ¬ ((MpcObj.new S : MpcObj K d).run mk [.setObjective ob]).crossed := by
  refine ⟨rfl, ?_⟩
  rintro (⟨j, h⟩ | ⟨j, h⟩ | ⟨j, h⟩) <;> simp [MpcObj.run, MpcObj.exec, MpcObj.new, Bound.gt] at h

/-- **C40 is false with terminal bounds set in between**: after `setup; terminal_bounds['upper', x] = a; setup` the bound `a` holds at *every*
stage; a new object with the same configuration has it at the end of the horizon only. -/
theorem C40_fails_terminal [IsStrictOrderedRing K] (S : MpcSettings) (hS : S.useTerminal = true) (ob : Objective K d) (j : Fin d.nx) (a : K) (k sc : Nat)
    (hk : 1 ≤ k) (hN : k < S.N) :
    let two := (MpcObj.new S).run mk [.setObjective ob, .setup, .terminalBound .upper j (.fin a), .setup]
    let one := (MpcObj.new S).run mk [.setObjective ob, .terminalBound .upper j (.fin a), .setup]
    let last := (mk 1 1 1).ncoll
    two.setup = true ∧ one.setup = true ∧ two.getOptBound .upper (.x k sc last j) = some (.fin (a / 1)) ∧
      one.getOptBound .upper (.x k sc last j) = some .pinf := by
  intro two one last
  have sl0 : trivialSlack ((MpcObj.new S : MpcObj K d).run mk [.setObjective ob]) := ⟨by simp [MpcObj.run, MpcObj.exec, MpcObj.new], by simp [MpcObj.run, MpcObj.exec, MpcObj.new]⟩
  obtain ⟨ho0, hc0⟩ := setup_new mk S ob
  have g0 := setup_good mk _ sl0 ob ho0 hc0
  have hv0 : ((MpcObj.new S : MpcObj K d).run mk [.setObjective ob]).validated.termUb = none := by
    refine if_pos ⟨fun _ => rfl, hS⟩
  -- the object after the first setup and the assignment
  obtain ⟨o2, ho2⟩ : ∃ o2 : MpcObj K d, o2 = (MpcObj.new S).run mk [.setObjective ob, .setup, .terminalBound .upper j (.fin a)] := ⟨_, rfl⟩
  have e2 : o2 = ((((MpcObj.new S : MpcObj K d).run mk [.setObjective ob]).exec mk .setup).1.exec mk (.terminalBound .upper j (.fin a))).1 := ho2
  rw [g0] at e2
  simp only [MpcObj.exec, MpcObj.writeTerminal, hv0] at e2
  have sl2 : trivialSlack o2 := by
    rw [e2]
    exact ⟨by simp [MpcObj.validated, MpcObj.run, MpcObj.exec, MpcObj.new, slackVars], by simp [MpcObj.validated, MpcObj.run, MpcObj.exec, MpcObj.new]⟩
  have hob2 : o2.objective = some ob := by rw [e2]; rfl
  have hc2 : ¬ o2.crossed := by
    rw [e2]
    rintro (⟨j, h⟩ | ⟨j, h⟩ | ⟨j, h⟩) <;> simp [MpcObj.validated, MpcObj.run, MpcObj.exec, MpcObj.new, Bound.gt] at h
  have htwo : two = (o2.exec mk .setup).1 := by rw [ho2]; rfl
  have g2 := setup_good mk o2 sl2 ob hob2 hc2
  -- the single setup
  obtain ⟨o1, ho1⟩ : ∃ o1 : MpcObj K d, o1 = (MpcObj.new S).run mk [.setObjective ob, .terminalBound .upper j (.fin a)] := ⟨_, rfl⟩
  have sl1 : trivialSlack o1 := by
    rw [ho1]
    exact ⟨by simp [MpcObj.run, MpcObj.exec, MpcObj.new, MpcObj.writeTerminal], by simp [MpcObj.run, MpcObj.exec, MpcObj.new, MpcObj.writeTerminal]⟩
  have hob1 : o1.objective = some ob := by rw [ho1]; rfl
  have hc1 : ¬ o1.crossed := by
    rw [ho1]
    rintro (⟨j, h⟩ | ⟨j, h⟩ | ⟨j, h⟩) <;> simp [MpcObj.run, MpcObj.exec, MpcObj.new, Bound.gt, MpcObj.writeTerminal] at h
  have hone : one = (o1.exec mk .setup).1 := by rw [ho1]; rfl
  have g1 := setup_good mk o1 sl1 ob hob1 hc1
  rw [htwo, hone, g2, g1]
  have hk' : k ≠ S.N := by omega
  have hx2 : o2.validated.xub j = .fin a := by rw [e2]; simp [MpcObj.validated]
  have hs2 : o2.validated.set = S ∧ o2.validated.sx = 1 ∧ o2.validated.su = 1 ∧ o2.validated.sz = 1 := by rw [e2]; exact ⟨rfl, rfl, rfl, rfl⟩
  have hx1 : o1.validated.xub j = .pinf := by rw [ho1]; rfl
  have hs1 : o1.validated.set = S ∧ o1.validated.sx = 1 ∧ o1.validated.su = 1 ∧ o1.validated.sz = 1 := by rw [ho1]; exact ⟨rfl, rfl, rfl, rfl⟩
  refine ⟨rfl, rfl, ?_, ?_⟩
  · simp only [MpcObj.getOptBound, Option.map_some, OptXBounds.get, MpcCfg.ubx, MpcCfg.updateBounds, MpcObj.cfg, hx2, hs2, last]
    by_cases hcc : S.consColloc = true <;> simp [hcc, hk', hk, hN, MpcCfg.xLast, Bound.divBy, hx2]
  · simp only [MpcObj.getOptBound, Option.map_some, OptXBounds.get, MpcCfg.ubx, MpcCfg.updateBounds, MpcObj.cfg, hx1, hs1, last]
    by_cases hcc : S.consColloc = true <;> simp [hcc, hk', hk, hN, MpcCfg.xLast, Bound.divBy, hx1, not_lt.2 (zero_le_one (α := K))]

/-- **C40 is false for the solver call after a change of size**: an object was set up with settings `S`, solved once, and set up again (successfully)
with settings `S'` for which `opt_x` has another length: the next solver call raises, because the multipliers of the old problem are passed as
warm start; for a new object with settings `S'` the same call succeeds. -/
theorem C40_fails_warm_start (S S' : MpcSettings) (ob : Objective K d)
    (hne : ((MpcObj.new S : MpcObj K d).cfg mk ob).nOptX ≠ ((MpcObj.new S' : MpcObj K d).cfg mk ob).nOptX) :
    let two := (MpcObj.new S).run mk [.setObjective ob, .setup, .solve, .settings S', .setup]
    let one := (MpcObj.new S').run mk [.setObjective ob, .setup]
    two.setup = true ∧ (two.exec mk .solve).2 = some "RuntimeError" ∧ (one.exec mk .solve).2 = none := by
  intro two one
  have sl0 : ∀ S, trivialSlack ((MpcObj.new S : MpcObj K d).run mk [.setObjective ob]) := fun S =>
    ⟨by simp [MpcObj.run, MpcObj.exec, MpcObj.new], by simp [MpcObj.run, MpcObj.exec, MpcObj.new]⟩
  have g0 := fun S => setup_good mk _ (sl0 S) ob (setup_new mk S ob).1 (setup_new mk S ob).2
  have hn : ∀ S, (((MpcObj.new S : MpcObj K d).run mk [.setObjective ob]).validated.cfg mk ob).nOptX = ((MpcObj.new S : MpcObj K d).cfg mk ob).nOptX := fun S => rfl
  obtain ⟨o2, ho2⟩ : ∃ o2 : MpcObj K d, o2 = (MpcObj.new S).run mk [.setObjective ob, .setup, .solve, .settings S'] := ⟨_, rfl⟩
  have e2 : o2 = (((((MpcObj.new S : MpcObj K d).run mk [.setObjective ob]).exec mk .setup).1.exec mk .solve).1.exec mk (.settings S')).1 := ho2
  rw [g0 S] at e2
  have hl0 : ((MpcObj.new S : MpcObj K d).run mk [.setObjective ob]).validated.lamX = none := rfl
  simp only [MpcObj.exec, MpcObj.solve, Bool.not_true, Bool.false_eq_true, if_false, hl0] at e2
  have sl2 : trivialSlack o2 := by
    rw [e2]
    exact ⟨by simp [MpcObj.validated, MpcObj.run, MpcObj.exec, MpcObj.new, slackVars], by simp [MpcObj.validated, MpcObj.run, MpcObj.exec, MpcObj.new]⟩
  have hob2 : o2.objective = some ob := by rw [e2]; rfl
  have hc2 : ¬ o2.crossed := by
    rw [e2]
    rintro (⟨j, h⟩ | ⟨j, h⟩ | ⟨j, h⟩) <;> simp [MpcObj.validated, MpcObj.run, MpcObj.exec, MpcObj.new, Bound.gt] at h
  have htwo : two = (o2.exec mk .setup).1 := by rw [ho2]; rfl
  have g2 := setup_good mk o2 sl2 ob hob2 hc2
  have hl2 : o2.lamX = some ((MpcObj.new S : MpcObj K d).cfg mk ob).nOptX := by rw [e2]; exact congrArg some (hn S)
  have hn2 : (o2.validated.cfg mk ob).nOptX = ((MpcObj.new S' : MpcObj K d).cfg mk ob).nOptX := by rw [e2]; rfl
  have hone : one = (((MpcObj.new S' : MpcObj K d).run mk [.setObjective ob]).exec mk .setup).1 := rfl
  rw [htwo, hone, g2, g0 S']
  refine ⟨rfl, ?_, ?_⟩
  · have hl2' : o2.validated.lamX = some ((MpcObj.new S : MpcObj K d).cfg mk ob).nOptX := hl2
    simp only [MpcObj.exec, MpcObj.solve, Bool.not_true, Bool.false_eq_true, if_false, hl2', hn2, if_neg hne]
  · have hl1 : ((MpcObj.new S' : MpcObj K d).run mk [.setObjective ob]).validated.lamX = none := rfl
    simp only [MpcObj.exec, MpcObj.solve, Bool.not_true, Bool.false_eq_true, if_false, hl1]

theorem created_step (o : MpcObj K d) (h1 : o.cat = true) (h2 : o.prep.isSome = true) (op : MpcOp K d) (hop : op ≠ .prepare ∧ op ≠ .setup) :
    (o.exec mk op).1.cat = true ∧ (o.exec mk op).1.prep.isSome = true := by
  obtain ⟨P, hP⟩ := Option.isSome_iff_exists.1 h2
  cases op with
  | prepare => exact (hop.1 rfl).elim
  | setup => exact (hop.2 rfl).elim
  | bound s v b =>
    simp only [MpcObj.exec, hP]
    refine ⟨?_, rfl⟩
    cases s <;> cases v <;> exact h1
  | terminalBound s j b =>
    simp only [MpcObj.exec, MpcObj.writeTerminal]
    repeat' split
    all_goals exact ⟨h1, h2⟩
  | scaling v a =>
    simp only [MpcObj.exec]
    split
    · exact ⟨h1, h2⟩
    · cases v <;> exact ⟨h1, h2⟩
  | create =>
    have : (o.exec mk .create).1 = o := by
      show o.create.1 = o
      unfold MpcObj.create
      rw [hP]
      dsimp only
      rw [if_pos h1]
    rw [this]
    exact ⟨h1, h2⟩
  | solve =>
    simp only [MpcObj.exec, MpcObj.solve]
    repeat' split
    all_goals exact ⟨h1, h2⟩
  | _ =>
    simp only [MpcObj.exec, hP]
    repeat' split
    all_goals first | exact ⟨h1, h2⟩ | exact ⟨h1, rfl⟩

/-- **C37** (`create_nlp` twice): once `create_nlp()` (or `setup()`) has succeeded, a further `create_nlp()` raises and changes nothing, until `prepare_nlp()` or `setup()`
is called. -/
theorem C37_create_again (o : MpcObj K d) (op : MpcOp K d) (hop : op = .create ∨ op = .setup) (h : (o.exec mk op).2 = none) (ops : List (MpcOp K d))
    (hops : ∀ op ∈ ops, op ≠ .prepare ∧ op ≠ .setup) :
    let o' := (o.exec mk op).1.run mk ops
    o'.exec mk .create = (o', some "Exception") := by
  have hc : ∀ o : MpcObj K d, o.create.2 = none → o.create.1.cat = true ∧ o.create.1.prep.isSome = true := by
    intro o h
    unfold MpcObj.create at h ⊢
    cases hP : o.prep with
    | none => simp [hP] at h
    | some P =>
      simp only [hP] at h ⊢
      split at h
      · simp at h
      · rename_i hcat
        simp [hcat]
  have h0 : (o.exec mk op).1.cat = true ∧ (o.exec mk op).1.prep.isSome = true := by
    rcases hop with rfl | rfl
    · exact hc o h
    · simp only [MpcObj.exec] at h ⊢
      split at h
      · simp at h
      · exact hc _ h
  have key : ∀ (ops : List (MpcOp K d)) (o : MpcObj K d), o.cat = true ∧ o.prep.isSome = true → (∀ op ∈ ops, op ≠ .prepare ∧ op ≠ .setup) →
      (o.run mk ops).cat = true ∧ (o.run mk ops).prep.isSome = true := by
    intro ops
    induction ops with
    | nil => intro o h _; exact h
    | cons op ops ih => intro o h hl; exact ih _ (created_step mk o h.1 h.2 op (hl op (by simp))) (fun p hp => hl p (by simp [hp]))
  obtain ⟨k1, k2⟩ := key ops _ h0 hops
  obtain ⟨P, hP⟩ := Option.isSome_iff_exists.1 k2
  show MpcObj.create _ = _
  unfold MpcObj.create
  rw [hP]
  dsimp only
  rw [if_pos k1]

/-! ## Concrete objects that meet the hypotheses -/
namespace LifecycleExample

def dm : Dims := { nx := 1, nu := 1, nz := 0, ntv := 0, np := 0, ny := 1 }
def x0 : Fin dm.nx := ⟨0, by decide⟩
def u0 : Fin dm.nu := ⟨0, by decide⟩
/-- `x⁺ = x + u` -/
def model : DaeModel ℚ dm where
  rhs := fun x u _ _ _ _ i => x i + u u0
  alg := fun _ _ z _ _ _ => z
  meas := fun x _ _ _ _ _ => x
  aux := fun _ _ _ _ _ i => i.elim0
def mkD : Vec ℚ dm.nx → Vec ℚ dm.nu → Vec ℚ dm.nz → Ifcn ℚ dm := fun sx su sz => discreteIfcn model sx su sz 1
def S : MpcSettings := ⟨2, 0, 1, false, false, false, false, true⟩
def ob : Objective ℚ dm := ⟨fun x _ _ _ _ => x x0 * x x0, fun x _ _ => x x0 * x x0⟩
def soft : NlCall ℚ dm := { name := "c", dim := 1, expr := fun x _ _ _ _ _ => x x0, ub := .fin 1, soft := true, penalty := 10 }
def hard : NlCall ℚ dm := { name := "c", dim := 1, expr := fun x _ _ _ _ _ => x x0, ub := .fin 1, soft := false, penalty := 10 }
def o : MpcObj ℚ dm := (MpcObj.new S).run mkD [.setObjective ob, .bound .upper (.x x0) (.fin 3), .setNlCons soft, .setRterm (.factor 1)]
def oPrep : MpcObj ℚ dm := (o.exec mkD .prepare).1
def oSetup : MpcObj ℚ dm := (o.exec mkD .setup).1

-- C37_create_again
example : (o.exec mkD .setup).2 = none ∧ (oPrep.exec mkD .create).2 = none := by constructor <;> decide +kernel
-- C37_guarded, C37_frozen: an object that was set up
example : oSetup.setup = true := by decide +kernel
-- C37_fails_settings, C38_fails_opt_bound_*: a prepared object
example : oSetup.prep.isSome = true := by decide +kernel
-- C37_fails_objective_after_prepare, C37_fails_scaling_after_prepare
example : o.prepare mkD = (oPrep, none) ∧ oPrep.setup = false := ⟨Prod.ext rfl (by decide +kernel), by decide +kernel⟩
-- C38_effect_partial, C38_effect_state, C38_fails_terminal_changes_path: `prepare_nlp` succeeds, terminal bounds are unset and used
example : o.prepare mkD = (oPrep, none) ∧ o.set.useTerminal = true ∧ (∀ j, o.term .upper j = .pinf) ∧ 1 < oPrep.set.N :=
  ⟨Prod.ext rfl (by decide +kernel), rfl, fun _ => rfl, by decide +kernel⟩
-- C38_effect_partial: a history with two assignments, one refused call and a solver call
example : ∀ op ∈ ([.bound .upper (.x x0) (.fin 2), .setObjective ob, .solve, .bound .lower (.u u0) (.fin (-1))] : List (MpcOp ℚ dm)), op.keepsBounds := by
  intro op h
  simp only [List.mem_cons, List.not_mem_nil, or_false] at h
  rcases h with rfl | rfl | rfl | rfl <;> trivial

/-- hypotheses of `C40_partial`: configured with bounds and a hard constraint, set up, solved, horizon and bounds changed, set up again -/
def ops1 : List (MpcOp ℚ dm) := [.setObjective ob, .bound .upper (.x x0) (.fin 3), .setNlCons hard, .terminalBound .upper x0 (.fin 2)]
def ops2 : List (MpcOp ℚ dm) := [.solve, .settings { S with N := 3 }, .bound .lower (.u u0) (.fin (-1)), .optBound .lower (.x 1 0 0 x0) (.fin 0)]
example : (∀ op ∈ ops1, op.configures) ∧ (∀ op ∈ ops2, op.adapts ((MpcObj.new S).run mkD ops1).set.useTerminal) ∧
    (((MpcObj.new S).run mkD ops1).exec mkD .setup).2 = none ∧ (((MpcObj.new S).run mkD (ops1 ++ ops2)).exec mkD .setup).2 = none := by
  refine ⟨?_, ?_, by decide +kernel, by decide +kernel⟩
  · intro op h
    simp only [ops1, List.mem_cons, List.not_mem_nil, or_false] at h
    rcases h with rfl | rfl | rfl | rfl
    · trivial
    · trivial
    · exact fun h => absurd h (by decide)
    · trivial
  · intro op h
    simp only [ops2, List.mem_cons, List.not_mem_nil, or_false] at h
    rcases h with rfl | rfl | rfl | rfl
    · trivial
    · show true = _; decide +kernel
    · trivial
    · trivial
-- C40_fails_soft_constraint
example : soft ∈ o.nl ∧ soft.soft = true ∧ soft.penalty ≠ 0 ∧ soft.dim ≠ 0 ∧ (o.exec mkD .setup).2 = none :=
  ⟨List.mem_singleton.2 rfl, rfl, by decide +kernel, by decide, by decide +kernel⟩
-- C40_fails_warm_start: a longer horizon
example : ((MpcObj.new S : MpcObj ℚ dm).cfg mkD ob).nOptX ≠ ((MpcObj.new { S with N := 3 } : MpcObj ℚ dm).cfg mkD ob).nOptX := by decide +kernel

end LifecycleExample
end DoMpc
