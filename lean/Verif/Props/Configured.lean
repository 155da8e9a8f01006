import Verif.Props.LifecycleConf
import Verif.Props.MpcOptimalColl
import Verif.Spec.Configured

/-!
# C96: from the configuration calls to the returned input
-/
set_option linter.unusedSectionVars false
namespace DoMpc
open Spec
variable {K : Type} [Field K] [LinearOrder K] [IsStrictOrderedRing K] {d : Dims} (mk : Vec K d.nx → Vec K d.nu → Vec K d.nz → Ifcn K d)

theorem setup_fresh (o : MpcObj K d) (hs : o.slackCost = []) (h : (o.exec mk .setup).2 = none) :
    ∃ ob, o.objective = some ob ∧ o.exec mk .setup =
      ({ o.validated with
          prep := some ⟨o.validated.cfg mk ob, (o.validated.cfg mk ob).obj, (o.validated.cfg mk ob).rows, (o.validated.cfg mk ob).lbx,
            (o.validated.cfg mk ob).ubx⟩
          solver := some ⟨(o.validated.cfg mk ob).obj, (o.validated.cfg mk ob).rows⟩
          setup := true
          cat := true }, none) := by
  have h0 := (C37_setup_succeeds_iff mk o hs).1 h
  obtain ⟨ob, ho⟩ := Option.isSome_iff_exists.1 h0.1
  refine ⟨ob, ho, ?_⟩
  have hc : ¬ o.crossed := by
    rintro (⟨j, e⟩ | ⟨j, e⟩ | ⟨j, e⟩)
    · have := h0.2 (.x j); exact absurd (e.symm.trans this) (by decide)
    · have := h0.2 (.u j); exact absurd (e.symm.trans this) (by decide)
    · have := h0.2 (.z j); exact absurd (e.symm.trans this) (by decide)
  have hn : o.setupNlCons = ({ o with gen := o.gen + 1, slackCost := o.slackCost ++ (slackVars o.nl).map fun sl => (o.gen + 1, sl) }, none) := by
    unfold MpcObj.setupNlCons
    dsimp only
    rw [if_pos]
    intro t ht
    rw [hs] at ht
    simp only [List.nil_append, List.mem_map] at ht
    obtain ⟨sl, -, rfl⟩ := ht
    exact .inl rfl
  have : o.prepare mk = ({ o.validated with
          prep := some ⟨o.validated.cfg mk ob, (o.validated.cfg mk ob).obj, (o.validated.cfg mk ob).rows, (o.validated.cfg mk ob).lbx,
            (o.validated.cfg mk ob).ubx⟩
          cat := false }, none) := by
    rw [MpcObj.prepare, hn]
    simp only [MpcObj.checkValidity]
    unfold MpcObj.crossed at hc
    rw [if_neg (by simp [ho]), if_neg hc]
    dsimp only
    split
    · rename_i hn; exact absurd (ho.symm.trans hn) (by simp)
    · rename_i ob' hob
      obtain rfl : ob = ob' := Option.some.inj (ho.symm.trans hob)
      rfl
  simp only [MpcObj.exec, this, MpcObj.create]
  rfl

/-- The configuration the calls ask for. -/
def wantedCfg (S : MpcSettings) (calls : List (MpcOp K d)) (ob : Objective K d) : MpcCfg K d :=
  let s := lastOf settingsOf calls S
  let sx : Vec K d.nx := fun j => lastOf (scalingOf (.x j)) calls 1
  let su : Vec K d.nu := fun j => lastOf (scalingOf (.u j)) calls 1
  let sz : Vec K d.nz := fun j => lastOf (scalingOf (.z j)) calls 1
  { N := s.N, nRobust := s.nRobust, c := s.c, openLoop := s.openLoop, singleSlack := s.singleSlack, nlColloc := s.nlColloc, consColloc := s.consColloc
    ifcn := mk sx su sz, sx := sx, su := su, sz := sz
    xlb := fun j => lastOf (boundOf .lower (.x j)) calls .ninf
    xub := fun j => lastOf (boundOf .upper (.x j)) calls .pinf
    ulb := fun j => lastOf (boundOf .lower (.u j)) calls .ninf
    uub := fun j => lastOf (boundOf .upper (.u j)) calls .pinf
    zlb := fun j => lastOf (boundOf .lower (.z j)) calls .ninf
    zub := fun j => lastOf (boundOf .upper (.z j)) calls .pinf
    xtlb := terminalWanted calls s .lower
    xtub := terminalWanted calls s .upper
    nl := calls.filterMap nlConsOf
    lterm := ob.lterm, mterm := ob.mterm, rterm := lastOf rtermOf calls (.factor fun _ => 0) }

theorem wantedCfg_problem (S : MpcSettings) (calls : List (MpcOp K d)) (ob : Objective K d) (m : DaeModel K d) (q : OptP K d) :
    (wantedCfg mk S calls ob).problem m q = configured S calls ob m q := by
  have : (wantedCfg mk S calls ob).changeTerm = changeWanted calls := by
    unfold MpcCfg.changeTerm changeWanted
    cases h : lastOf rtermOf calls (.factor fun _ => 0) <;> simp only [wantedCfg, h]
  unfold MpcCfg.problem
  rw [this]
  rfl

/-- what the object looks like after `setup` and later calls -/
structure After (S : MpcSettings) (calls : List (MpcOp K d)) (ob : Objective K d) (o : MpcObj K d) : Prop where
  objective : lastOf (fun op => (objectiveOf op).map some) calls none = some ob
  set : o.set = lastOf settingsOf calls S
  isSet : o.setup = true
  cat : o.cat = true
  solver : o.solver = some ⟨(wantedCfg mk S calls ob).obj, (wantedCfg mk S calls ob).rows⟩
  prep : ∃ P, o.prep = some P ∧ P.lb = (wantedCfg mk S calls ob).lbx ∧ P.ub = (wantedCfg mk S calls ob).ubx ∧
    (o.withBounds P.cfg = wantedCfg mk S calls ob)
  bounds : ∀ s v, o.getBound s v = lastOf (boundOf s v) calls (infOf s)
  tl : o.termLb = none ∧ (∀ j, lastOf (terminalOf .lower j) calls .ninf = (.ninf : Bound K)) ∧ (lastOf settingsOf calls S).useTerminal = true ∨
    ((∃ t, o.termLb = some t ∧ ∀ j, t j = lastOf (terminalOf .lower j) calls .ninf) ∧
      ¬ ((∀ j, lastOf (terminalOf .lower j) calls .ninf = (.ninf : Bound K)) ∧ (lastOf settingsOf calls S).useTerminal = true))
  tu : o.termUb = none ∧ (∀ j, lastOf (terminalOf .upper j) calls .pinf = (.pinf : Bound K)) ∧ (lastOf settingsOf calls S).useTerminal = true ∨
    ((∃ t, o.termUb = some t ∧ ∀ j, t j = lastOf (terminalOf .upper j) calls .pinf) ∧
      ¬ ((∀ j, lastOf (terminalOf .upper j) calls .pinf = (.pinf : Bound K)) ∧ (lastOf settingsOf calls S).useTerminal = true))
  su : o.su = (wantedCfg mk S calls ob).su

theorem term_wanted (S : MpcSettings) (calls : List (MpcOp K d)) (o : MpcObj K d) (hb : ∀ s v, o.getBound s v = lastOf (boundOf s v) calls (infOf s))
    (tl : o.termLb = none ∧ (∀ j, lastOf (terminalOf .lower j) calls .ninf = (.ninf : Bound K)) ∧ (lastOf settingsOf calls S).useTerminal = true ∨
      ((∃ t, o.termLb = some t ∧ ∀ j, t j = lastOf (terminalOf .lower j) calls .ninf) ∧
        ¬ ((∀ j, lastOf (terminalOf .lower j) calls .ninf = (.ninf : Bound K)) ∧ (lastOf settingsOf calls S).useTerminal = true)))
    (tu : o.termUb = none ∧ (∀ j, lastOf (terminalOf .upper j) calls .pinf = (.pinf : Bound K)) ∧ (lastOf settingsOf calls S).useTerminal = true ∨
      ((∃ t, o.termUb = some t ∧ ∀ j, t j = lastOf (terminalOf .upper j) calls .pinf) ∧
        ¬ ((∀ j, lastOf (terminalOf .upper j) calls .pinf = (.pinf : Bound K)) ∧ (lastOf settingsOf calls S).useTerminal = true))) (s : Side) :
    o.term s = terminalWanted calls (lastOf settingsOf calls S) s := by
  funext j
  unfold terminalWanted
  cases s with
  | lower =>
    rcases tl with ⟨h1, h2⟩ | ⟨⟨t, h1, h1'⟩, h2⟩
    · refine Eq.trans ?_ (if_pos h2).symm
      rw [MpcObj.term, h1]
      exact hb .lower (.x j)
    · refine Eq.trans ?_ (if_neg h2).symm
      rw [MpcObj.term, h1]
      exact h1' j
  | upper =>
    rcases tu with ⟨h1, h2⟩ | ⟨⟨t, h1, h1'⟩, h2⟩
    · refine Eq.trans ?_ (if_pos h2).symm
      rw [MpcObj.term, h1]
      exact hb .upper (.x j)
    · refine Eq.trans ?_ (if_neg h2).symm
      rw [MpcObj.term, h1]
      exact h1' j

theorem after_setup (S : MpcSettings) (ops : List (MpcOp K d)) (h : ∀ op ∈ ops, Configures op)
    (hs : (((MpcObj.new S : MpcObj K d).run mk ops).exec mk .setup).2 = none) :
    ∃ ob, After mk S ops ob (((MpcObj.new S : MpcObj K d).run mk ops).exec mk .setup).1 := by
  have F := conf_run mk S ops h
  set o := (MpcObj.new S : MpcObj K d).run mk ops with ho
  obtain ⟨ob, hob, he⟩ := setup_fresh mk o F.unset.2.2 hs
  refine ⟨ob, ?_⟩
  rw [he]
  obtain ⟨tl, e1, e2⟩ := F.tl
  obtain ⟨tu, e3, e4⟩ := F.tu
  have el : ∀ j, o.term .lower j = lastOf (terminalOf .lower j) ops .ninf := by
    intro j; simp only [MpcObj.term, e1, Option.getD_some]; exact e2 j
  have eu : ∀ j, o.term .upper j = lastOf (terminalOf .upper j) ops .pinf := by
    intro j; simp only [MpcObj.term, e3, Option.getD_some]; exact e4 j
  have hb : ∀ s v, o.validated.getBound s v = lastOf (boundOf s v) ops (infOf s) := by
    intro s v
    rw [← F.bounds]
    cases s <;> cases v <;> rfl
  have htl : o.validated.termLb = none ∧ (∀ j, lastOf (terminalOf .lower j) ops .ninf = (.ninf : Bound K)) ∧ (lastOf settingsOf ops S).useTerminal = true ∨
      ((∃ t, o.validated.termLb = some t ∧ ∀ j, t j = lastOf (terminalOf .lower j) ops .ninf) ∧
        ¬ ((∀ j, lastOf (terminalOf .lower j) ops .ninf = (.ninf : Bound K)) ∧ (lastOf settingsOf ops S).useTerminal = true)) := by
    by_cases hc : (∀ j, o.term .lower j = .ninf) ∧ o.set.useTerminal = true
    · left
      refine ⟨by simp only [MpcObj.validated]; rw [if_pos hc], ?_⟩
      simpa only [el, F.set] using hc
    · right
      refine ⟨⟨tl, by simp only [MpcObj.validated]; rw [if_neg hc, e1], e2⟩, ?_⟩
      simpa only [el, F.set] using hc
  have htu : o.validated.termUb = none ∧ (∀ j, lastOf (terminalOf .upper j) ops .pinf = (.pinf : Bound K)) ∧ (lastOf settingsOf ops S).useTerminal = true ∨
      ((∃ t, o.validated.termUb = some t ∧ ∀ j, t j = lastOf (terminalOf .upper j) ops .pinf) ∧
        ¬ ((∀ j, lastOf (terminalOf .upper j) ops .pinf = (.pinf : Bound K)) ∧ (lastOf settingsOf ops S).useTerminal = true)) := by
    by_cases hc : (∀ j, o.term .upper j = .pinf) ∧ o.set.useTerminal = true
    · left
      refine ⟨by simp only [MpcObj.validated]; rw [if_pos hc], ?_⟩
      simpa only [eu, F.set] using hc
    · right
      refine ⟨⟨tu, by simp only [MpcObj.validated]; rw [if_neg hc, e3], e4⟩, ?_⟩
      simpa only [eu, F.set] using hc
  have hsx : o.validated.sx = fun j => lastOf (scalingOf (.x j)) ops 1 := funext F.sx
  have hsu : o.validated.su = fun j => lastOf (scalingOf (.u j)) ops 1 := funext F.su
  have hsz : o.validated.sz = fun j => lastOf (scalingOf (.z j)) ops 1 := funext F.sz
  have hcfg : o.validated.cfg mk ob = wantedCfg mk S ops ob := by
    have t1 := term_wanted S ops o.validated hb htl htu .lower
    have t2 := term_wanted S ops o.validated hb htl htu .upper
    unfold MpcObj.cfg wantedCfg
    rw [t1, t2, hsx, hsu, hsz]
    have hset : o.validated.set = lastOf settingsOf ops S := F.set
    have b1 : o.validated.xlb = fun j => lastOf (boundOf .lower (.x j)) ops .ninf := funext fun j => hb .lower (.x j)
    have b2 : o.validated.xub = fun j => lastOf (boundOf .upper (.x j)) ops .pinf := funext fun j => hb .upper (.x j)
    have b3 : o.validated.ulb = fun j => lastOf (boundOf .lower (.u j)) ops .ninf := funext fun j => hb .lower (.u j)
    have b4 : o.validated.uub = fun j => lastOf (boundOf .upper (.u j)) ops .pinf := funext fun j => hb .upper (.u j)
    have b5 : o.validated.zlb = fun j => lastOf (boundOf .lower (.z j)) ops .ninf := funext fun j => hb .lower (.z j)
    have b6 : o.validated.zub = fun j => lastOf (boundOf .upper (.z j)) ops .pinf := funext fun j => hb .upper (.z j)
    have hnl : o.validated.nl = ops.filterMap nlConsOf := F.nl
    have hr : o.validated.rterm = lastOf rtermOf ops (.factor fun _ => 0) := F.rterm
    rw [hset, b1, b2, b3, b4, b5, b6, hnl, hr]
  rw [hcfg]
  exact ⟨F.objective ▸ hob, F.set, rfl, rfl, rfl, ⟨_, rfl, rfl, rfl, hcfg ▸ rfl⟩, fun s v => (hb s v), htl, htu, hsu⟩

theorem lastOf_snoc_none {α β : Type} (f : α → Option β) (a : List α) (x : α) (v : β) (h : f x = none) : lastOf f (a ++ [x]) v = lastOf f a v := by
  rw [lastOf_snoc, h]; rfl

theorem after_noop (S : MpcSettings) (calls : List (MpcOp K d)) (ob : Objective K d) (o o' : MpcObj K d) (h : After mk S calls ob o)
    (he : ∃ n, o' = { o with lamX := n }) : After mk S calls ob o' := by
  obtain ⟨n, rfl⟩ := he
  obtain ⟨h0, h1, h2, h3, h4, h5, h6, h7, h8, h9⟩ := h
  refine ⟨h0, h1, h2, h3, h4, h5, fun s v => ?_, h7, h8, h9⟩
  rw [← h6]
  cases s <;> cases v <;> rfl

theorem after_step (S : MpcSettings) (calls : List (MpcOp K d)) (ob : Objective K d) (o : MpcObj K d) (h : After mk S calls ob o) (op : MpcOp K d)
    (hop : Later op) : After mk S (calls ++ [op].filter isBound) ob (o.exec mk op).1 := by
  by_cases hg : op.guarded
  · rw [C37_guarded mk o h.isSet op hg]
    have : [op].filter isBound = [] := by cases op <;> first | rfl | exact hg.elim
    rw [this, List.append_nil]
    exact h
  · cases op with
    | solve =>
      rw [show [MpcOp.solve].filter (isBound (K := K) (d := d)) = [] from rfl, List.append_nil]
      refine after_noop mk S calls ob o _ h ?_
      simp only [MpcObj.exec, MpcObj.solve]
      repeat' split
      all_goals first | exact ⟨_, rfl⟩ | exact ⟨o.lamX, rfl⟩
    | create =>
      rw [show [MpcOp.create].filter (isBound (K := K) (d := d)) = [] from rfl, List.append_nil]
      obtain ⟨P, hP, -⟩ := h.prep
      have : (o.exec mk .create).1 = o := by simp [MpcObj.exec, MpcObj.create, hP, h.cat]
      rw [this]
      exact h
    | bound s v b =>
      rw [show [MpcOp.bound s v b].filter (isBound (K := K) (d := d)) = [.bound s v b] from rfl]
      obtain ⟨h0, h1, h2, h3, h4, ⟨P, hP, p1, p2, p3⟩, h6, h7, h8, h9⟩ := h
      obtain ⟨a1, a2, a3, a4, a5, a6, a7, a8, _⟩ := writeBound_fields o s v b
      have hset := writeBound_set o s v b
      have hsy : o.Synced P.cfg := by
        refine ⟨P, hP, rfl, ?_, ?_, by rw [p1, p3], by rw [p2, p3]⟩
        · have := congrArg MpcCfg.N p3
          exact this.trans (congrArg MpcSettings.N h1).symm
        · have := congrArg MpcCfg.consColloc p3
          exact this.trans (congrArg MpcSettings.consColloc h1).symm
      obtain ⟨P', q1, q2, -, -, q3, q4⟩ := synced_step mk o P.cfg hsy (.bound s v b) trivial
      set o' := (o.exec mk (.bound s v b)).1 with ho'
      set calls' := calls ++ [MpcOp.bound s v b] with hcalls
      have eset : lastOf settingsOf calls' S = lastOf settingsOf calls S := lastOf_snoc_none _ _ _ _ rfl
      have er : lastOf rtermOf calls' (.factor fun _ => 0) = lastOf rtermOf calls (.factor fun _ => 0) := lastOf_snoc_none _ _ _ _ rfl
      have esc : ∀ v, lastOf (scalingOf v) calls' 1 = lastOf (scalingOf v) calls 1 := fun v => lastOf_snoc_none _ _ _ _ rfl
      have et : ∀ s j i, lastOf (terminalOf s j) calls' i = lastOf (terminalOf s j) calls i := fun s j i => lastOf_snoc_none _ _ _ _ rfl
      have enl : calls'.filterMap nlConsOf = calls.filterMap nlConsOf := by simp [hcalls, nlConsOf]
      have hb' : ∀ s v, o'.getBound s v = lastOf (boundOf s v) calls' (infOf s) := by
        intro s' v'
        rw [hcalls, lastOf_snoc, ← h6]
        have := C38_read_back mk o s v b
        by_cases he : s = s' ∧ v = v'
        · obtain ⟨rfl, rfl⟩ := he
          rw [ho', this.2.1]
          simp [boundOf]
        · rw [ho', this.2.2 s' v' (fun hc => he (by simp only [Prod.mk.injEq] at hc; exact ⟨hc.1.symm, hc.2.symm⟩))]
          simp [boundOf, he]
      have eterm : o'.termLb = o.termLb ∧ o'.termUb = o.termUb := by
        simp only [ho', MpcObj.exec]
        cases s <;> cases v <;> exact ⟨rfl, rfl⟩
      have htl := h7
      have htu := h8
      simp only [← eset, ← et] at htl htu
      rw [← eterm.1] at htl
      rw [← eterm.2] at htu
      have hw : o'.withBounds (wantedCfg mk S calls ob) = wantedCfg mk S calls' ob := by
        have t1 := term_wanted S calls' o' hb' htl htu .lower
        have t2 := term_wanted S calls' o' hb' htl htu .upper
        have b1 : o'.xlb = fun j => lastOf (boundOf .lower (.x j)) calls' .ninf := funext fun j => hb' .lower (.x j)
        have b2 : o'.xub = fun j => lastOf (boundOf .upper (.x j)) calls' .pinf := funext fun j => hb' .upper (.x j)
        have b3 : o'.ulb = fun j => lastOf (boundOf .lower (.u j)) calls' .ninf := funext fun j => hb' .lower (.u j)
        have b4 : o'.uub = fun j => lastOf (boundOf .upper (.u j)) calls' .pinf := funext fun j => hb' .upper (.u j)
        have b5 : o'.zlb = fun j => lastOf (boundOf .lower (.z j)) calls' .ninf := funext fun j => hb' .lower (.z j)
        have b6 : o'.zub = fun j => lastOf (boundOf .upper (.z j)) calls' .pinf := funext fun j => hb' .upper (.z j)
        simp only [MpcObj.withBounds, wantedCfg, t1, t2, b1, b2, b3, b4, b5, b6, eset, er, esc, enl]
      have hw2 : o'.withBounds P.cfg = wantedCfg mk S calls' ob := by
        rw [← hw, ← p3]; rfl
      refine ⟨?_, ?_, ?_, ?_, ?_, ⟨P', q1, ?_, ?_, ?_⟩, hb', htl, htu, ?_⟩
      · rw [hcalls, lastOf_snoc_none _ _ _ _ rfl]; exact h0
      · rw [eset, ← h1]; exact hset
      · exact a1.trans h2
      · rw [ho']
        simp only [MpcObj.exec]
        rw [← h3]
        cases s <;> cases v <;> rfl
      · rw [← hw]
        exact a2.trans h4
      · rw [q3, hw2]
      · rw [q4, hw2]
      · rw [q2, hw2]
      · rw [← hw]
        exact a7.trans h9
    | settings _ => exact hop.elim
    | terminalBound _ _ _ => exact hop.elim
    | optBound _ _ _ => exact hop.elim
    | prepare => exact hop.elim
    | setup => exact hop.elim
    | _ => exact (hg trivial).elim

theorem after_run (S : MpcSettings) (ob : Objective K d) (ops : List (MpcOp K d)) : ∀ (calls : List (MpcOp K d)) (o : MpcObj K d), After mk S calls ob o →
    (∀ op ∈ ops, Later op) → After mk S (calls ++ ops.filter isBound) ob (o.run mk ops) := by
  induction ops with
  | nil => intro calls o h _; rw [List.filter_nil, List.append_nil]; exact h
  | cons op ops ih =>
    intro calls o h hl
    have := ih _ _ (after_step mk S calls ob o h op (hl op (by simp))) (fun p hp => hl p (by simp [hp]))
    have e : calls ++ (op :: ops).filter isBound = calls ++ [op].filter isBound ++ ops.filter isBound := by
      rw [List.append_assoc, ← List.filter_append]; rfl
    rw [e]
    exact this

theorem after_feasible (S : MpcSettings) (calls : List (MpcOp K d)) (ob : Objective K d) (o : MpcObj K d) (h : After mk S calls ob o) (w : OptX K d) (q : OptP K d) :
    SolverFeasible o w q ↔ (wantedCfg mk S calls ob).Feasible w q := by
  obtain ⟨P, hP, p1, p2, p3⟩ := h.prep
  have key : WithinBounds P w ↔ (wantedCfg mk S calls ob).InBounds w := by
    unfold WithinBounds MpcCfg.InBounds
    rw [p1, p2, ← p3]
    exact Iff.rfl
  constructor
  · rintro ⟨F, P', h1, h2, h3, h4⟩
    obtain rfl : P = P' := Option.some.inj (hP.symm.trans h2)
    obtain rfl := Option.some.inj (h.solver.symm.trans h1)
    exact ⟨h3, key.1 h4⟩
  · rintro ⟨h1, h2⟩
    exact ⟨_, P, h.solver, hP, h1, key.2 h2⟩

theorem after_minimises (S : MpcSettings) (calls : List (MpcOp K d)) (ob : Objective K d) (o : MpcObj K d) (h : After mk S calls ob o) (w : OptX K d) (q : OptP K d) :
    SolverMinimises o w q ↔ (wantedCfg mk S calls ob).NlpOptimal w q := by
  unfold SolverMinimises MpcCfg.NlpOptimal
  simp only [after_feasible mk S calls ob o h]
  refine and_congr Iff.rfl ⟨fun h1 w' hw' => h1 _ h.solver w' hw', fun h1 F hF w' hw' => ?_⟩
  obtain rfl := Option.some.inj (h.solver.symm.trans hF)
  exact h1 w' hw'

theorem plain_regular (S : MpcSettings) (calls : List (MpcOp K d)) (ob : Objective K d) (m : DaeModel K d) (h : PlainCalls S calls) :
    (wantedCfg (fun sx su sz => discreteIfcn m sx su sz 1) S calls ob).Regular m where
  discrete := rfl
  cpos := h.cpos
  sx := fun j => h.scaling (.x j)
  su := fun j => h.scaling (.u j)
  sz := fun j => h.scaling (.z j)
  noColl := h.noColl
  names := h.names
  horizon := h.horizon
  noAlg := h.noAlg
  slack := h.slack
  rterm := h.rterm

/-- **C96** (discrete-time models): configure a new MPC object by any calls, `setup()`, then assign bounds, solve and try refused calls in any order: if the solver
answers with a global minimiser, the input `make_step` returns is the first input of an optimal policy of the multi-stage problem that the calls ask for – the settings, the
objective, the penalty and the scaling given last before `setup()`, all constraints, and the bounds given last, before or after `setup()`. -/
theorem C96_returned_input (S : MpcSettings) (m : DaeModel K d) (ops1 ops2 : List (MpcOp K d)) (h1 : ∀ op ∈ ops1, Configures op) (h2 : ∀ op ∈ ops2, Later op) :
    let mk := fun sx su sz => discreteIfcn m sx su sz 1
    let o1 := (MpcObj.new S : MpcObj K d).run mk ops1
    let o := o1.run mk (.setup :: ops2)
    let calls := ops1 ++ ops2.filter isBound
    (o1.exec mk .setup).2 = none → PlainCalls S calls →
      ∃ ob, lastOf (fun op => (objectiveOf op).map some) ops1 none = some ob ∧
        ∀ w q, SolverMinimises o w q → ∃ π, (configured S calls ob m q).Optimal π ∧ o.returnedInput w = π.U 0 [] := by
  intro mk o1 o calls hs hp
  obtain ⟨ob, ha⟩ := after_setup mk S ops1 h1 hs
  refine ⟨ob, ha.objective, fun w q hw => ?_⟩
  have hf := after_run mk S ob ops2 ops1 _ ha h2
  have hn := (after_minimises mk S calls ob o hf w q).1 hw
  obtain ⟨e1, e2⟩ := C12_first_input_of_optimal_policy_partial _ m (plain_regular S calls ob m hp) w q hn
  refine ⟨_, wantedCfg_problem mk S calls ob m q ▸ e1, ?_⟩
  rw [← e2]
  exact congrArg (w.u 0 0 * ·) hf.su

/-- … and the solver's problem has a feasible point iff the configured problem has an admissible policy. -/
theorem C96_solvable (S : MpcSettings) (m : DaeModel K d) (ops1 ops2 : List (MpcOp K d)) (h1 : ∀ op ∈ ops1, Configures op) (h2 : ∀ op ∈ ops2, Later op) :
    let mk := fun sx su sz => discreteIfcn m sx su sz 1
    let o1 := (MpcObj.new S : MpcObj K d).run mk ops1
    let o := o1.run mk (.setup :: ops2)
    let calls := ops1 ++ ops2.filter isBound
    (o1.exec mk .setup).2 = none → PlainCalls S calls →
      ∃ ob, lastOf (fun op => (objectiveOf op).map some) ops1 none = some ob ∧
        ∀ q, (∃ w, SolverFeasible o w q) ↔ ∃ π, (configured S calls ob m q).Admissible π := by
  intro mk o1 o calls hs hp
  obtain ⟨ob, ha⟩ := after_setup mk S ops1 h1 hs
  refine ⟨ob, ha.objective, fun q => ?_⟩
  have hf := after_run mk S ob ops2 ops1 _ ha h2
  rw [← wantedCfg_problem mk, ← C12_solver_problem_feasible_iff _ m (plain_regular S calls ob m hp) q]
  exact exists_congr fun w => after_feasible mk S calls ob o hf w q

/-- **C96** (continuous-time models, collocation): the same, for a stage cost and an input penalty that do not depend on the algebraic states. -/
theorem C96_returned_input_collocation (S : MpcSettings) (m : DaeModel K d) (deg ni : Nat) (tau : Nat → K) (tStep : K) (htau : tau 0 = 0)
    (hinj : ∀ i ≤ deg, ∀ j ≤ deg, tau i = tau j → i = j) (hmk : ∀ sx su sz, setupCollocation m sx su sz 1 deg ni tau tStep = .ok (mk sx su sz))
    (ops1 ops2 : List (MpcOp K d)) (h1 : ∀ op ∈ ops1, Configures op) (h2 : ∀ op ∈ ops2, Later op) :
    let o1 := (MpcObj.new S : MpcObj K d).run mk ops1
    let o := o1.run mk (.setup :: ops2)
    let calls := ops1 ++ ops2.filter isBound
    (o1.exec mk .setup).2 = none → PlainCalls S calls →
    (∀ f, lastOf rtermOf calls (.factor fun _ => 0) = .user f → ∀ x u v z z' tv p, f x u v z tv p = f x u v z' tv p) →
      ∃ ob, lastOf (fun op => (objectiveOf op).map some) ops1 none = some ob ∧
        ((∀ x u z z' tv p, ob.lterm x u z tv p = ob.lterm x u z' tv p) →
          ∀ w q, SolverMinimises o w q →
            ∃ π, (configuredColl S calls ob m deg ni tau tStep q).Optimal π ∧ o.returnedInput w = π.U 0 []) := by
  intro o1 o calls hs hp hz
  obtain ⟨ob, ha⟩ := after_setup mk S ops1 h1 hs
  refine ⟨ob, ha.objective, fun hl w q hw => ?_⟩
  have hf := after_run mk S ob ops2 ops1 _ ha h2
  have hn := (after_minimises mk S calls ob o hf w q).1 hw
  have hR : (wantedCfg mk S calls ob).CollRegular m deg ni tau tStep :=
    { setup := hmk _ _ _, tau0 := htau, tauInj := hinj, cpos := hp.cpos, sx := fun j => hp.scaling (.x j), su := fun j => hp.scaling (.u j),
      sz := fun j => hp.scaling (.z j), noColl := hp.noColl, names := hp.names, noAlg := hp.noAlg, slack := hp.slack, horizon := hp.horizon,
      lterm := hl, rterm := fun f hf => ⟨hp.rterm f hf, hz f hf⟩ }
  obtain ⟨π, e1, e2, e3⟩ := C12_first_input_collocation_partial hR w q hn
  refine ⟨π, ?_, ?_⟩
  · have : (wantedCfg mk S calls ob).collProblem m deg ni tau tStep q = configuredColl S calls ob m deg ni tau tStep q := by
      unfold MpcCfg.collProblem configuredColl
      rw [wantedCfg_problem]
      rfl
    rw [← this]
    exact e1
  · rw [e3]
    exact congrArg (w.u 0 0 * ·) hf.su

/-! ## Concrete calls -/
namespace LifecycleExample

def before : List (MpcOp ℚ dm) :=
  [.setObjective ob, .bound .upper (.x x0) (.fin 7), .scaling (.u u0) 2, .setNlCons hard, .setRterm (.factor 1)]
/-- a refused call, a bound, a solver call -/
def later : List (MpcOp ℚ dm) := [.setObjective ob, .bound .upper (.x x0) (.fin 3), .solve]
def oEnd : MpcObj ℚ dm := ((MpcObj.new S).run mkD before).run mkD (.setup :: later)

example : (∀ op ∈ before, Configures op) ∧ (∀ op ∈ later, Later op) ∧ (((MpcObj.new S).run mkD before).exec mkD .setup).2 = none :=
  ⟨by simp [before, Configures], by simp [later, Later], by decide +kernel⟩

theorem plainCalls : PlainCalls S (before ++ later.filter isBound) where
  cpos := by decide
  horizon := by decide
  slack := rfl
  noColl := rfl
  noAlg := .inl rfl
  scaling := by
    intro v
    cases v with
    | x j => exact (by decide +kernel : (0 : ℚ) < 1)
    | u j =>
      obtain rfl : j = u0 := Subsingleton.elim (α := Fin 1) _ _
      exact (by decide +kernel : (0 : ℚ) < 2)
    | z j => exact (by decide +kernel : (0 : ℚ) < 1)
  names := by decide
  rterm := by
    intro f hf
    have : lastOf rtermOf (before ++ later.filter isBound) (.factor fun _ => 0) = (.factor 1 : RTerm ℚ dm) := rfl
    rw [this] at hf
    cases hf

/-- the origin, where nothing is to be done -/
def wZero : OptX ℚ dm := ⟨fun _ _ _ _ => 0, fun _ _ _ _ => 0, fun _ _ _ => 0, fun _ _ _ _ => 0⟩
def qZero : OptP ℚ dm := ⟨0, fun _ => 0, fun _ => 0, 0⟩

theorem oEnd_after : ∃ ob', After mkD S (before ++ later.filter isBound) ob' oEnd := by
  obtain ⟨ob', ha⟩ := after_setup mkD S before (by simp [before, Configures]) (by decide +kernel)
  exact ⟨ob', after_run mkD S ob' later before _ ha (by simp [later, Later])⟩

theorem oEnd_solver : oEnd.solver.isSome = true := by decide +kernel
theorem oEnd_prep : oEnd.prep.isSome = true := by decide +kernel
theorem oEnd_rows : ∀ r ∈ (oEnd.solver.get oEnd_solver).rows wZero qZero, r.Holds := by decide +kernel
theorem oEnd_within : WithinBounds (oEnd.prep.get oEnd_prep) wZero := by
  refine ⟨?_, ?_, ?_, ?_⟩ <;> decide +kernel
theorem oEnd_obj : (oEnd.solver.get oEnd_solver).obj wZero qZero = 0 := by decide +kernel

/-- Non-vacuity of `C96_returned_input`: the solver's problem has a global minimiser. -/
theorem oEnd_minimised : SolverMinimises oEnd wZero qZero := by
  have hF : oEnd.solver = some (oEnd.solver.get oEnd_solver) := (Option.some_get oEnd_solver).symm
  refine ⟨⟨_, _, hF, (Option.some_get oEnd_prep).symm, oEnd_rows, oEnd_within⟩, fun F hF' w' _ => ?_⟩
  obtain rfl := Option.some.inj (hF.symm.trans hF')
  rw [oEnd_obj]
  obtain ⟨ob', ha⟩ := oEnd_after
  have hob : some ob' = some ob := ha.objective.symm
  obtain rfl := Option.some.inj hob
  rw [Option.some.inj (hF.symm.trans ha.solver)]
  refine List.sum_nonneg fun a h => ?_
  obtain ⟨⟨k, s, b⟩, -, rfl⟩ := List.mem_map.1 h
  have h1 : 0 ≤ (wantedCfg mkD S (before ++ later.filter isBound) ob).omega k := by
    unfold MpcCfg.omega
    positivity
  have h2 : (wantedCfg mkD S (before ++ later.filter isBound) ob).slackAt w' k s = 0 := rfl
  have h3 : 0 ≤ (wantedCfg mkD S (before ++ later.filter isBound) ob).rtermAt w' qZero k s b := by
    refine List.sum_nonneg fun a h => ?_
    obtain ⟨j, rfl⟩ := (List.mem_ofFn' _ _).1 h
    exact mul_nonneg zero_le_one (sq_nonneg _)
  have h4 : 0 ≤ (wantedCfg mkD S (before ++ later.filter isBound) ob).econAt w' qZero k s b := by
    unfold MpcCfg.econAt
    refine add_nonneg (mul_nonneg h1 (mul_self_nonneg _)) ?_
    split
    · exact mul_nonneg h1 (mul_self_nonneg _)
    · exact le_rfl
  rw [h2]
  simpa using add_nonneg h4 h3

-- the bound given after `setup()` is the one of the configured problem
example : (configured S (before ++ later.filter isBound) ob model qZero).xub x0 = .fin 3 := rfl
example (u : Vec ℚ dm.nu) (hu : u = fun _ => 2) : (configured S (before ++ later.filter isBound) ob model qZero).change 0 u 0 0 0 0 = 1 := by
  subst hu
  show (List.ofFn fun j : Fin 1 => (1 : ℚ) * ((2 - 0) / 2) ^ 2).sum = 1
  norm_num

end LifecycleExample
end DoMpc
