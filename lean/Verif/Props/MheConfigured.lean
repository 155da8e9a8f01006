import Verif.Props.MheLifeConf
import Verif.Props.MheOptimalColl
import Verif.Props.Configured
import Verif.Spec.MheConfigured

/-!
# C97: from the configuration calls to the estimate
-/
set_option linter.unusedSectionVars false
namespace DoMpc
open Spec
variable {K : Type} [Field K] [LinearOrder K] [IsStrictOrderedRing K] {d : Dims} {ne ns : Nat} (T : MheTools K d ne ns)

/-- The configuration the calls ask for. -/
def mheWantedCfg (S : MheSettings K) (calls : List (MheOp K d ne ns)) (co : MheCost K d ne ns) : MheCfg K d ne ns :=
  let s := lastOf mheSettingsOf calls S
  let sx : Vec K d.nx := fun j => lastOf (mheScalingOf (.x j)) calls 1
  let su : Vec K d.nu := fun j => lastOf (mheScalingOf (.u j)) calls 1
  let sz : Vec K d.nz := fun j => lastOf (mheScalingOf (.z j)) calls 1
  let sp : Vec K ne := fun j => lastOf (mheScalingOf (.p j)) calls 1
  { N := s.N, singleSlack := s.singleSlack, nlColloc := s.nlColloc, consColloc := s.consColloc, model := T.model
    ifcn := T.ifcn s sx su sz (fun i => Sum.elim sp 1 (T.sel i)), sel := T.sel, sx := sx, su := su, sz := sz, sp := sp
    xlb := fun j => lastOf (mheBoundOf .lower (.x j)) calls .ninf
    xub := fun j => lastOf (mheBoundOf .upper (.x j)) calls .pinf
    ulb := fun j => lastOf (mheBoundOf .lower (.u j)) calls .ninf
    uub := fun j => lastOf (mheBoundOf .upper (.u j)) calls .pinf
    zlb := fun j => lastOf (mheBoundOf .lower (.z j)) calls .ninf
    zub := fun j => lastOf (mheBoundOf .upper (.z j)) calls .pinf
    plb := fun j => lastOf (mheBoundOf .lower (.p j)) calls .ninf
    pub := fun j => lastOf (mheBoundOf .upper (.p j)) calls .pinf
    nl := calls.filterMap mheNlConsOf
    stage := co.stage, arrival := co.arrival }

/-- what the object looks like after `setup` and later calls -/
structure MheAfter (S : MheSettings K) (calls : List (MheOp K d ne ns)) (co : MheCost K d ne ns) (o : MheObj K d ne ns) : Prop where
  cost : lastOf (fun op => (mheCostOf op).map some) calls none = some co
  set : o.set = lastOf mheSettingsOf calls S
  isSet : o.setup = true
  cat : o.cat = true
  solver : o.solver = some ⟨(mheWantedCfg T S calls co).obj, (mheWantedCfg T S calls co).rows⟩
  prep : ∃ P, o.prep = some P ∧ P.lb = (mheWantedCfg T S calls co).lbx ∧ P.ub = (mheWantedCfg T S calls co).ubx ∧ o.withBounds P.cfg = mheWantedCfg T S calls co
  bounds : ∀ s v, o.getBound s v = lastOf (mheBoundOf s v) calls (infOf s)
  sx : o.sx = (mheWantedCfg T S calls co).sx
  sp : o.sp = (mheWantedCfg T S calls co).sp
  su : o.su = (mheWantedCfg T S calls co).su
  sz : o.sz = (mheWantedCfg T S calls co).sz

/-- `_setup_nl_cons` and `_check_validity` keep the configured attributes. -/
theorem mhe_prepare_keeps (o o1 : MheObj K d ne ns) (h : o.prepare T = (o1, none)) :
    (∀ co, o1.cfg T co = o.cfg T co) ∧ o1.cost = o.cost ∧ o1.set = o.set ∧ (∀ s v, o1.getBound s v = o.getBound s v) ∧ o1.sx = o.sx ∧ o1.sp = o.sp ∧ o1.su = o.su ∧ o1.sz = o.sz := by
  have hs : ∀ o : MheObj K d ne ns, (∀ co, o.setupNlCons.1.cfg T co = o.cfg T co) ∧ o.setupNlCons.1.cost = o.cost ∧ o.setupNlCons.1.set = o.set ∧
      (∀ s v, o.setupNlCons.1.getBound s v = o.getBound s v) ∧ o.setupNlCons.1.sx = o.sx ∧ o.setupNlCons.1.sp = o.sp ∧ o.setupNlCons.1.su = o.su ∧ o.setupNlCons.1.sz = o.sz := by
    intro o
    unfold MheObj.setupNlCons
    dsimp only
    split <;> exact ⟨fun _ => rfl, rfl, rfl, fun s v => by cases s <;> cases v <;> rfl, rfl, rfl, rfl, rfl⟩
  have hv : ∀ o : MheObj K d ne ns, (∀ co, o.checkValidity.1.cfg T co = o.cfg T co) ∧ o.checkValidity.1.cost = o.cost ∧ o.checkValidity.1.set = o.set ∧
      (∀ s v, o.checkValidity.1.getBound s v = o.getBound s v) ∧ o.checkValidity.1.sx = o.sx ∧ o.checkValidity.1.sp = o.sp ∧ o.checkValidity.1.su = o.su ∧ o.checkValidity.1.sz = o.sz := by
    intro o
    unfold MheObj.checkValidity
    repeat' (first | split | dsimp only)
    all_goals exact ⟨fun _ => rfl, rfl, rfl, fun s v => by cases s <;> cases v <;> rfl, rfl, rfl, rfl, rfl⟩
  unfold MheObj.prepare at h
  have h1 := hs o
  rcases hsn : o.setupNlCons with ⟨o3, _ | e⟩
  · rw [hsn] at h h1
    dsimp only at h h1
    have h2 := hv o3
    rcases hcv : o3.checkValidity with ⟨o2, _ | e⟩
    · rw [hcv] at h h2
      dsimp only at h h2
      split at h
      · simp at h
      · split at h
        · simp at h
        · simp only [Prod.mk.injEq, and_true] at h
          rw [← h]
          refine ⟨fun co => (h2.1 co).trans (h1.1 co), h2.2.1.trans h1.2.1, h2.2.2.1.trans h1.2.2.1, fun s v => ?_, h2.2.2.2.2.1.trans h1.2.2.2.2.1,
            h2.2.2.2.2.2.1.trans h1.2.2.2.2.2.1, h2.2.2.2.2.2.2.1.trans h1.2.2.2.2.2.2.1, h2.2.2.2.2.2.2.2.trans h1.2.2.2.2.2.2.2⟩
          rw [← h1.2.2.2.1, ← h2.2.2.2.1]
          cases s <;> cases v <;> rfl
    · rw [hcv] at h; simp at h
  · rw [hsn] at h; simp at h

theorem mheAfter_setup (S : MheSettings K) (ops : List (MheOp K d ne ns)) (h : ∀ op ∈ ops, MheConfigures op)
    (hs : (((MheObj.new S : MheObj K d ne ns).run T ops).exec T .setup).2 = none) :
    ∃ co, MheAfter T S ops co (((MheObj.new S : MheObj K d ne ns).run T ops).exec T .setup).1 := by
  have F := mheConf_run T S ops h
  set o := (MheObj.new S : MheObj K d ne ns).run T ops with ho
  simp only [MheObj.exec] at hs ⊢
  rcases hp : o.prepare T with ⟨o1, _ | e⟩
  · obtain ⟨co, hco, hpr, hcat⟩ := mhe_prepare_ok T o o1 hp
    obtain ⟨k1, k2, k3, k4, k5, k6, k7, k8⟩ := mhe_prepare_keeps T o o1 hp
    have hcfg : o1.cfg T co = mheWantedCfg T S ops co := by
      rw [k1]
      have b1 : o.xlb = fun j => lastOf (mheBoundOf .lower (.x j)) ops .ninf := funext fun j => F.bounds .lower (.x j)
      have b2 : o.xub = fun j => lastOf (mheBoundOf .upper (.x j)) ops .pinf := funext fun j => F.bounds .upper (.x j)
      have b3 : o.ulb = fun j => lastOf (mheBoundOf .lower (.u j)) ops .ninf := funext fun j => F.bounds .lower (.u j)
      have b4 : o.uub = fun j => lastOf (mheBoundOf .upper (.u j)) ops .pinf := funext fun j => F.bounds .upper (.u j)
      have b5 : o.zlb = fun j => lastOf (mheBoundOf .lower (.z j)) ops .ninf := funext fun j => F.bounds .lower (.z j)
      have b6 : o.zub = fun j => lastOf (mheBoundOf .upper (.z j)) ops .pinf := funext fun j => F.bounds .upper (.z j)
      have b7 : o.plb = fun j => lastOf (mheBoundOf .lower (.p j)) ops .ninf := funext fun j => F.bounds .lower (.p j)
      have b8 : o.pub = fun j => lastOf (mheBoundOf .upper (.p j)) ops .pinf := funext fun j => F.bounds .upper (.p j)
      unfold MheObj.cfg mheWantedCfg
      rw [F.set, F.nl, funext F.sx, funext F.su, funext F.sz, funext F.sp, b1, b2, b3, b4, b5, b6, b7, b8]
    refine ⟨co, ?_⟩
    dsimp only
    have hcr : o1.create = ({ o1 with solver := some ⟨(o1.cfg T co).obj, (o1.cfg T co).rows⟩, setup := true, cat := true }, none) := by
      unfold MheObj.create
      rw [hpr]
      simp [hcat]
    rw [hcr]
    refine ⟨?_, k3.trans F.set, rfl, rfl, by rw [← hcfg], ⟨_, hpr, by rw [← hcfg], by rw [← hcfg], by rw [← hcfg]; rfl⟩, fun s v => ?_, ?_, ?_, ?_, ?_⟩
    · rw [← F.cost, ← k2, hco]
    · rw [← F.bounds, ← k4]
      cases s <;> cases v <;> rfl
    · exact k5.trans (funext F.sx)
    · exact k6.trans (funext F.sp)
    · exact k7.trans (funext F.su)
    · exact k8.trans (funext F.sz)
  · rw [hp] at hs; simp at hs

theorem mheAfter_same (S : MheSettings K) (calls : List (MheOp K d ne ns)) (co : MheCost K d ne ns) (o o' : MheObj K d ne ns) (h : MheAfter T S calls co o)
    (e1 : o'.set = o.set) (e2 : o'.setup = o.setup) (e3 : o'.cat = o.cat) (e4 : o'.solver = o.solver) (e5 : o'.prep = o.prep)
    (e6 : ∀ s v, o'.getBound s v = o.getBound s v) (e7 : o'.sx = o.sx) (e8 : o'.sp = o.sp) (e9 : o'.su = o.su) (e10 : o'.sz = o.sz) : MheAfter T S calls co o' := by
  obtain ⟨h0, h1, h2, h3, h4, ⟨P, hP, p1, p2, p3⟩, h6, h7, h8, h9, h10⟩ := h
  refine ⟨h0, e1.trans h1, e2.trans h2, e3.trans h3, e4.trans h4, ⟨P, e5.trans hP, p1, p2, ?_⟩, fun s v => (e6 s v).trans (h6 s v), e7.trans h7, e8.trans h8, e9.trans h9, e10.trans h10⟩
  rw [← p3]
  unfold MheObj.withBounds
  have b1 : o'.xlb = o.xlb := funext fun j => e6 .lower (.x j)
  have b2 : o'.xub = o.xub := funext fun j => e6 .upper (.x j)
  have b3 : o'.ulb = o.ulb := funext fun j => e6 .lower (.u j)
  have b4 : o'.uub = o.uub := funext fun j => e6 .upper (.u j)
  have b5 : o'.zlb = o.zlb := funext fun j => e6 .lower (.z j)
  have b6 : o'.zub = o.zub := funext fun j => e6 .upper (.z j)
  have b7 : o'.plb = o.plb := funext fun j => e6 .lower (.p j)
  have b8 : o'.pub = o.pub := funext fun j => e6 .upper (.p j)
  rw [b1, b2, b3, b4, b5, b6, b7, b8]

theorem mheAfter_step (S : MheSettings K) (calls : List (MheOp K d ne ns)) (co : MheCost K d ne ns) (o : MheObj K d ne ns) (h : MheAfter T S calls co o)
    (op : MheOp K d ne ns) (hop : MheLater op) : MheAfter T S (calls ++ [op].filter mheIsBound) co (o.exec T op).1 := by
  by_cases hg : op.guarded
  · rw [C86_guarded T o h.isSet op hg]
    have : [op].filter mheIsBound = [] := by cases op <;> first | rfl | exact hg.elim
    rw [this, List.append_nil]
    exact h
  · cases op with
    | makeStep y0 =>
      rw [show [MheOp.makeStep y0].filter (mheIsBound (K := K) (d := d) (ne := ne) (ns := ns)) = [] from rfl, List.append_nil]
      obtain ⟨t, Tm, ys, e⟩ := mhe_step_fields o y0
      simp only [MheObj.exec]
      split <;> rename_i o1 _ he <;> (rw [he] at e; dsimp only at e; rw [e])
      all_goals exact mheAfter_same T S calls co o _ h rfl rfl rfl rfl rfl (fun s v => by cases s <;> cases v <;> rfl) rfl rfl rfl rfl
    | resetHistory =>
      rw [show [MheOp.resetHistory].filter (mheIsBound (K := K) (d := d) (ne := ne) (ns := ns)) = [] from rfl, List.append_nil]
      exact mheAfter_same T S calls co o _ h rfl rfl rfl rfl rfl (fun s v => by cases s <;> cases v <;> rfl) rfl rfl rfl rfl
    | setTvpFun f b =>
      rw [show [MheOp.setTvpFun f b].filter (mheIsBound (K := K) (d := d) (ne := ne) (ns := ns)) = [] from rfl, List.append_nil]
      cases b <;> exact mheAfter_same T S calls co o _ h rfl rfl rfl rfl rfl (fun s v => by cases s <;> cases v <;> rfl) rfl rfl rfl rfl
    | setPFun f b =>
      rw [show [MheOp.setPFun f b].filter (mheIsBound (K := K) (d := d) (ne := ne) (ns := ns)) = [] from rfl, List.append_nil]
      cases b <;> exact mheAfter_same T S calls co o _ h rfl rfl rfl rfl rfl (fun s v => by cases s <;> cases v <;> rfl) rfl rfl rfl rfl
    | setYFun f b =>
      rw [show [MheOp.setYFun f b].filter (mheIsBound (K := K) (d := d) (ne := ne) (ns := ns)) = [] from rfl, List.append_nil]
      cases b <;> exact mheAfter_same T S calls co o _ h rfl rfl rfl rfl rfl (fun s v => by cases s <;> cases v <;> rfl) rfl rfl rfl rfl
    | create =>
      rw [show [MheOp.create].filter (mheIsBound (K := K) (d := d) (ne := ne) (ns := ns)) = [] from rfl, List.append_nil]
      obtain ⟨P, hP, -⟩ := h.prep
      have : (o.exec T .create).1 = o := by simp [MheObj.exec, MheObj.create, hP, h.cat]
      rw [this]
      exact h
    | bound s v b =>
      rw [show [MheOp.bound s v b].filter (mheIsBound (K := K) (d := d) (ne := ne) (ns := ns)) = [.bound s v b] from rfl]
      obtain ⟨h0, h1, h2, h3, h4, ⟨P, hP, p1, p2, p3⟩, h6, h7, h8, h9, h10⟩ := h
      have hsy : o.Synced P.cfg := by
        refine ⟨P, hP, rfl, ?_, ?_, by rw [p1, p3], by rw [p2, p3]⟩
        · have := congrArg MheCfg.N p3
          exact this.trans (congrArg MheSettings.N h1).symm
        · have := congrArg MheCfg.consColloc p3
          exact this.trans (congrArg MheSettings.consColloc h1).symm
      obtain ⟨P', q1, q2, -, -, q3, q4⟩ := mhe_synced_step T o P.cfg hsy (.bound s v b) trivial
      have hfields : let o' := (o.exec T (.bound s v b)).1
          o'.set = o.set ∧ o'.setup = o.setup ∧ o'.cat = o.cat ∧ o'.solver = o.solver ∧ o'.sx = o.sx ∧ o'.sp = o.sp ∧ o'.su = o.su ∧ o'.sz = o.sz := by
        cases s <;> cases v <;> exact ⟨rfl, rfl, rfl, rfl, rfl, rfl, rfl, rfl⟩
      have hrb := C86_bounds_read_back T o s v b
      set o' := (o.exec T (.bound s v b)).1 with ho'
      obtain ⟨a1, a2, a3, a4, a5, a6, a7, a8⟩ := hfields
      set calls' := calls ++ [MheOp.bound s v b] with hcalls
      have eset : lastOf mheSettingsOf calls' S = lastOf mheSettingsOf calls S := lastOf_snoc_none _ _ _ _ rfl
      have esc : ∀ v, lastOf (mheScalingOf v) calls' 1 = lastOf (mheScalingOf v) calls 1 := fun v => lastOf_snoc_none _ _ _ _ rfl
      have enl : calls'.filterMap mheNlConsOf = calls.filterMap mheNlConsOf := by simp [hcalls, mheNlConsOf]
      have hb' : ∀ s v, o'.getBound s v = lastOf (mheBoundOf s v) calls' (infOf s) := by
        intro s' v'
        rw [hcalls, lastOf_snoc, ← h6]
        by_cases he : s = s' ∧ v = v'
        · obtain ⟨rfl, rfl⟩ := he
          rw [hrb.2.1]
          simp [mheBoundOf]
        · rw [hrb.2.2 s' v' (fun hc => he (by simp only [Prod.mk.injEq] at hc; exact ⟨hc.1.symm, hc.2.symm⟩))]
          simp [mheBoundOf, he]
      have hw : o'.withBounds (mheWantedCfg T S calls co) = mheWantedCfg T S calls' co := by
        have b1 : o'.xlb = fun j => lastOf (mheBoundOf .lower (.x j)) calls' .ninf := funext fun j => hb' .lower (.x j)
        have b2 : o'.xub = fun j => lastOf (mheBoundOf .upper (.x j)) calls' .pinf := funext fun j => hb' .upper (.x j)
        have b3 : o'.ulb = fun j => lastOf (mheBoundOf .lower (.u j)) calls' .ninf := funext fun j => hb' .lower (.u j)
        have b4 : o'.uub = fun j => lastOf (mheBoundOf .upper (.u j)) calls' .pinf := funext fun j => hb' .upper (.u j)
        have b5 : o'.zlb = fun j => lastOf (mheBoundOf .lower (.z j)) calls' .ninf := funext fun j => hb' .lower (.z j)
        have b6 : o'.zub = fun j => lastOf (mheBoundOf .upper (.z j)) calls' .pinf := funext fun j => hb' .upper (.z j)
        have b7 : o'.plb = fun j => lastOf (mheBoundOf .lower (.p j)) calls' .ninf := funext fun j => hb' .lower (.p j)
        have b8 : o'.pub = fun j => lastOf (mheBoundOf .upper (.p j)) calls' .pinf := funext fun j => hb' .upper (.p j)
        simp only [MheObj.withBounds, mheWantedCfg, b1, b2, b3, b4, b5, b6, b7, b8, eset, esc, enl]
      have hw2 : o'.withBounds P.cfg = mheWantedCfg T S calls' co := by
        rw [← hw, ← p3]; rfl
      refine ⟨?_, ?_, a2.trans h2, a3.trans h3, ?_, ⟨P', q1, ?_, ?_, ?_⟩, hb', ?_, ?_, ?_, ?_⟩
      · rw [hcalls, lastOf_snoc_none _ _ _ _ rfl]; exact h0
      · rw [eset, ← h1]; exact a1
      · rw [← hw]
        exact a4.trans h4
      · rw [q3, hw2]
      · rw [q4, hw2]
      · rw [q2, hw2]
      · rw [← hw]
        exact a5.trans h7
      · rw [← hw]
        exact a6.trans h8
      · rw [← hw]
        exact a7.trans h9
      · rw [← hw]
        exact a8.trans h10
    | settings _ => exact hop.elim
    | optBound _ _ _ => exact hop.elim
    | prepare => exact hop.elim
    | setup => exact hop.elim
    | _ => exact (hg trivial).elim

theorem mheAfter_run (S : MheSettings K) (co : MheCost K d ne ns) (ops : List (MheOp K d ne ns)) : ∀ (calls : List (MheOp K d ne ns)) (o : MheObj K d ne ns),
    MheAfter T S calls co o → (∀ op ∈ ops, MheLater op) → MheAfter T S (calls ++ ops.filter mheIsBound) co (o.run T ops) := by
  induction ops with
  | nil => intro calls o h _; rw [List.filter_nil, List.append_nil]; exact h
  | cons op ops ih =>
    intro calls o h hl
    have := ih _ _ (mheAfter_step T S calls co o h op (hl op (by simp))) (fun p hp => hl p (by simp [hp]))
    have e : calls ++ (op :: ops).filter mheIsBound = calls ++ [op].filter mheIsBound ++ ops.filter mheIsBound := by
      rw [List.append_assoc, ← List.filter_append]; rfl
    rw [e]
    exact this

theorem mheAfter_feasible (S : MheSettings K) (calls : List (MheOp K d ne ns)) (co : MheCost K d ne ns) (o : MheObj K d ne ns) (h : MheAfter T S calls co o)
    (w : MheX K d ne) (q : MheP K d ne ns) : MheSolverFeasible o w q ↔ (mheWantedCfg T S calls co).Feasible w q := by
  obtain ⟨P, hP, p1, p2, p3⟩ := h.prep
  have key : MheWithinBounds P w ↔ (mheWantedCfg T S calls co).InBounds w := by
    unfold MheWithinBounds MheCfg.InBounds
    rw [p1, p2, ← p3]
    exact Iff.rfl
  constructor
  · rintro ⟨F, P', rs, h1, h2, h3, h4, h5⟩
    obtain rfl : P = P' := Option.some.inj (hP.symm.trans h2)
    obtain rfl := Option.some.inj (h.solver.symm.trans h1)
    exact ⟨rs, h3, h4, key.1 h5⟩
  · rintro ⟨rs, h1, h2, h3⟩
    exact ⟨_, P, rs, h.solver, hP, h1, h2, key.2 h3⟩

theorem mheAfter_minimises (S : MheSettings K) (calls : List (MheOp K d ne ns)) (co : MheCost K d ne ns) (o : MheObj K d ne ns) (h : MheAfter T S calls co o)
    (w : MheX K d ne) (q : MheP K d ne ns) : MheSolverMinimises o w q ↔ (mheWantedCfg T S calls co).Solves w q := by
  unfold MheSolverMinimises MheCfg.Solves
  simp only [mheAfter_feasible T S calls co o h]
  refine and_congr Iff.rfl ⟨fun h1 w' hw' => h1 _ h.solver w' hw', fun h1 F hF w' hw' => ?_⟩
  obtain rfl := Option.some.inj (h.solver.symm.trans hF)
  exact h1 w' hw'

/-- the estimate, in terms of the configuration -/
theorem mheAfter_estimate (S : MheSettings K) (calls : List (MheOp K d ne ns)) (co : MheCost K d ne ns) (o : MheObj K d ne ns) (h : MheAfter T S calls co o)
    (w : MheX K d ne) : o.estimate w = some ((mheWantedCfg T S calls co).X w (mheWantedCfg T S calls co).N, (mheWantedCfg T S calls co).pEstPhys w) := by
  obtain ⟨P, hP, p1, p2, p3⟩ := h.prep
  unfold MheObj.estimate
  rw [hP, h.sx, h.sp, Option.map_some, ← p3]
  rfl

/-- **C97** (discrete-time models): configure a new estimator by any calls, `setup()`, then assign bounds and functions, make steps, reset the history and try refused calls
in any order: if the solver answers with a global minimiser, the state `make_step` returns and the parameters it stores are the last state and the parameters of a best
explanation of the data for the estimation problem that the calls ask for – settings, bounds, scaling and costs given last, all constraints. -/
theorem C97_estimate (S : MheSettings K) (ops1 ops2 : List (MheOp K d ne ns)) (h1 : ∀ op ∈ ops1, MheConfigures op) (h2 : ∀ op ∈ ops2, MheLater op)
    (hT : ∀ s sx su sz sp, T.ifcn s sx su sz sp = discreteIfcn T.model sx su sz sp) :
    let o1 := (MheObj.new S : MheObj K d ne ns).run T ops1
    let o := o1.run T (.setup :: ops2)
    let calls := ops1 ++ ops2.filter mheIsBound
    (o1.exec T .setup).2 = none → PlainMheCalls S calls →
      ∃ co, lastOf (fun op => (mheCostOf op).map some) ops1 none = some co ∧
        (∀ q w, MheSolverMinimises o w q → ∃ e, (mheConfigured S calls co T.model T.sel).Optimal (dataOf q) e ∧
          o.estimate w = some (e.X (lastOf mheSettingsOf calls S).N, e.p)) ∧
        ∀ q, (∃ w, MheSolverFeasible o w q) ↔ ∃ e, (mheConfigured S calls co T.model T.sel).Admissible (dataOf q) e := by
  intro o1 o calls hs hp
  obtain ⟨co, ha⟩ := mheAfter_setup T S ops1 h1 hs
  have hf := mheAfter_run T S co ops2 ops1 _ ha h2
  have hpl : (mheWantedCfg T S calls co).Plain :=
    { ifcn := hT _ _ _ _ _, nlColloc := hp.noColl, consColloc := hp.allPoints, names := hp.names, sp := funext hp.sp, sx := hp.sx, su := hp.su, sz := hp.sz,
      N := hp.horizon }
  have hfe := mheAfter_feasible T S calls co o hf
  refine ⟨co, ha.cost, fun q w hw => ?_, fun q => ⟨?_, ?_⟩⟩
  · have hn := (mheAfter_minimises T S calls co o hf w q).1 hw
    exact ⟨_, (C72_minimiser_iff _ hpl w q).mp hn, mheAfter_estimate T S calls co o hf w⟩
  · rintro ⟨w, hw⟩
    exact ⟨_, (hpl.feasible_iff _ w q).mp ((hfe w q).1 hw)⟩
  · rintro ⟨e, he⟩
    obtain ⟨hX, hU, hZ, hW, hV, hpp, hE⟩ := hpl.explain_encode _ e he.2.2.2.2.2.2.2.1
    have := explanation_congr (mheWantedCfg T S calls co).task q.toData e _ hX hU hZ hW hV hpp hE he
    exact ⟨_, (hfe _ q).2 ((hpl.feasible_iff _ _ q).mpr this.1)⟩

/-- **C97** (continuous-time models, collocation): the same, for measurements that do not depend on the algebraic states. -/
theorem C97_estimate_collocation (S : MheSettings K) (deg ni : Nat) (tau : Nat → K) (htau : tau 0 = 0) (hinj : ∀ i ≤ deg, ∀ j ≤ deg, tau i = tau j → i = j)
    (ops1 ops2 : List (MheOp K d ne ns)) (h1 : ∀ op ∈ ops1, MheConfigures op) (h2 : ∀ op ∈ ops2, MheLater op)
    (hT : ∀ (s : MheSettings K) sx su sz sp, setupCollocation T.model sx su sz sp deg ni tau s.tStep = .ok (T.ifcn s sx su sz sp))
    (hmeas : ∀ x u z z' tv p v, T.model.meas x u z tv p v = T.model.meas x u z' tv p v) :
    let o1 := (MheObj.new S : MheObj K d ne ns).run T ops1
    let o := o1.run T (.setup :: ops2)
    let calls := ops1 ++ ops2.filter mheIsBound
    (o1.exec T .setup).2 = none → PlainMheCalls S calls →
      ∃ co, lastOf (fun op => (mheCostOf op).map some) ops1 none = some co ∧
        (∀ q w, MheSolverMinimises o w q → ∃ e, (mheConfiguredColl S calls co T.model T.sel deg ni tau).Optimal (dataOf q) e ∧
          o.estimate w = some (e.X (lastOf mheSettingsOf calls S).N, e.p)) ∧
        ∀ q, (∃ w, MheSolverFeasible o w q) ↔ ∃ e, (mheConfiguredColl S calls co T.model T.sel deg ni tau).Admissible (dataOf q) e := by
  intro o1 o calls hs hp
  obtain ⟨co, ha⟩ := mheAfter_setup T S ops1 h1 hs
  have hf := mheAfter_run T S co ops2 ops1 _ ha h2
  have hpl : (mheWantedCfg T S calls co).CollPlain deg ni tau (lastOf mheSettingsOf calls S).tStep :=
    { setup := hT _ _ _ _ _, tau0 := htau, tauInj := hinj, nlColloc := hp.noColl, consColloc := hp.allPoints, names := hp.names, sp := funext hp.sp, sx := hp.sx,
      su := hp.su, sz := hp.sz, N := hp.horizon, meas := hmeas }
  refine ⟨co, ha.cost, fun q w hw => ?_, fun q => ?_⟩
  · have hn := (mheAfter_minimises T S calls co o hf w q).1 hw
    obtain ⟨P, e⟩ := (C80_minimiser_is_best hpl q).1 w hn
    exact ⟨_, e, mheAfter_estimate T S calls co o hf w⟩
  · rw [show (∃ w, MheSolverFeasible o w q) ↔ _ from exists_congr fun w => mheAfter_feasible T S calls co o hf w q]
    exact (C80_minimiser_is_best hpl q).2.2

/-! ## Concrete calls -/
namespace MheLifeEx

def before : List (MheOp ℚ dd 1 0) := [.setObjective co, .bound .upper (.x 0) (.fin 9), .scaling (.x 0) 2]
/-- a refused call, a bound, a step, a measurement function -/
def later : List (MheOp ℚ dd 1 0) := [.setObjective co, .bound .upper (.x 0) (.fin 3), .makeStep [2], .setYFun (fun _ _ => 0) true]
def oEnd : MheObj ℚ dd 1 0 := ((MheObj.new (S 1)).run tools before).run tools (.setup :: later)

theorem before_ok : (∀ op ∈ before, MheConfigures op) ∧ (∀ op ∈ later, MheLater op) ∧ (((MheObj.new (S 1)).run tools before).exec tools .setup).2 = none :=
  ⟨by simp [before, MheConfigures], by simp [later, MheLater], by decide +kernel⟩

theorem plainCalls : PlainMheCalls (S 1) (before ++ later.filter mheIsBound) where
  horizon := by decide
  noColl := rfl
  allPoints := rfl
  names := by decide
  sx := by
    intro j
    obtain rfl : j = (0 : Fin 1) := Subsingleton.elim (α := Fin 1) _ _
    exact (by decide +kernel : (0 : ℚ) < 2)
  su := fun j => Fin.elim0 j
  sz := fun j => Fin.elim0 j
  sp := fun _ => rfl

/-- the parameter 2 and the state 1, hence the measurement 2 -/
def qEnd : MheP ℚ dd 1 0 := ⟨fun _ => 1, fun _ => 2, 0, fun _ => 0, fun _ _ => 2⟩
/-- the true explanation, scaled -/
def wEnd : MheX ℚ dd 1 := ⟨fun k _ _ => if k = 0 then 1 / 2 else 1, fun _ _ => 0, fun _ => 0, fun _ => 0, fun _ => 0, fun _ _ _ => 0, fun _ => 2⟩

theorem oEnd_after : MheAfter tools (S 1) (before ++ later.filter mheIsBound) co oEnd := by
  obtain ⟨co', ha⟩ := mheAfter_setup tools (S 1) before before_ok.1 before_ok.2.2
  have hc : some co' = some co := ha.cost.symm
  rw [Option.some.inj hc] at ha
  have hcons : ∀ (o : MheObj ℚ dd 1 0) (op : MheOp ℚ dd 1 0) (l : List (MheOp ℚ dd 1 0)), o.run tools (op :: l) = (o.exec tools op).1.run tools l := fun _ _ _ => rfl
  rw [oEnd, hcons]
  exact mheAfter_run tools (S 1) _ later before _ ha before_ok.2.1

/-- Non-vacuity of `C97_estimate`: the solver's problem has a global minimiser. -/
theorem oEnd_minimised : MheSolverMinimises oEnd wEnd qEnd := by
  rw [mheAfter_minimises tools _ _ co _ oEnd_after]
  refine ⟨?_, fun w' _ => ?_⟩
  · refine ⟨_, rfl, ?_, ?_⟩
    · decide +kernel
    · refine ⟨?_, ?_, ?_, ?_, ?_⟩ <;> decide +kernel
  · have : (mheWantedCfg tools (S 1) (before ++ later.filter mheIsBound) co).obj wEnd qEnd = 0 := by decide +kernel
    rw [this, C26_objective_partial _ rfl]
    refine add_nonneg (add_nonneg (sq_nonneg _) (sq_nonneg _)) (List.sum_nonneg fun a h => ?_)
    obtain ⟨k, -, rfl⟩ := List.mem_map.1 h
    exact le_of_eq (zero_add (0 : ℚ)).symm

-- the estimate is the true state; the bound given after `setup()` is the one of the configured problem
example : (oEnd.estimate wEnd).map (fun e => (e.1 0, e.2 0)) = some (2, 2) := by decide +kernel
example : (mheConfigured (S 1) (before ++ later.filter mheIsBound) co mm tools.sel).xub 0 = .fin 3 := rfl

end MheLifeEx
end DoMpc
