import Verif.Props.MheConfigured
import Verif.Props.MheLoopRuns
import Verif.Spec.MheLive

/-!
# C110: a configured estimator over its whole life
-/
set_option linter.unusedSectionVars false
namespace DoMpc
open Spec
variable {K : Type} [Field K] [LinearOrder K] [IsStrictOrderedRing K] {d : Dims} {ne ns : Nat}

section
variable (T : MheTools K d ne ns)

/-- only assignments to `bounds` -/
def OnlyBounds (bs : List (MheOp K d ne ns)) : Prop := ∀ op ∈ bs, mheIsBound op = true

theorem lastOf_bounds {β : Type} (ops bs : List (MheOp K d ne ns)) (hb : OnlyBounds bs) (f : MheOp K d ne ns → Option β) (v : β)
    (hf : ∀ s v b, f (.bound s v b) = none) : lastOf f (ops ++ bs) v = lastOf f ops v := by
  unfold lastOf
  rw [List.filterMap_append]
  have : bs.filterMap f = [] := by
    rw [List.filterMap_eq_nil_iff]
    intro a ha
    have := hb a ha
    cases a <;> first | exact hf _ _ _ | simp [mheIsBound] at this
  rw [this, List.append_nil]

theorem nl_bounds (ops bs : List (MheOp K d ne ns)) (hb : OnlyBounds bs) : (ops ++ bs).filterMap mheNlConsOf = ops.filterMap mheNlConsOf := by
  rw [List.filterMap_append]
  have : bs.filterMap mheNlConsOf = [] := by
    rw [List.filterMap_eq_nil_iff]
    intro a ha
    have := hb a ha
    cases a <;> first | rfl | simp [mheIsBound] at this
  rw [this, List.append_nil]

/-- Bounds do not matter for the restrictions on the calls. -/
theorem mhe_plain_bounds (S : MheSettings K) (ops bs : List (MheOp K d ne ns)) (hb : OnlyBounds bs) (h : PlainMheCalls S ops) : PlainMheCalls S (ops ++ bs) := by
  have k1 := lastOf_bounds ops bs hb mheSettingsOf S (fun _ _ _ => rfl)
  have k2 := fun v => lastOf_bounds ops bs hb (mheScalingOf v) (1 : K) (fun _ _ _ => rfl)
  have k3 := nl_bounds ops bs hb
  obtain ⟨h1, h2, h3, h4, h5, h6, h7, h8⟩ := h
  exact ⟨k1 ▸ h1, k1 ▸ h2, k1 ▸ h3, k3 ▸ h4, fun j => k2 _ ▸ h5 j, fun j => k2 _ ▸ h6 j, fun j => k2 _ ▸ h7 j, fun j => k2 _ ▸ h8 j⟩

theorem wanted_bounds (S : MheSettings K) (ops bs : List (MheOp K d ne ns)) (hb : OnlyBounds bs) (co : MheCost K d ne ns) :
    (mheWantedCfg T S (ops ++ bs) co).N = (mheWantedCfg T S ops co).N ∧ (mheWantedCfg T S (ops ++ bs) co).ifcn = (mheWantedCfg T S ops co).ifcn ∧
    (mheWantedCfg T S (ops ++ bs) co).sx = (mheWantedCfg T S ops co).sx := by
  have k1 := lastOf_bounds ops bs hb mheSettingsOf S (fun _ _ _ => rfl)
  have k2 := fun v => lastOf_bounds ops bs hb (mheScalingOf v) (1 : K) (fun _ _ _ => rfl)
  unfold mheWantedCfg
  simp only [k1, k2]
  exact ⟨trivial, trivial, trivial⟩

theorem lastOf_some_getD {α β : Type} (ops : List α) (f : α → Option β) (v : β) : (lastOf (fun op => (f op).map some) ops none).getD v = lastOf f ops v := by
  induction ops using List.reverseRecOn with
  | nil => rfl
  | append_singleton l a ih =>
    rw [lastOf_snoc, lastOf_snoc]
    cases f a with
    | none => simpa using ih
    | some b => simp

theorem lastOf_map {α β γ : Type} (ops : List α) (f : α → Option β) (g : β → γ) (v : β) : lastOf (fun op => (f op).map g) ops (g v) = g (lastOf f ops v) := by
  induction ops using List.reverseRecOn with
  | nil => rfl
  | append_singleton l a ih =>
    rw [lastOf_snoc, lastOf_snoc]
    cases f a with
    | none => simpa using ih
    | some b => simp

/-- `prepare_nlp` fills in missing functions -/
theorem mhe_prepare_functions (o o1 : MheObj K d ne ns) (h : o.prepare T = (o1, none)) :
    o1.tvpFun = some (o.tvpFun.getD fun _ _ => 0) ∧ o1.pFun = some (o.pFun.getD fun _ => 0) ∧ o1.yFun = some (o.yFun.getD (.dflt o.set.N)) := by
  have hs : o.setupNlCons.1.tvpFun = o.tvpFun ∧ o.setupNlCons.1.pFun = o.pFun ∧ o.setupNlCons.1.yFun = o.yFun ∧ o.setupNlCons.1.set = o.set := by
    unfold MheObj.setupNlCons
    dsimp only
    split <;> exact ⟨rfl, rfl, rfl, rfl⟩
  unfold MheObj.prepare at h
  rcases hsn : o.setupNlCons with ⟨o3, _ | e⟩
  · rw [hsn] at h hs
    dsimp only at h hs
    obtain ⟨h1, h2, h3, h4⟩ := hs
    rcases hcv : o3.checkValidity with ⟨o2, _ | e⟩
    · have hv : o2.tvpFun = some (o3.tvpFun.getD fun _ _ => 0) ∧ o2.pFun = some (o3.pFun.getD fun _ => 0) ∧ o2.yFun = some (o3.yFun.getD (.dflt o3.set.N)) := by
        unfold MheObj.checkValidity at hcv
        split at hcv
        · cases hcv
        split at hcv
        · cases hcv
        split at hcv
        · cases hcv
        split at hcv
        · cases hcv
        dsimp only at hcv
        split at hcv
        · rename_i hy
          cases hcv
          refine ⟨rfl, rfl, ?_⟩
          dsimp only
          rw [hy]
          rfl
        · rename_i hy
          split at hcv
          · cases hcv
            refine ⟨rfl, rfl, ?_⟩
            dsimp only
            rw [hy]
            rfl
          · cases hcv
      rw [hcv] at h
      dsimp only at h
      split at h
      · simp at h
      · split at h
        · simp at h
        · simp only [Prod.mk.injEq, and_true] at h
          rw [← h, ← h1, ← h2, ← h3, ← h4]
          exact hv
    · rw [hcv] at h; simp at h
  · rw [hsn] at h; simp at h

/-- the measurement function the object holds, in the words of the specification -/
def YAgrees (y : Option (MheYFun K d)) (f : Option (K → Nat → Vec K d.ny)) : Prop :=
  match f with
  | some f => y = some (.user f)
  | none => ∃ L, y = some (.dflt L)

/-- the functions the object holds after `setup()` -/
theorem mhe_setup_functions (S : MheSettings K) (ops : List (MheOp K d ne ns)) (h : ∀ op ∈ ops, MheConfigures op)
    (hs : (((MheObj.new S : MheObj K d ne ns).run T ops).exec T .setup).2 = none) :
    let o := (((MheObj.new S : MheObj K d ne ns).run T ops).exec T .setup).1
    o.tvpFun = some (lastOf mheTvpOf ops fun _ _ => 0) ∧ o.pFun = some (lastOf mhePOf ops fun _ => 0) ∧
    YAgrees o.yFun (lastOf (fun op => (mheYOf op).map some) ops none) := by
  have F := mheConf_run T S ops h
  set o := (MheObj.new S : MheObj K d ne ns).run T ops with ho
  simp only [MheObj.exec] at hs ⊢
  rcases hp : o.prepare T with ⟨o1, _ | e⟩
  · obtain ⟨k1, k2, k3⟩ := mhe_prepare_functions T o o1 hp
    obtain ⟨co, hco, hpr, hcat⟩ := mhe_prepare_ok T o o1 hp
    have hcr : o1.create = ({ o1 with solver := some ⟨(o1.cfg T co).obj, (o1.cfg T co).rows⟩, setup := true, cat := true }, none) := by
      unfold MheObj.create
      rw [hpr]
      simp [hcat]
    dsimp only
    rw [hcr]
    dsimp only
    rw [k1, k2, k3, F.tvp, F.p, F.y, lastOf_some_getD, lastOf_some_getD]
    refine ⟨rfl, rfl, ?_⟩
    have hm : (lastOf (fun op : MheOp K d ne ns => (mheYOf op).map fun f => some (MheYFun.user f)) ops none) =
        (lastOf (fun op => (mheYOf op).map some) ops none).map MheYFun.user := by
      have := lastOf_map ops (fun op : MheOp K d ne ns => (mheYOf op).map some) (fun y => y.map MheYFun.user) none
      simp only [Option.map_map, Option.map_none] at this
      rw [← this]
      rfl
    rw [hm]
    cases lastOf (fun op : MheOp K d ne ns => (mheYOf op).map some) ops none with
    | none => exact ⟨_, rfl⟩
    | some f => rfl
  · rw [hp] at hs; simp at hs

/-- What every history after `setup()` maintains. -/
structure MheLiveInv (E : MheEnv K d ne ns) (S : MheSettings K) (ops : List (MheOp K d ne ns)) (co : MheCost K d ne ns) (nEps : Nat) (M : Memory K d ne ns)
    (l : MheLive K d ne ns) : Prop where
  bs : OnlyBounds M.bounds
  after : MheAfter T S (ops ++ M.bounds) co l.obj
  tvp : l.obj.tvpFun = some M.tvpFun
  p : l.obj.pFun = some M.pFun
  y : YAgrees l.obj.yFun M.yFun
  setup : l.st.setup = true
  fields : l.st.data.fields = E.fields nEps
  time : l.st.t0 = M.t
  x : l.st.x0 = M.x
  pEst : l.st.pEst0 = M.p
  prior : (mheWantedCfg T S ops co).X l.st.optX 1 = M.prior
  ys : l.st.data.rows "_y" = M.ys

/-- The problem's best explanations are the minimisers of the solver's problem. -/
structure Means (S : MheSettings K) (ops : List (MheOp K d ne ns)) (co : MheCost K d ne ns) (B : BestExplanations K d ne ns) : Prop where
  N : B.N = (mheWantedCfg T S ops co).N
  tStep : B.tStep = (lastOf mheSettingsOf ops S).tStep
  sx : ∀ j, (mheWantedCfg T S ops co).sx j ≠ 0
  sound : ∀ bs, OnlyBounds bs → let c := mheWantedCfg T S (ops ++ bs) co
    ∀ w q, c.Solves w q → B.Best bs (dataOf q) (c.X w 1) (c.X w c.N) (c.pEstPhys w)
  complete : ∀ bs, OnlyBounds bs → ∀ q, (∃ x1 xN p, B.Best bs (dataOf q) x1 xN p) → ∃ w, (mheWantedCfg T S (ops ++ bs) co).Solves w q
  congr : ∀ bs, OnlyBounds bs → ∀ D y', (∀ k < B.N, D.y k = y' k) → ∀ x1 xN p, B.Best bs D x1 xN p ↔ B.Best bs { D with y := y' } x1 xN p

theorem onlyBounds_snoc (bs : List (MheOp K d ne ns)) (h : OnlyBounds bs) (s v b) : OnlyBounds (bs ++ [.bound s v b]) := by
  intro op hop
  rcases List.mem_append.1 hop with h' | h'
  · exact h op h'
  · simp at h'; subst h'; rfl

theorem live_config (E : MheEnv K d ne ns) (S : MheSettings K) (ops : List (MheOp K d ne ns)) (co : MheCost K d ne ns) (nEps : Nat) (M : Memory K d ne ns)
    (l : MheLive K d ne ns) (hi : MheLiveInv T E S ops co nEps M l) (op : MheOp K d ne ns) (hop : MheLater op) (h1 : ∀ y, op ≠ .makeStep y) (h2 : op ≠ .resetHistory) :
    MheLiveInv T E S ops co nEps (M.adjust op) ⟨(l.obj.exec T op).1, l.st⟩ := by
  obtain ⟨i0, i1, i2, i3, i4, i5, i6, i7, i8, i9, i10, i11⟩ := hi
  have ha := mheAfter_step T S _ co l.obj i1 op hop
  by_cases hg : op.guarded
  · rw [C86_guarded T l.obj i1.isSet op hg]
    have : M.adjust op = M := by cases op <;> first | rfl | exact hg.elim
    rw [this]
    exact ⟨i0, i1, i2, i3, i4, i5, i6, i7, i8, i9, i10, i11⟩
  · cases op with
    | bound s v b =>
      refine ⟨onlyBounds_snoc _ i0 _ _ _, ?_, ?_, ?_, ?_, i5, i6, i7, i8, i9, i10, i11⟩
      · simp only [Memory.adjust]
        rw [← List.append_assoc]
        exact ha
      all_goals
        simp only [MheObj.exec, Memory.adjust]
        cases s <;> cases v <;> assumption
    | setTvpFun f b =>
      rw [show [MheOp.setTvpFun f b].filter (mheIsBound (K := K) (d := d) (ne := ne) (ns := ns)) = [] from rfl, List.append_nil] at ha
      cases b
      · exact ⟨i0, ha, i2, i3, i4, i5, i6, i7, i8, i9, i10, i11⟩
      · exact ⟨i0, ha, rfl, i3, i4, i5, i6, i7, i8, i9, i10, i11⟩
    | setPFun f b =>
      rw [show [MheOp.setPFun f b].filter (mheIsBound (K := K) (d := d) (ne := ne) (ns := ns)) = [] from rfl, List.append_nil] at ha
      cases b
      · exact ⟨i0, ha, i2, i3, i4, i5, i6, i7, i8, i9, i10, i11⟩
      · exact ⟨i0, ha, i2, rfl, i4, i5, i6, i7, i8, i9, i10, i11⟩
    | setYFun f b =>
      rw [show [MheOp.setYFun f b].filter (mheIsBound (K := K) (d := d) (ne := ne) (ns := ns)) = [] from rfl, List.append_nil] at ha
      cases b
      · exact ⟨i0, ha, i2, i3, i4, i5, i6, i7, i8, i9, i10, i11⟩
      · exact ⟨i0, ha, i2, i3, rfl, i5, i6, i7, i8, i9, i10, i11⟩
    | create =>
      obtain ⟨P, hP, -⟩ := i1.prep
      have : (l.obj.exec T .create).1 = l.obj := by simp [MheObj.exec, MheObj.create, hP, i1.cat]
      rw [this]
      exact ⟨i0, i1, i2, i3, i4, i5, i6, i7, i8, i9, i10, i11⟩
    | makeStep y => exact (h1 y rfl).elim
    | resetHistory => exact (h2 rfl).elim
    | settings _ => exact hop.elim
    | optBound _ _ _ => exact hop.elim
    | prepare => exact hop.elim
    | setup => exact hop.elim
    | _ => exact (hg trivial).elim

theorem mhe_live_problem (S : MheSettings K) (calls : List (MheOp K d ne ns)) (co : MheCost K d ne ns) (o : MheObj K d ne ns) (h : MheAfter T S calls co o) :
    ∃ pb, o.problem = some pb ∧ o.prep = some pb.prep := by
  obtain ⟨P, hP, -⟩ := h.prep
  exact ⟨⟨_, P⟩, by simp only [MheObj.problem, h.solver, hP]; rfl, hP⟩

/-- the environment of the live object -/
theorem on_cfg (E : MheEnv K d ne ns) (S : MheSettings K) (ops bs : List (MheOp K d ne ns)) (hb : OnlyBounds bs) (co : MheCost K d ne ns) (o : MheObj K d ne ns)
    (h : MheAfter T S (ops ++ bs) co o) (P : MhePrepared K d ne ns) (hP : o.prep = some P) :
    let c := mheWantedCfg T S (ops ++ bs) co
    (E.on o P).cfg.N = c.N ∧ (∀ w k, (E.on o P).cfg.xPhys w k (E.on o P).cfg.xLast = c.X w k) ∧ (∀ w, (E.on o P).cfg.pEstPhys w = c.pEstPhys w) ∧
    (E.on o P).tStep = (lastOf mheSettingsOf ops S).tStep ∧ (∀ w k, c.X w k = (mheWantedCfg T S ops co).X w k) ∧ (E.on o P).cfg.sx = (mheWantedCfg T S ops co).sx := by
  intro c
  obtain ⟨P', hP', -, -, p3⟩ := h.prep
  obtain rfl := Option.some.inj (hP.symm.trans hP')
  obtain ⟨w1, w2, w3⟩ := wanted_bounds T S ops bs hb co
  refine ⟨(show (o.withBounds P.cfg).N = c.N from congrArg MheCfg.N p3), fun w k => ?_, fun w => ?_, ?_, fun w k => ?_, h.sx.trans w3⟩
  · have hl : P.cfg.xLast = c.xLast := show (o.withBounds P.cfg).xLast = c.xLast from congrArg MheCfg.xLast p3
    show w.x k P.cfg.xLast * o.sx = w.x k c.xLast * c.sx
    rw [hl, h.sx]
  · show w.pEst * o.sp = w.pEst * c.sp
    rw [h.sp]
  · show o.set.tStep = _
    rw [h.set, lastOf_bounds ops bs hb mheSettingsOf S (fun _ _ _ => rfl)]
  · show w.x k c.ifcn.ncoll * c.sx = w.x k (mheWantedCfg T S ops co).ifcn.ncoll * (mheWantedCfg T S ops co).sx
    rw [w2, w3]

theorem live_mheStep (E : MheEnv K d ne ns) (hst : ∀ s ∈ E.storeStats, s ∈ validStats) (S : MheSettings K) (ops : List (MheOp K d ne ns)) (co : MheCost K d ne ns)
    (B : BestExplanations K d ne ns) (hB : Means T S ops co B) (nEps : Nat) (M : Memory K d ne ns)
    (l : MheLive K d ne ns) (hi : MheLiveInv T E S ops co nEps M l) (y : List K) (Sv : MheSolver K d ne ns E.nLagr) (hS : GlobalSolver E.storeStats Sv) :
    ∃ M', Reacts B M (.step y Sv, (l.exec T E (.step y Sv)).2) M' ∧ MheLiveInv T E S ops co nEps M' (l.exec T E (.step y Sv)).1 := by
  obtain ⟨i0, i1, i2, i3, i4, i5, i6, i7, i8, i9, i10, i11⟩ := hi
  by_cases hy : y.length = d.ny
  · obtain ⟨pb, hpb, hP⟩ := mhe_live_problem T S _ co l.obj i1
    obtain ⟨c1, c2, c3, c4, c5, c6⟩ := on_cfg T E S ops M.bounds i0 co l.obj i1 pb.prep hP
    set c := mheWantedCfg T S (ops ++ M.bounds) co with hc
    set EE := E.on l.obj pb.prep with hEE
    have hms : l.makeStep E Sv y = (⟨l.obj, (EE.makeStep (Sv pb) l.st y).1⟩, (EE.makeStep (Sv pb) l.st y).2) := by
      unfold MheLive.makeStep
      rw [if_neg, hpb]
      rintro (e | e)
      · rw [i1.isSet] at e; cases e
      · exact e hy
    have hfields : l.st.data.fields = EE.fields nEps := i6
    have hwy : l.st.data.width "_y" = some d.ny := (mhe_width_standard EE nEps l.st.data hfields).2.1
    obtain ⟨x, hx⟩ := (C81_make_step_succeeds_iff EE hst (Sv pb) l.st nEps hfields i5 y).2 ⟨hy, fun s hs hm => hS.2 pb _ s hs hm⟩
    obtain ⟨-, hxe, hst'⟩ := EE.makeStep_ok (Sv pb) l.st y x hwy hx
    have hdata := EE.makeStep_data hst (Sv pb) l.st y x hwy hx
    have hkeep := EE.makeStep_keeps (Sv pb) l.st nEps hfields i5 y
    set w := (Sv pb (EE.args l.st y)).x with hw
    have hex : l.exec T E (.step y Sv) = (⟨l.obj, (EE.makeStep (Sv pb) l.st y).1⟩, some (.ok x)) := by
      show ((l.makeStep E Sv y).1, some (l.makeStep E Sv y).2) = _
      rw [hms, hx]
    have hx' : x = c.X w c.N := by rw [hxe, c1]; exact c2 w c.N
    have hB1 : B.N = c.N := hB.N.trans (wanted_bounds T S ops M.bounds i0 co).1.symm
    rw [hex]
    refine ⟨{ M with ys := M.ys ++ [y], t := M.t + B.tStep, x := x, p := c.pEstPhys w, prior := c.X w 1 }, ?_, ?_⟩
    · simp only [Reacts]
      rw [if_pos hy]
      refine ⟨c.X w 1, x, c.pEstPhys w, rfl, rfl, fun hbest => ?_⟩
      -- the data of the problem
      set q := (EE.args l.st y).p with hq
      have hqy : ∀ k < B.N, (({ M with ys := M.ys ++ [y] } : Memory K d ne ns).data B.N).y k = q.yMeas k := by
        intro k hk
        have hqd : q.yMeas = EE.yTraj l.st.t0 (l.st.data.rows "_y" ++ [y]) l.st.yTmpl := rfl
        rw [hqd]
        unfold MheEnv.yTraj Memory.data
        unfold YAgrees at i4
        dsimp only
        cases hyf : M.yFun with
        | some f =>
          rw [hyf] at i4
          have : EE.yFun = some f := by simp only [hEE, MheEnv.on, i4]
          rw [this, i7]
        | none =>
          rw [hyf] at i4
          obtain ⟨L, hL⟩ := i4
          have : EE.yFun = none := by simp only [hEE, MheEnv.on, hL]
          rw [this, i11]
          dsimp only
          rw [defaultYFun_eq _ _ (by simp) _ k (by rw [c1, ← hB1]; exact hk), c1, ← hB1]
          rfl
      have hqD : { ({ M with ys := M.ys ++ [y] } : Memory K d ne ns).data B.N with y := q.yMeas } = dataOf q := by
        have e1 : q.xPrev = M.prior := by
          rw [← i10, ← c5]
          exact c2 l.st.optX 1
        have e2 : q.pEstPrev = M.p := i9
        have e3 : q.pSet = M.pFun M.t := by
          show EE.pFun l.st.t0 = _
          rw [i7]
          simp only [hEE, MheEnv.on, i3, Option.getD_some]
        have e4 : q.tvp = M.tvpFun M.t := by
          show EE.tvpFun l.st.t0 = _
          rw [i7]
          simp only [hEE, MheEnv.on, i2, Option.getD_some]
        unfold dataOf Memory.data
        rw [e1, e2, e3, e4]
      have key : ∀ x1 xN p, B.Best M.bounds (({ M with ys := M.ys ++ [y] } : Memory K d ne ns).data B.N) x1 xN p ↔ B.Best M.bounds (dataOf q) x1 xN p := by
        intro x1 xN p
        rw [hB.congr _ i0 _ _ hqy, hqD]
      rw [key, hx']
      simp only [key] at hbest
      apply hB.sound M.bounds i0
      rw [← mheAfter_minimises T S _ co l.obj i1]
      apply hS.1 l.obj pb hpb
      obtain ⟨w', hw'⟩ := hB.complete M.bounds i0 q hbest
      exact ⟨w', (mheAfter_minimises T S _ co l.obj i1 w' q).2 hw'⟩
    · refine ⟨i0, i1, i2, i3, i4, hkeep.1, hkeep.2, ?_, ?_, ?_, ?_, ?_⟩
      · simp only; rw [hst', hB.tStep, ← c4, i7]
      · simp only; rw [hst']
      · simp only; rw [hst']; exact c3 w
      · simp only; rw [hst']; exact (c5 w 1).symm
      · simp only; rw [hdata.1, i11]
  · have hex : l.exec T E (.step y Sv) = (l, some (.error "AssertionError")) := by
      show ((l.makeStep E Sv y).1, some (l.makeStep E Sv y).2) = _
      unfold MheLive.makeStep
      rw [if_pos (.inr hy)]
    rw [hex]
    refine ⟨M, ?_, i0, i1, i2, i3, i4, i5, i6, i7, i8, i9, i10, i11⟩
    simp only [Reacts]
    rw [if_neg hy]
    exact ⟨trivial, trivial⟩

/-- solvers of the steps -/
def StepsSolved {n : Nat} (names : List String) : MheLiveEv K d ne ns n → Prop
  | .step _ S => GlobalSolver names S
  | _ => True

theorem live_exec (E : MheEnv K d ne ns) (hst : ∀ s ∈ E.storeStats, s ∈ validStats) (S : MheSettings K) (ops : List (MheOp K d ne ns)) (co : MheCost K d ne ns)
    (B : BestExplanations K d ne ns) (hB : Means T S ops co B) (nEps : Nat) (M : Memory K d ne ns)
    (l : MheLive K d ne ns) (hi : MheLiveInv T E S ops co nEps M l) (e : MheLiveEv K d ne ns E.nLagr) (he : MheLaterEv e) (hS : StepsSolved E.storeStats e) :
    ∃ M', Reacts B M (e, (l.exec T E e).2) M' ∧ MheLiveInv T E S ops co nEps M' (l.exec T E e).1 := by
  cases e with
  | step y Sv => exact live_mheStep T E hst S ops co B hB nEps M l hi y Sv hS
  | config op =>
    have h1 : ∀ y, op ≠ .makeStep y := by rintro y rfl; exact he
    have h2 : op ≠ .resetHistory := by rintro rfl; exact he
    have h3 : MheLater op := by cases op <;> first | exact he | exact he.elim
    exact ⟨M.adjust op, rfl, live_config T E S ops co nEps M l hi op h3 h1 h2⟩
  | reset =>
    obtain ⟨i0, i1, i2, i3, i4, i5, i6, i7, i8, i9, i10, i11⟩ := hi
    have hwy : l.st.data.width "_y" = some d.ny := (mhe_width_standard E nEps l.st.data i6).2.1
    refine ⟨_, rfl, i0, i1, i2, i3, i4, i5, i6, rfl, i8, i9, i10, ?_⟩
    simp [MheLive.exec, MheSt.resetHistory, Data.initStorage, hwy]
  | guess =>
    obtain ⟨i0, i1, i2, i3, i4, i5, i6, i7, i8, i9, i10, i11⟩ := hi
    obtain ⟨P, hP, -⟩ := i1.prep
    obtain ⟨c1, c2, c3, c4, c5, c6⟩ := on_cfg T E S ops M.bounds i0 co l.obj i1 P hP
    have hex : l.exec T E .guess = (⟨l.obj, ((E.on l.obj P).setInitialGuess l.st).1⟩, none) := by simp only [MheLive.exec, hP]
    rw [hex]
    have hg : (E.on l.obj P).setInitialGuess l.st = ({ l.st with
        optX := { l.st.optX with x := fun _ _ => l.st.x0 / (E.on l.obj P).cfg.sx, u := fun _ => l.st.u0 / (E.on l.obj P).cfg.su, z := fun _ _ => l.st.z0 / (E.on l.obj P).cfg.sz,
                                 pEst := l.st.pEst0 / (E.on l.obj P).cfg.sp }, guessSet := true }, none) := by
      unfold MheEnv.setInitialGuess
      rw [if_neg (by simp [i5])]
    rw [hg]
    refine ⟨_, rfl, i0, i1, i2, i3, i4, i5, i6, i7, i8, i9, ?_, i11⟩
    show (l.st.x0 / (E.on l.obj P).cfg.sx) * (mheWantedCfg T S ops co).sx = M.x
    rw [c6, ← i8]
    funext j
    exact div_mul_cancel₀ _ (hB.sx j)
  | setX0 x =>
    obtain ⟨i0, i1, i2, i3, i4, i5, i6, i7, i8, i9, i10, i11⟩ := hi
    exact ⟨_, rfl, i0, i1, i2, i3, i4, i5, i6, i7, rfl, i9, i10, i11⟩
  | setU0 x => exact ⟨_, rfl, hi.1, hi.2, hi.3, hi.4, hi.5, hi.6, hi.7, hi.8, hi.9, hi.10, hi.11, hi.12⟩
  | setZ0 x => exact ⟨_, rfl, hi.1, hi.2, hi.3, hi.4, hi.5, hi.6, hi.7, hi.8, hi.9, hi.10, hi.11, hi.12⟩
  | setT0 x =>
    obtain ⟨i0, i1, i2, i3, i4, i5, i6, i7, i8, i9, i10, i11⟩ := hi
    exact ⟨_, rfl, i0, i1, i2, i3, i4, i5, i6, rfl, i8, i9, i10, i11⟩
  | setPEst0 x =>
    obtain ⟨i0, i1, i2, i3, i4, i5, i6, i7, i8, i9, i10, i11⟩ := hi
    exact ⟨_, rfl, i0, i1, i2, i3, i4, i5, i6, i7, i8, rfl, i10, i11⟩

theorem live_history (E : MheEnv K d ne ns) (hst : ∀ s ∈ E.storeStats, s ∈ validStats) (S : MheSettings K) (ops : List (MheOp K d ne ns)) (co : MheCost K d ne ns)
    (B : BestExplanations K d ne ns) (hB : Means T S ops co B) (nEps : Nat) (es : List (MheLiveEv K d ne ns E.nLagr)) : ∀ (M : Memory K d ne ns)
    (l : MheLive K d ne ns), MheLiveInv T E S ops co nEps M l → (∀ e ∈ es, MheLaterEv e) → (∀ e ∈ es, StepsSolved E.storeStats e) →
    ∃ M', IdealHistory B M (l.history T E es) M' ∧ MheLiveInv T E S ops co nEps M' (l.run T E es) := by
  induction es with
  | nil => intro M l hi _ _; exact ⟨M, rfl, hi⟩
  | cons e es ih =>
    intro M l hi h1 h2
    obtain ⟨M1, r1, i1⟩ := live_exec T E hst S ops co B hB nEps M l hi e (h1 e (by simp)) (h2 e (by simp))
    obtain ⟨M2, r2, i2⟩ := ih M1 _ i1 (fun p hp => h1 p (by simp [hp])) (fun p hp => h2 p (by simp [hp]))
    exact ⟨M2, ⟨M1, r1, r2⟩, i2⟩

theorem live_start (E : MheEnv K d ne ns) (S : MheSettings K) (ops : List (MheOp K d ne ns)) (h : ∀ op ∈ ops, MheConfigures op)
    (hs : (((MheObj.new S : MheObj K d ne ns).run T ops).exec T .setup).2 = none) (nEps : Nat) (x0 : Vec K d.nx) (u0 : Vec K d.nu) (z0 : Vec K d.nz) (p0 : Vec K ne) :
    ∃ co, lastOf (fun op => (mheCostOf op).map some) ops none = some co ∧
      MheLiveInv T E S ops co nEps (Memory.start ops x0 p0) (MheLive.start E (((MheObj.new S : MheObj K d ne ns).run T ops).exec T .setup).1 nEps x0 u0 z0 p0) := by
  obtain ⟨co, ha⟩ := mheAfter_setup T S ops h hs
  obtain ⟨f1, f2, f3⟩ := mhe_setup_functions T S ops h hs
  refine ⟨co, ha.cost, (fun _ h => by simp [Memory.start] at h), ?_, f1, f2, f3, rfl, rfl, rfl, rfl, rfl, ?_, rfl⟩
  · simp only [Memory.start, List.append_nil]
    exact ha
  · funext j
    exact zero_mul _

theorem optimal_congr (Tk : EstimationTask K d ne ns) (D : EstimationData K d ne ns) (y' : Nat → Vec K d.ny) (h : ∀ k < Tk.N, D.y k = y' k) (e : Explanation K d ne) :
    Tk.Optimal D e ↔ Tk.Optimal { D with y := y' } e := by
  have hA : ∀ e, Tk.Admissible D e ↔ Tk.Admissible { D with y := y' } e := by
    intro e
    unfold EstimationTask.Admissible ExplainsMeasurements
    refine and_congr Iff.rfl (and_congr ?_ Iff.rfl)
    exact forall_congr' fun k => forall_congr' fun hk => by rw [h k hk]
  unfold EstimationTask.Optimal
  simp only [hA]
  exact Iff.rfl

theorem optimal_congr_coll (Tk : CollEstimation K d ne ns) (D : EstimationData K d ne ns) (y' : Nat → Vec K d.ny) (h : ∀ k < Tk.N, D.y k = y' k) (e : CollExplanation K d ne) :
    Tk.Optimal D e ↔ Tk.Optimal { D with y := y' } e := by
  have hA : ∀ e, Tk.Admissible D e ↔ Tk.Admissible { D with y := y' } e := by
    intro e
    constructor
    · rintro ⟨a1, a2, a3, a4, a5, a6, a7, a8, a9, a10⟩
      exact ⟨a1, fun k hk => (a2 k hk).trans (h k hk), a3, a4, a5, a6, a7, a8, a9, a10⟩
    · rintro ⟨a1, a2, a3, a4, a5, a6, a7, a8, a9, a10⟩
      exact ⟨a1, fun k hk => (a2 k hk).trans (h k hk).symm, a3, a4, a5, a6, a7, a8, a9, a10⟩
  unfold CollEstimation.Optimal
  simp only [hA]
  exact Iff.rfl

theorem means_discrete (S : MheSettings K) (ops : List (MheOp K d ne ns)) (hp : PlainMheCalls S ops) (co : MheCost K d ne ns)
    (hT : ∀ s sx su sz sp, T.ifcn s sx su sz sp = discreteIfcn T.model sx su sz sp) : Means T S ops co (bestDiscrete S ops co T.model T.sel) := by
  have hpl : ∀ bs, OnlyBounds bs → (mheWantedCfg T S (ops ++ bs) co).Plain := by
    intro bs hb
    have hp := mhe_plain_bounds S ops bs hb hp
    exact { ifcn := hT _ _ _ _ _, nlColloc := hp.noColl, consColloc := hp.allPoints, names := hp.names, sp := funext hp.sp, sx := hp.sx, su := hp.su, sz := hp.sz,
            N := hp.horizon }
  have hN := fun bs hb => lastOf_bounds ops bs hb mheSettingsOf S (fun _ _ _ => rfl)
  refine ⟨rfl, rfl, fun j => ne_of_gt (hp.sx j), ?_, ?_, ?_⟩
  · intro bs hb c w q hw
    refine ⟨c.explain w, (C72_minimiser_iff _ (hpl bs hb) w q).mp hw, rfl, ?_, rfl⟩
    show c.X w _ = c.X w _
    congr 1
    rw [← hN bs hb]
    rfl
  · rintro bs hb q ⟨x1, xN, p, e, he, -⟩
    exact ⟨_, (hpl bs hb).encode_solves _ q e he⟩
  · intro bs hb D y' h x1 xN p
    refine exists_congr fun e => and_congr (optimal_congr _ D y' (fun k hk => h k ?_) e) Iff.rfl
    have : k < (lastOf mheSettingsOf (ops ++ bs) S).N := hk
    rw [hN bs hb] at this
    exact this

theorem means_collocation (S : MheSettings K) (ops : List (MheOp K d ne ns)) (hp : PlainMheCalls S ops) (co : MheCost K d ne ns) (deg ni : Nat) (tau : Nat → K)
    (htau : tau 0 = 0) (hinj : ∀ i ≤ deg, ∀ j ≤ deg, tau i = tau j → i = j)
    (hT : ∀ (s : MheSettings K) sx su sz sp, setupCollocation T.model sx su sz sp deg ni tau s.tStep = .ok (T.ifcn s sx su sz sp))
    (hmeas : ∀ x u z z' tv p v, T.model.meas x u z tv p v = T.model.meas x u z' tv p v) : Means T S ops co (bestCollocation S ops co T.model T.sel deg ni tau) := by
  have hpl : ∀ bs, OnlyBounds bs → (mheWantedCfg T S (ops ++ bs) co).CollPlain deg ni tau (lastOf mheSettingsOf (ops ++ bs) S).tStep := by
    intro bs hb
    have hp := mhe_plain_bounds S ops bs hb hp
    exact { setup := hT _ _ _ _ _, tau0 := htau, tauInj := hinj, nlColloc := hp.noColl, consColloc := hp.allPoints, names := hp.names, sp := funext hp.sp, sx := hp.sx,
            su := hp.su, sz := hp.sz, N := hp.horizon, meas := hmeas }
  have hN := fun bs hb => lastOf_bounds ops bs hb mheSettingsOf S (fun _ _ _ => rfl)
  refine ⟨rfl, rfl, fun j => ne_of_gt (hp.sx j), ?_, ?_, ?_⟩
  · intro bs hb c w q hw
    obtain ⟨P, e⟩ := (C80_minimiser_is_best (hpl bs hb) q).1 w hw
    refine ⟨_, e, rfl, ?_, rfl⟩
    show c.X w _ = c.X w _
    congr 1
    rw [← hN bs hb]
    rfl
  · rintro bs hb q ⟨x1, xN, p, e, he, -⟩
    exact ⟨_, (C80_minimiser_is_best (hpl bs hb) q).2.1 e he⟩
  · intro bs hb D y' h x1 xN p
    refine exists_congr fun e => and_congr (optimal_congr_coll _ D y' (fun k hk => h k ?_) e) Iff.rfl
    have : k < (lastOf mheSettingsOf (ops ++ bs) S).N := hk
    rw [hN bs hb] at this
    exact this

/-- **C110** (discrete-time models): configure a new estimator by any calls, `setup()`, then make steps, assign bounds, set functions for parameters and measurements, reset the
history, set the initial guess, assign `x0`, `u0`, `z0`, `t0`, `p_est0` and try refused calls, in any order and any number: if the solvers find global minimisers (where there
are some) and report numbers as statistics, the history is one of the ideal estimator – every step answers with the last state of a best explanation, for the bounds and
functions given last, of the last measurements since the last reset, with the parameters of the previous step's explanation and its second state as priors –, and `p_est0`, `x0`,
`t0` and the logged measurements are what is to be remembered. -/
theorem C110_history (S : MheSettings K) (E : MheEnv K d ne ns) (hst : ∀ s ∈ E.storeStats, s ∈ validStats) (ops : List (MheOp K d ne ns))
    (hc : ∀ op ∈ ops, MheConfigures op) (hT : ∀ s sx su sz sp, T.ifcn s sx su sz sp = discreteIfcn T.model sx su sz sp) (nEps : Nat) (x0 : Vec K d.nx) (u0 : Vec K d.nu)
    (z0 : Vec K d.nz) (p0 : Vec K ne) (es : List (MheLiveEv K d ne ns E.nLagr)) (he : ∀ e ∈ es, MheLaterEv e)
    (hS : ∀ y Sv, MheLiveEv.step y Sv ∈ es → GlobalSolver E.storeStats Sv) :
    let o1 := (MheObj.new S : MheObj K d ne ns).run T ops
    let l0 := MheLive.start E (o1.exec T .setup).1 nEps x0 u0 z0 p0
    let l := l0.run T E es
    (o1.exec T .setup).2 = none → PlainMheCalls S ops →
      ∃ co M, lastOf (fun op => (mheCostOf op).map some) ops none = some co ∧
        IdealHistory (bestDiscrete S ops co T.model T.sel) (Memory.start ops x0 p0) (l0.history T E es) M ∧
        l.st.x0 = M.x ∧ l.st.pEst0 = M.p ∧ l.st.t0 = M.t ∧ l.st.data.rows "_y" = M.ys := by
  intro o1 l0 l hs hp
  obtain ⟨co, hco, hi⟩ := live_start T E S ops hc hs nEps x0 u0 z0 p0
  obtain ⟨M, h1, h2⟩ := live_history T E hst S ops co _ (means_discrete T S ops hp co hT) nEps es _ _ hi he fun e hm => by
    cases e with
    | step y Sv => exact hS y Sv hm
    | _ => trivial
  exact ⟨co, M, hco, h1, h2.x, h2.pEst, h2.time, h2.ys⟩

/-- **C110** (continuous-time models, collocation): the same, for measurements that do not depend on the algebraic states. -/
theorem C110_history_collocation (S : MheSettings K) (E : MheEnv K d ne ns) (hst : ∀ s ∈ E.storeStats, s ∈ validStats) (ops : List (MheOp K d ne ns))
    (hc : ∀ op ∈ ops, MheConfigures op) (deg ni : Nat) (tau : Nat → K) (htau : tau 0 = 0) (hinj : ∀ i ≤ deg, ∀ j ≤ deg, tau i = tau j → i = j)
    (hT : ∀ (s : MheSettings K) sx su sz sp, setupCollocation T.model sx su sz sp deg ni tau s.tStep = .ok (T.ifcn s sx su sz sp))
    (hmeas : ∀ x u z z' tv p v, T.model.meas x u z tv p v = T.model.meas x u z' tv p v) (nEps : Nat) (x0 : Vec K d.nx) (u0 : Vec K d.nu)
    (z0 : Vec K d.nz) (p0 : Vec K ne) (es : List (MheLiveEv K d ne ns E.nLagr)) (he : ∀ e ∈ es, MheLaterEv e)
    (hS : ∀ y Sv, MheLiveEv.step y Sv ∈ es → GlobalSolver E.storeStats Sv) :
    let o1 := (MheObj.new S : MheObj K d ne ns).run T ops
    let l0 := MheLive.start E (o1.exec T .setup).1 nEps x0 u0 z0 p0
    let l := l0.run T E es
    (o1.exec T .setup).2 = none → PlainMheCalls S ops →
      ∃ co M, lastOf (fun op => (mheCostOf op).map some) ops none = some co ∧
        IdealHistory (bestCollocation S ops co T.model T.sel deg ni tau) (Memory.start ops x0 p0) (l0.history T E es) M ∧
        l.st.x0 = M.x ∧ l.st.pEst0 = M.p ∧ l.st.t0 = M.t ∧ l.st.data.rows "_y" = M.ys := by
  intro o1 l0 l hs hp
  obtain ⟨co, hco, hi⟩ := live_start T E S ops hc hs nEps x0 u0 z0 p0
  obtain ⟨M, h1, h2⟩ := live_history T E hst S ops co _ (means_collocation T S ops hp co deg ni tau htau hinj hT hmeas) nEps es _ _ hi he fun e hm => by
    cases e with
    | step y Sv => exact hS y Sv hm
    | _ => trivial
  exact ⟨co, M, hco, h1, h2.x, h2.pEst, h2.time, h2.ys⟩

/-- **C110** (the guess): after any such history, assign `x0`, `u0`, `z0`, `p_est0` and call `set_initial_guess()`: what the solver starts from, and what its next call takes as
priors, are these values at every point of the window, divided by the scaling given for each variable. -/
theorem C110_guess (S : MheSettings K) (E : MheEnv K d ne ns) (hst : ∀ s ∈ E.storeStats, s ∈ validStats) (ops : List (MheOp K d ne ns))
    (hc : ∀ op ∈ ops, MheConfigures op) (hT : ∀ s sx su sz sp, T.ifcn s sx su sz sp = discreteIfcn T.model sx su sz sp) (nEps : Nat) (x0 : Vec K d.nx) (u0 : Vec K d.nu)
    (z0 : Vec K d.nz) (p0 : Vec K ne) (es : List (MheLiveEv K d ne ns E.nLagr)) (he : ∀ e ∈ es, MheLaterEv e)
    (hS : ∀ y Sv, MheLiveEv.step y Sv ∈ es → GlobalSolver E.storeStats Sv) (x : Vec K d.nx) (u : Vec K d.nu) (z : Vec K d.nz) (p : Vec K ne) :
    let o1 := (MheObj.new S : MheObj K d ne ns).run T ops
    let w := (((MheLive.start E (o1.exec T .setup).1 nEps x0 u0 z0 p0).run T E es).run T E [.setX0 x, .setU0 u, .setZ0 z, .setPEst0 p, .guess]).st.optX
    (o1.exec T .setup).2 = none → PlainMheCalls S ops →
      (∀ k i j, w.x k i j * lastOf (mheScalingOf (.x j)) ops 1 = x j) ∧ (∀ k j, w.u k j * lastOf (mheScalingOf (.u j)) ops 1 = u j) ∧
      (∀ k i j, w.z k i j * lastOf (mheScalingOf (.z j)) ops 1 = z j) ∧ ∀ j, w.pEst j = p j := by
  intro o1 w hs hp
  obtain ⟨co, hco, hi⟩ := live_start T E S ops hc hs nEps x0 u0 z0 p0
  obtain ⟨M, h1, h2⟩ := live_history T E hst S ops co _ (means_discrete T S ops hp co hT) nEps es _ _ hi he fun e hm => by
    cases e with
    | step y Sv => exact hS y Sv hm
    | _ => trivial
  generalize hl : (MheLive.start E (o1.exec T .setup).1 nEps x0 u0 z0 p0).run T E es = l at h2
  obtain ⟨P, hP, -⟩ := h2.after.prep
  have hw : w = ((E.on l.obj P).setInitialGuess { l.st with x0 := x, u0 := u, z0 := z, pEst0 := p }).1.optX := by
    show (MheLive.run T E ((MheLive.start E (o1.exec T .setup).1 nEps x0 u0 z0 p0).run T E es) _).st.optX = _
    rw [hl]
    simp only [MheLive.run, MheLive.exec, hP]
  have hg : (E.on l.obj P).setInitialGuess { l.st with x0 := x, u0 := u, z0 := z, pEst0 := p } = ({ l.st with
        x0 := x, u0 := u, z0 := z, pEst0 := p
        optX := { l.st.optX with x := fun _ _ => x / (E.on l.obj P).cfg.sx, u := fun _ => u / (E.on l.obj P).cfg.su, z := fun _ _ => z / (E.on l.obj P).cfg.sz,
                                 pEst := p / (E.on l.obj P).cfg.sp }, guessSet := true }, none) := by
    unfold MheEnv.setInitialGuess
    rw [if_neg (by simp [h2.setup])]
  rw [hg] at hw
  have key : ∀ f : MheOp K d ne ns → Option K, (∀ s v b, f (.bound s v b) = none) → lastOf f (ops ++ M.bounds) 1 = lastOf f ops 1 :=
    fun f hf => lastOf_bounds ops M.bounds h2.bs f 1 hf
  have ex : ∀ j, l.obj.sx j = lastOf (mheScalingOf (.x j)) ops 1 := fun j => (congrFun h2.after.sx j).trans (key _ fun _ _ _ => rfl)
  have eu : ∀ j, l.obj.su j = lastOf (mheScalingOf (.u j)) ops 1 := fun j => (congrFun h2.after.su j).trans (key _ fun _ _ _ => rfl)
  have ez : ∀ j, l.obj.sz j = lastOf (mheScalingOf (.z j)) ops 1 := fun j => (congrFun h2.after.sz j).trans (key _ fun _ _ _ => rfl)
  have ep : ∀ j, l.obj.sp j = lastOf (mheScalingOf (.p j)) ops 1 := fun j => (congrFun h2.after.sp j).trans (key _ fun _ _ _ => rfl)
  rw [hw]
  refine ⟨fun k i j => ?_, fun k j => ?_, fun k i j => ?_, fun j => ?_⟩
  · show x j / l.obj.sx j * _ = _
    rw [ex]; exact div_mul_cancel₀ _ (hp.sx j).ne'
  · show u j / l.obj.su j * _ = _
    rw [eu]; exact div_mul_cancel₀ _ (hp.su j).ne'
  · show z j / l.obj.sz j * _ = _
    rw [ez]; exact div_mul_cancel₀ _ (hp.sz j).ne'
  · show p j / l.obj.sp j = _
    rw [ep, hp.sp, div_one]

end

/-! ## The hypotheses can be met -/

theorem minimises_of_problem (o o' : MheObj K d ne ns) (pb : MheSolverProblem K d ne ns) (h : o.problem = some pb) (h' : o'.problem = some pb) (w : MheX K d ne)
    (q : MheP K d ne ns) : MheSolverMinimises o w q ↔ MheSolverMinimises o' w q := by
  have key : ∀ o : MheObj K d ne ns, o.problem = some pb → o.solver = some pb.funs ∧ o.prep = some pb.prep := by
    intro o h
    unfold MheObj.problem at h
    split at h
    · rename_i F P hF hP
      cases h
      exact ⟨hF, hP⟩
    · cases h
  unfold MheSolverMinimises MheSolverFeasible
  rw [(key o h).1, (key o h).2, (key o' h').1, (key o' h').2]

/-- There is a solver as required by C110. -/
theorem globalSolver_exists (names : List String) (n : Nat) : ∃ Sv : MheSolver K d ne ns n, GlobalSolver names Sv := by
  classical
  refine ⟨fun pb a => ⟨if h : ∃ (o : MheObj K d ne ns) (w : MheX K d ne), o.problem = some pb ∧ MheSolverMinimises o w a.p then h.choose_spec.choose else a.x0,
    fun _ => 0, [], []⟩, ?_, ?_⟩
  · rintro o pb hpb a ⟨w, hw⟩
    have h : ∃ (o : MheObj K d ne ns) (w : MheX K d ne), o.problem = some pb ∧ MheSolverMinimises o w a.p := ⟨o, w, hpb, hw⟩
    dsimp only
    rw [dif_pos h]
    exact (minimises_of_problem _ o pb h.choose_spec.choose_spec.1 hpb _ _).1 h.choose_spec.choose_spec.2
  · intro pb a s hs
    simp at hs

namespace MheLifeEx

/-- the environment of the example -/
def E : MheEnv ℚ dd 1 0 where
  cfg := mheWantedCfg tools (S 1) before co
  tStep := 1
  tvpFun := fun _ _ => 0
  pFun := fun _ => 0
  nOptX := 0
  nOptP := 0
  nOptAux := 0
  nLagr := 0
  flatX := fun _ i => i.elim0
  flatP := fun _ i => i.elim0
  flatAux := fun _ _ i => i.elim0

/-- initial values: state 1, parameter 2 -/
def l0 : MheLive ℚ dd 1 0 := MheLive.start E (((MheObj.new (S 1)).run tools before).exec tools .setup).1 0 (fun _ => 1) 0 0 (fun _ => 2)

theorem plainBefore : PlainMheCalls (S 1) before where
  horizon := by decide
  noColl := rfl
  allPoints := rfl
  names := by decide
  sx := plainCalls.sx
  su := plainCalls.su
  sz := plainCalls.sz
  sp := fun _ => rfl

/-- what is known at the first step of the history below -/
def D1 : EstimationData ℚ dd 1 0 := ⟨fun _ => 1, fun _ => 2, 0, fun _ => 0, fun k j => ((measurementWindow 1 [[(2 : ℚ)]]).getD k []).getD j 0⟩

/-- the true explanation -/
def e1 : Explanation ℚ dd 1 := ⟨fun k _ => if k = 0 then 1 else 2, fun _ => 0, fun _ => 0, fun _ => 0, fun _ => 0, fun _ _ _ => 0, fun _ => 2⟩

theorem fin1 (v w : Vec ℚ 1) (h : v 0 = w 0) : v = w := by
  funext j
  obtain rfl : j = (0 : Fin 1) := Subsingleton.elim _ _
  exact h

theorem task_cost (bs : List (MheOp ℚ dd 1 0)) (hb : OnlyBounds bs) (D : EstimationData ℚ dd 1 0) (e : Explanation ℚ dd 1) :
    (mheConfigured (S 1) (before ++ bs) co mm tools.sel).cost D e = (e.X 0 0 - D.xPrior 0) ^ 2 + (e.p 0 - D.pPrior 0) ^ 2 := by
  have h1 : (mheConfigured (S 1) (before ++ bs) co mm tools.sel).cons = [] := nl_bounds before bs hb
  unfold EstimationTask.cost
  rw [h1]
  have : ∀ l : List Nat, (l.map fun k => (mheConfigured (S 1) (before ++ bs) co mm tools.sel).stage (e.W k) (e.V k) (D.tvp k)
      ((mheConfigured (S 1) (before ++ bs) co mm tools.sel).merge e.p D.pGiven) + slackCost ([] : List (NlCall ℚ dd)) (e.E k)).sum = 0 := by
    intro l
    induction l with
    | nil => rfl
    | cons a l ih =>
      rw [List.map_cons, List.sum_cons, ih]
      show (0 : ℚ) + 0 + 0 = 0
      norm_num
  rw [this, add_zero]
  rfl

theorem e1_optimal : (mheConfigured (S 1) (before ++ []) co mm tools.sel).Optimal D1 e1 := by
  refine ⟨⟨?_, ?_, ?_, ?_, ?_, ?_, ?_, ?_, ?_⟩, fun e' _ => ?_⟩
  · intro k hk
    obtain rfl : k = 0 := Nat.lt_one_iff.1 hk
    exact ⟨funext fun j => j.elim0, fin1 _ _ (by decide +kernel)⟩
  · intro k hk
    obtain rfl : k = 0 := Nat.lt_one_iff.1 hk
    exact fin1 _ _ (by decide +kernel)
  · intro k hk call hcall
    simp [mheConfigured, before, mheNlConsOf] at hcall
  · intro k hk j
    obtain rfl : j = (0 : Fin 1) := Subsingleton.elim (α := Fin 1) _ _
    have hk : k ≤ 1 := hk
    rcases Nat.le_one_iff_eq_zero_or_eq_one.1 hk with rfl | rfl <;> decide +kernel
  · intro k hk j; exact j.elim0
  · intro k hk j; exact j.elim0
  · intro k hk call hcall
    simp [mheConfigured, before, mheNlConsOf] at hcall
  · intro h; cases h
  · intro j
    obtain rfl : j = (0 : Fin 1) := Subsingleton.elim (α := Fin 1) _ _
    decide +kernel
  · rw [task_cost _ (by simp [OnlyBounds]), task_cost _ (by simp [OnlyBounds])]
    have : (e1.X 0 0 - D1.xPrior 0) ^ 2 + (e1.p 0 - D1.pPrior 0) ^ 2 = 0 := by decide +kernel
    rw [this]
    positivity

/-- Non-vacuity of `C110_history`: with any global solver (there is one), after `set_initial_guess()` the measurement 2 is answered with the true state 2, the estimated parameter
stays 2; a measurement of the wrong size is refused. -/
example (Sv : MheSolver ℚ dd 1 0 E.nLagr) (hS : GlobalSolver E.storeStats Sv) :
    let es : List (MheLiveEv ℚ dd 1 0 E.nLagr) := [.guess, .step [1, 2] Sv, .step [2] Sv]
    (l0.history tools E es).map (·.2) = [none, some (.error "AssertionError"), some (.ok fun _ => 2)] ∧
    (l0.run tools E es).st.pEst0 = (fun _ => 2) ∧ (l0.run tools E es).st.t0 = 1 := by
  intro es
  obtain ⟨co', M, hco, hid, -, hp, ht, -⟩ := C110_history tools (S 1) E (by simp [E]) before before_ok.1 (fun _ _ _ _ _ => rfl) 0 (fun _ => 1) 0 0 (fun _ => 2) es
    (by intro e he; simp only [es, List.mem_cons, List.not_mem_nil, or_false] at he; rcases he with rfl | rfl | rfl <;> trivial)
    (by intro y Sv' he; simp [es] at he; rcases he with ⟨-, rfl⟩ | ⟨-, rfl⟩ <;> exact hS) before_ok.2.2 plainBefore
  have : some co' = some co := hco.symm
  cases this
  obtain ⟨M1, h1, M2, h2, M3, h3, rfl⟩ := hid
  have h1 : M1 = _ := h1
  simp only [Reacts] at h2 h3
  rw [if_neg (by decide)] at h2
  rw [if_pos (by decide)] at h3
  obtain ⟨r2, rfl⟩ := h2
  obtain ⟨x1, xN, p, r3, rfl, hb⟩ := h3
  subst h1
  have hD : ({ ({ Memory.start before (fun _ => 1) (fun _ => 2) with prior := (Memory.start before (fun _ => 1) (fun _ => 2)).x } : Memory ℚ dd 1 0) with
      ys := [] ++ [[2]] } : Memory ℚ dd 1 0).data (bestDiscrete (S 1) before co mm tools.sel).N = D1 := by
    unfold Memory.data Memory.start D1
    simp only [EstimationData.mk.injEq]
    exact ⟨trivial, trivial, funext fun j => j.elim0, rfl, rfl⟩
  have hb' := Eq.mp (congrArg (fun D => (∃ a b c, (bestDiscrete (S 1) before co mm tools.sel).Best [] D a b c) →
    (bestDiscrete (S 1) before co mm tools.sel).Best [] D x1 xN p) hD) hb
  obtain ⟨e, ho, ex1, exN, ep⟩ := hb' ⟨_, _, _, e1, e1_optimal, rfl, rfl, rfl⟩
  have ho : (mheConfigured (S 1) (before ++ []) co mm tools.sel).Optimal D1 e := ho
  have hx : xN = fun _ => 2 := by
    rw [← exN]
    have := ho.1.2.1 0 (by decide)
    exact this.trans (fin1 _ _ (by decide +kernel))
  have hpp : p = fun _ => 2 := by
    rw [← ep]
    have h := ho.2 e1 e1_optimal.1
    rw [task_cost _ (by simp [OnlyBounds]), task_cost _ (by simp [OnlyBounds])] at h
    have h0 : (e1.X 0 0 - D1.xPrior 0) ^ 2 + (e1.p 0 - D1.pPrior 0) ^ 2 = 0 := by decide +kernel
    rw [h0] at h
    have h3 : e.p 0 - D1.pPrior 0 = 0 := by
      have a1 := sq_nonneg (e.X 0 0 - D1.xPrior 0)
      have a2 := sq_nonneg (e.p 0 - D1.pPrior 0)
      exact pow_eq_zero_iff (two_ne_zero) |>.1 (le_antisymm (by linarith) a2)
    exact fin1 _ _ (sub_eq_zero.1 h3)
  refine ⟨?_, hp.trans hpp, ht.trans ?_⟩
  · have q2 : ((l0.exec tools E .guess).1.exec tools E (.step [1, 2] Sv)).2 = some (.error "AssertionError") := r2
    have q3 : (((l0.exec tools E .guess).1.exec tools E (.step [1, 2] Sv)).1.exec tools E (.step [2] Sv)).2 = some (.ok xN) := r3
    rw [hx] at q3
    show [(l0.exec tools E .guess).2, _, _] = _
    rw [q2, q3]
    rfl
  · show (0 : ℚ) + 1 = 1
    norm_num

end MheLifeEx
end DoMpc
