import Verif.Props.MheOptimal

/-! # Property C83: what the estimator logs -/
set_option linter.unusedSectionVars false
namespace DoMpc
open Spec
variable {K : Type} [Field K] [LinearOrder K] [IsStrictOrderedRing K] {d : Dims} {ne ns : Nat}

/-- The solver's answers and the problems of a sequence of calls. -/
def MheEnv.solutions (E : MheEnv K d ne ns) (st : MheSt K d ne ns) (calls : List (MheCall K d ne ns E.nLagr)) : List (MheX K d ne × MheP K d ne ns) :=
  List.zipWith (fun c a => ((c.S a).x, a.p)) calls (E.queries st calls)

/-- **C83**, exact: in every row of the log, input and algebraic state belong to the last interval of the window of that call, and the auxiliary expressions are
evaluated with the *new* estimate of the state at the beginning of that interval, the time-varying parameters of that interval and the (scaled) new parameter
estimate.  The state and parameters in the same row are the estimates of the call before (`C23_log`). -/
theorem C83_log_exact (E : MheEnv K d ne ns) (hst : ∀ s ∈ E.storeStats, s ∈ validStats) (st : MheSt K d ne ns)
    (hw : st.data.width "_y" = some d.ny) (calls : List (MheCall K d ne ns E.nLagr)) (xs : List (Vec K d.nx))
    (hok : E.outputs st calls = xs.map .ok) :
    let D := (E.after st calls).data
    let N := E.cfg.N
    let last := E.cfg.xLast
    D.rows "_u" = st.data.rows "_u" ++ (E.solutions st calls).map (fun (o, _) => List.ofFn (o.u (N - 1) * E.cfg.su)) ∧
    D.rows "_z" = st.data.rows "_z" ++ (E.solutions st calls).map (fun (o, _) => List.ofFn (o.z (N - 1) E.cfg.zLast * E.cfg.sz)) ∧
    D.rows "_p" = st.data.rows "_p" ++ (E.solutions st calls).map (fun (_, q) => List.ofFn (E.cfg.cat q.pEstPrev q.pSet)) ∧
    D.rows "_aux" = st.data.rows "_aux" ++ (E.solutions st calls).map (fun (o, q) => List.ofFn (E.cfg.model.aux (o.x (N - 1) last * E.cfg.sx)
      (o.u (N - 1) * E.cfg.su) (o.z (N - 1) E.cfg.zLast * E.cfg.sz) (q.tvp (N - 1)) (E.cfg.cat o.pEst q.pSet))) := by
  induction calls generalizing st xs with
  | nil => simp [MheEnv.after, MheEnv.solutions]
  | cons c cs ih =>
    simp only [MheEnv.outputs] at hok
    cases xs with
    | nil => simp at hok
    | cons x xs =>
      simp only [List.map_cons, List.cons.injEq] at hok
      obtain ⟨h1, h2⟩ := hok
      obtain ⟨hup, -, hs⟩ := E.makeStep_ok c.S st c.y0 x hw h1
      obtain ⟨-, -, -, -, -, -, dw⟩ := E.makeStep_data hst c.S st c.y0 x hw h1
      obtain ⟨g1, g2, g3, g4, g5, g6, g7, g8, g9, -⟩ := E.record_given hst st.t0 st.x0 st.pEst0 (E.args st c.y0).p (c.S (E.args st c.y0))
      have hD := congrArg MheSt.data hs
      dsimp only at hD
      have hr := fun k => C17_update_appends _ _ hup k
      obtain ⟨i1, i2, i3, i4⟩ := ih _ dw xs h2
      have haf : E.after st (c :: cs) = E.after (E.makeStep c.S st c.y0).1 cs := rfl
      have hsol : E.solutions st (c :: cs) = ((c.S (E.args st c.y0)).x, (E.args st c.y0).p) :: E.solutions (E.makeStep c.S st c.y0).1 cs := rfl
      simp only [haf, hsol, List.map_cons]
      refine ⟨?_, ?_, ?_, ?_⟩
      · rw [i1, hD, hr, g2]; simp; rfl
      · rw [i2, hD, hr, g3]; simp; rfl
      · rw [i3, hD, hr, g5]; simp; rfl
      · rw [i4, hD, hr, g7]; simp; rfl

/-- **C83** (partial: the setting of C73): on exact data with exact priors the estimator's log is the log of the plant: row `i` holds the plant's state, input,
algebraic state and parameters in interval `n_horizon - 1 + i`, and the auxiliary expressions are those of these values. -/
theorem C83_exact_log_partial (E : MheEnv K d ne ns) (h : E.cfg.Plain) (hst : ∀ s ∈ E.storeStats, s ∈ validStats)
    (hc : E.cfg.task.DefiniteCosts) (ho : E.cfg.task.InputsObserved)
    (x : Nat → Vec K d.nx) (u : Nat → Vec K d.nu) (z : Nat → Vec K d.nz) (tv : Nat → Vec K d.ntv) (pT : Vec K ne) (pG : Vec K ns)
    (st : MheSt K d ne ns) (hw : st.data.width "_y" = some d.ny) (hy : E.yFun = none)
    (calls : List (MheCall K d ne ns E.nLagr)) (xs : List (Vec K d.nx)) (hok : E.outputs st calls = xs.map .ok)
    (hrun : E.cfg.task.NoiseFreeRun (E.cfg.N - 1 + calls.length) x u z tv pT pG)
    (hsolve : ∀ i (hi : i < calls.length) a, (E.queries st calls)[i]? = some a → (∃ o, E.cfg.Solves o a.p) → E.cfg.Solves (calls[i].S a).x a.p)
    (old : List (List K)) (hold : ∀ y ∈ old, y.length = d.ny)
    (hlog : st.data.rows "_y" = old ++ (List.range (E.cfg.N - 1)).map fun k => List.ofFn (E.cfg.task.measured x u z tv pT pG k))
    (hmeas : ∀ i (hi : i < calls.length), calls[i].y0 = List.ofFn (E.cfg.task.measured x u z tv pT pG (E.cfg.N - 1 + i)))
    (htv : ∀ i < calls.length, ∀ k < E.cfg.N, E.tvpFun (st.t0 + i * E.tStep) k = tv (i + k))
    (hpG : ∀ i < calls.length, E.pFun (st.t0 + i * E.tStep) = pG)
    (hx0 : E.cfg.X st.optX 1 = x 0) (hp0 : st.pEst0 = pT) (hcur : st.x0 = x (E.cfg.N - 1)) :
    let D := (E.after st calls).data
    let p := E.cfg.cat pT pG
    let at_ := fun (f : Nat → List K) => (List.range calls.length).map fun i => f (E.cfg.N - 1 + i)
    D.rows "_x" = st.data.rows "_x" ++ at_ (fun k => List.ofFn (x k)) ∧ D.rows "_u" = st.data.rows "_u" ++ at_ (fun k => List.ofFn (u k)) ∧
    D.rows "_z" = st.data.rows "_z" ++ at_ (fun k => List.ofFn (z k)) ∧ D.rows "_p" = st.data.rows "_p" ++ at_ (fun _ => List.ofFn p) ∧
    D.rows "_aux" = st.data.rows "_aux" ++ at_ (fun k => List.ofFn (E.cfg.model.aux (x k) (u k) (z k) (tv k) p)) := by
  intro D p at_
  have hN := h.N
  have hwin : ∀ i < calls.length, ∀ (q : MheP K d ne ns), q.xPrev = x i → q.pEstPrev = pT → q.pSet = pG → (∀ k < E.cfg.N, q.tvp k = tv (i + k)) →
      (∀ k < E.cfg.N, q.yMeas k = E.cfg.task.measured x u z tv pT pG (i + k)) → ((∃ o, E.cfg.Solves o q) ∧
        ∀ o, E.cfg.Solves o q → E.cfg.pEstPhys o = pT ∧ (∀ k ≤ E.cfg.N, E.cfg.X o k = x (i + k)) ∧
          ∀ k < E.cfg.N, E.cfg.U o k = u (i + k) ∧ E.cfg.Z o k = z (i + k)) := by
    intro i hi q h1 h2 h3 h4 h5
    have hiN : i + E.cfg.task.N ≤ E.cfg.N - 1 + calls.length := by show i + E.cfg.N ≤ _; omega
    refine ⟨⟨_, h.encode_solves E.cfg q _ (truth_optimal E.cfg.task hc x u z tv pT pG _ hrun i hiN q.toData h1 h2 h3 h4 h5)⟩, fun o h6 => ?_⟩
    exact exact_window_full E.cfg.task hc ho x u z tv pT pG _ hrun i hiN q.toData h1 h2 h3 h4 h5 _ ((C72_minimiser_iff E.cfg h o q).mp h6)
  have key := E.exact_calls hN hst x (E.cfg.task.measured x u z tv pT pG) tv pT pG st hw hy calls xs hok
    (fun i hi q h1 h2 h3 h4 h5 => ⟨(hwin i hi q h1 h2 h3 h4 h5).1, fun o ho => ⟨((hwin i hi q h1 h2 h3 h4 h5).2 o ho).1, ((hwin i hi q h1 h2 h3 h4 h5).2 o ho).2.1⟩⟩)
    hsolve old hold hlog hmeas htv hpG hx0 hp0
  obtain ⟨l1, l2, l3, l4⟩ := C83_log_exact E hst st hw calls xs hok
  have hxs := (C73_exact_estimates_partial E h hst hc ho x u z tv pT pG st hw hy calls xs hok hrun hsolve old hold hlog hmeas htv hpG hx0 hp0).1
  have hql : (E.queries st calls).length = calls.length := by
    clear * -
    induction calls generalizing st with
    | nil => rfl
    | cons c cs ih => simp [MheEnv.queries, ih]
  have hzl : E.cfg.zLast = 0 := by unfold MheCfg.zLast; rw [h.ifcn]; rfl
  -- every entry of the solutions
  have hmap : ∀ (f : MheX K d ne × MheP K d ne ns → List K) (g : Nat → List K),
      (∀ i (hi : i < calls.length) a, (E.queries st calls)[i]? = some a → f ((calls[i].S a).x, a.p) = g (E.cfg.N - 1 + i)) →
      (E.solutions st calls).map f = at_ g := by
    intro f g hfg
    apply List.ext_getElem
    · simp [MheEnv.solutions, at_, hql]
    · intro i h1 h2
      have hi : i < calls.length := by simpa [at_] using h2
      simp only [MheEnv.solutions, at_, List.getElem_map, List.getElem_zipWith, List.getElem_range]
      exact hfg i hi _ (List.getElem?_eq_getElem _)
  have hsol : ∀ i (hi : i < calls.length) a, (E.queries st calls)[i]? = some a → let o := (calls[i].S a).x
      o.x (E.cfg.N - 1) E.cfg.xLast * E.cfg.sx = x (E.cfg.N - 1 + i) ∧ o.u (E.cfg.N - 1) * E.cfg.su = u (E.cfg.N - 1 + i) ∧
      o.z (E.cfg.N - 1) E.cfg.zLast * E.cfg.sz = z (E.cfg.N - 1 + i) ∧ o.pEst = pT ∧ a.p.pEstPrev = pT ∧ a.p.pSet = pG ∧ a.p.tvp (E.cfg.N - 1) = tv (E.cfg.N - 1 + i) := by
    intro i hi a ha
    obtain ⟨a', a1, a2, a3, a4, a5, a6, a7, -, a8⟩ := key i hi
    rw [ha] at a1
    cases a1
    obtain ⟨w1, w2, w3⟩ := (hwin i hi a.p a3 a4 a5 a6 a7).2 _ a8
    have e : E.cfg.N - 1 + i = i + (E.cfg.N - 1) := by omega
    rw [e, hzl]
    refine ⟨w2 _ (by omega), (w3 _ (by omega)).1, (w3 _ (by omega)).2, ?_, a4, a5, a6 _ (by omega)⟩
    have : (calls[i].S a).x.pEst * E.cfg.sp = pT := w1
    rwa [h.sp, mul_one] at this
  refine ⟨?_, ?_, ?_, ?_, ?_⟩
  · have := (C23_log E hst st hw calls xs hok).2.1
    rw [this, hxs, hcur]
    congr 1
    have e : x (E.cfg.N - 1) :: (List.range calls.length).map (fun i => x (i + E.cfg.N)) = (List.range (calls.length + 1)).map fun i => x (E.cfg.N - 1 + i) := by
      rw [List.range_succ_eq_map, List.map_cons, List.map_map]
      congr 1
      apply List.map_congr_left
      intro i _
      show x _ = x _
      congr 1; omega
    rw [e, List.range_succ, List.map_append, List.map_singleton, List.dropLast_concat, List.map_map]
    rfl
  · rw [l1, hmap _ (fun k => List.ofFn (u k)) fun i hi a ha => by dsimp only; rw [(hsol i hi a ha).2.1]]
  · rw [l2, hmap _ (fun k => List.ofFn (z k)) fun i hi a ha => by dsimp only; rw [(hsol i hi a ha).2.2.1]]
  · rw [l3, hmap _ (fun _ => List.ofFn p) fun i hi a ha => by
      obtain ⟨-, -, -, -, s5, s6, -⟩ := hsol i hi a ha
      dsimp only; rw [s5, s6]]
  · rw [l4, hmap _ (fun k => List.ofFn (E.cfg.model.aux (x k) (u k) (z k) (tv k) p)) fun i hi a ha => by
      obtain ⟨s1, s2, s3, s4, -, s6, s7⟩ := hsol i hi a ha
      dsimp only; rw [s1, s2, s3, s4, s6, s7]]

open MheOptEx in
/-- Non-vacuity of C83: the run of C72/C73; the log of the states and inputs is the plant's. -/
example : (E.after { st with x0 := fun _ => 1 } calls).data.rows "_x" = [[1], [3]] ∧ (E.after { st with x0 := fun _ => 1 } calls).data.rows "_u" = [[1], [2]] ∧
    (E.after { st with x0 := fun _ => 1 } calls).data.rows "_p" = [[1], [1]] := by
  decide +kernel

namespace MheLogEx
/-- one state, process and measurement noise, one auxiliary expression -/
abbrev dd : Dims := ⟨1, 0, 0, 0, 0, 1, 1, 1, 1⟩
/-- `x⁺ = x + w`, `y = x + v`, auxiliary expression `x` -/
abbrev mm : DaeModel ℚ dd where
  rhs := fun x _ _ _ _ w => x + w
  alg := fun _ _ _ _ _ _ => Fin.elim0
  meas := fun x _ _ _ _ v => x + v
  aux := fun x _ _ _ _ => x
/-- a window of one interval, no scaling, quadratic costs -/
abbrev E : MheEnv ℚ dd 0 0 where
  cfg := { N := 1
           model := mm
           ifcn := discreteIfcn mm (fun _ => 1) Fin.elim0 Fin.elim0 Fin.elim0
           sel := Fin.elim0, sx := fun _ => 1, su := Fin.elim0, sz := Fin.elim0, sp := Fin.elim0
           xlb := fun _ => .ninf, xub := fun _ => .pinf, ulb := Fin.elim0, uub := Fin.elim0
           zlb := Fin.elim0, zub := Fin.elim0, plb := Fin.elim0, pub := Fin.elim0
           nl := []
           stage := fun w v _ _ => w 0 ^ 2 + v 0 ^ 2, arrival := fun x xp _ _ _ => (x 0 - xp 0) ^ 2 }
  tStep := 1
  tvpFun := fun _ _ => Fin.elim0
  pFun := fun _ => Fin.elim0
  nOptX := 1
  nOptP := 1
  nOptAux := 1
  nLagr := 1
  flatX := fun o => o.x 1 0
  flatP := fun q => q.xPrev
  flatAux := fun o _ => o.x 0 0
/-- the exact minimiser: the difference between measurement and prior is shared equally -/
def S (a : MheArgs ℚ dd 0 0) : MheResult ℚ dd 0 1 :=
  let δ := (a.p.yMeas 0 0 - a.p.xPrev 0) / 3
  { x := ⟨fun k _ _ => if k = 0 then a.p.xPrev 0 + δ else a.p.xPrev 0 + 2 * δ, fun _ _ => Fin.elim0, fun _ => Fin.elim0, fun _ _ => δ, fun _ _ => δ,
          fun _ _ _ => 0, Fin.elim0⟩
    lamG := fun _ => 0, lamX := [], stats := [] }
def st : MheSt ℚ dd 0 0 := E.fresh 0 (fun _ => 0) Fin.elim0 Fin.elim0 Fin.elim0
def calls : List (MheCall ℚ dd 0 0 E.nLagr) := [⟨S, [3]⟩]

theorem plain : E.cfg.Plain where
  ifcn := by rfl
  nlColloc := rfl
  consColloc := rfl
  names := by decide
  sp := by funext i; exact i.elim0
  sx := by intro i; norm_num
  su := fun i => i.elim0
  sz := fun i => i.elim0
  N := by decide

/-- the solver returns a global minimiser of every problem -/
theorem solves (a : MheArgs ℚ dd 0 0) : E.cfg.Solves (S a).x a.p := by
  rw [C72_minimiser_iff E.cfg plain]
  refine ⟨⟨?_, ?_, ?_, ?_, ?_, ?_, ?_, ?_, ?_⟩, ?_⟩
  · intro k hk
    obtain rfl : k = 0 := by change k < 1 at hk; omega
    refine ⟨funext fun i => i.elim0, funext fun i => ?_⟩
    obtain rfl : i = 0 := Subsingleton.elim _ _
    simp [MheCfg.explain, MheCfg.X, MheCfg.xPhys, MheCfg.xLast, S, MheCfg.task]
    ring
  · intro k hk
    obtain rfl : k = 0 := by change k < 1 at hk; omega
    refine funext fun i => ?_
    obtain rfl : i = 0 := Subsingleton.elim _ _
    simp [MheCfg.explain, MheCfg.X, MheCfg.xPhys, MheCfg.xLast, S, MheCfg.task, MheP.toData]
    ring
  · intro k hk c hc; cases hc
  · intro k hk i; exact ⟨trivial, trivial⟩
  · intro k hk i; exact i.elim0
  · intro k hk i; exact i.elim0
  · intro k hk c hc; cases hc
  · intro hs; cases hs
  · intro i; exact i.elim0
  · intro e he
    have h1 := congrFun (he.1 0 (by show 0 < 1; decide)).2 0
    have h2 := congrFun (he.2.1 0 (by show 0 < 1; decide)) 0
    simp [MheCfg.task, MheP.toData] at h1 h2
    simp [EstimationTask.cost, MheCfg.task, MheCfg.explain, MheCfg.X, MheCfg.xPhys, MheCfg.xLast, S, MheP.toData, slackCost]
    have h3 : a.p.yMeas 0 0 - a.p.xPrev 0 = (e.X 0 0 - a.p.xPrev 0) + e.W 0 0 + e.V 0 0 := by rw [← h2, h1]; ring
    rw [h3]
    nlinarith [sq_nonneg (e.X 0 0 - a.p.xPrev 0 - e.W 0 0), sq_nonneg (e.X 0 0 - a.p.xPrev 0 - e.V 0 0), sq_nonneg (e.W 0 0 - e.V 0 0)]
end MheLogEx

open MheLogEx in
/-- **C83 fails**: the rows of the log are not self-consistent.  The model's auxiliary expression is the state itself and the solver is exact, yet the row
that the first call writes holds the state 0 (the previous estimate) and the auxiliary value 1 (from the new estimate of that state). -/
theorem C83_fails_aux_is_not_of_the_row :
    (∀ x u z tv p, E.cfg.model.aux x u z tv p = x) ∧ (∀ c ∈ calls, ∀ a, E.cfg.Solves (c.S a).x a.p) ∧
    (∃ xs : List (Vec ℚ 1), E.outputs st calls = xs.map .ok) ∧
    (E.after st calls).data.rows "_time" = [[0]] ∧ (E.after st calls).data.rows "_x" = [[0]] ∧ (E.after st calls).data.rows "_aux" = [[1]] := by
  refine ⟨fun _ _ _ _ _ => rfl, ?_, ⟨[fun _ => 2], ?_⟩, ?_, ?_, ?_⟩
  · intro c hc a
    simp only [calls, List.mem_singleton] at hc
    subst hc
    exact solves a
  all_goals decide +kernel

end DoMpc
