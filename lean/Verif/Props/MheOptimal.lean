import Verif.Props.Mhe
import Verif.Props.MheRun
import Verif.Spec.Estimation
import Verif.Props.Stability

/-! # Properties C72, C73: what the moving horizon estimator returns -/
set_option linter.unusedSectionVars false
namespace DoMpc
open Spec
variable {K : Type} [Field K] [LinearOrder K] [IsStrictOrderedRing K] {d : Dims} {ne ns : Nat}

/-- The user's task read off the configuration. -/
def MheCfg.task (cfg : MheCfg K d ne ns) : EstimationTask K d ne ns where
  N := cfg.N
  model := cfg.model
  merge := cfg.cat
  xlb := cfg.xlb
  xub := cfg.xub
  zlb := cfg.zlb
  zub := cfg.zub
  ulb := cfg.ulb
  uub := cfg.uub
  plb := cfg.plb
  pub := cfg.pub
  cons := cfg.nl
  singleSlack := cfg.singleSlack
  stage := cfg.stage
  arrival := cfg.arrival

/-- The data in the solver's parameters. -/
def MheP.toData (q : MheP K d ne ns) : EstimationData K d ne ns := ⟨q.xPrev, q.pEstPrev, q.pSet, q.tvp, q.yMeas⟩

/-- The explanation a solver's point stands for. -/
def MheCfg.explain (cfg : MheCfg K d ne ns) (o : MheX K d ne) : Explanation K d ne :=
  ⟨cfg.X o, cfg.U o, cfg.Z o, o.w, o.v, cfg.E o, cfg.pEstPhys o⟩

/-- The solver's point for an explanation. -/
def MheCfg.encode (cfg : MheCfg K d ne ns) (e : Explanation K d ne) : MheX K d ne :=
  ⟨fun k _ => e.X k / cfg.sx, fun k _ => e.Z k / cfg.sz, fun k => e.U k / cfg.su, e.W, e.V, e.E, e.p / cfg.sp⟩

theorem div_mul_self_vec {n : Nat} (v s : Vec K n) (h : ∀ i, 0 < s i) : v / s * s = v := by
  funext i
  simp only [Pi.mul_apply, Pi.div_apply]
  exact div_mul_cancel₀ _ (h i).ne'

/-- The estimator is in the fragment covered: discrete-time model, default settings for the collocation points, unscaled estimated
parameters, distinct constraint names, positive scalings, a window. -/
structure MheCfg.Plain (cfg : MheCfg K d ne ns) : Prop where
  ifcn : cfg.ifcn = discreteIfcn cfg.model cfg.sx cfg.su cfg.sz cfg.pScaling
  nlColloc : cfg.nlColloc = false
  consColloc : cfg.consColloc = true
  names : (cfg.nl.map (·.name)).Nodup
  sp : cfg.sp = 1
  sx : ∀ i, 0 < cfg.sx i
  su : ∀ i, 0 < cfg.su i
  sz : ∀ i, 0 < cfg.sz i
  N : 0 < cfg.N

namespace MheCfg
variable (cfg : MheCfg K d ne ns) (h : cfg.Plain)
include h

theorem Plain.feasible_iff (o : MheX K d ne) (q : MheP K d ne ns) :
    cfg.Feasible o q ↔ cfg.task.Admissible q.toData (cfg.explain o) := by
  rw [C24_C25_C26_feasible_iff cfg.model cfg rfl h.ifcn h.nlColloc h.consColloc h.names h.sp h.sx h.su h.sz]
  unfold EstimationTask.Admissible
  have hN := h.N
  have hslack : (∀ k < cfg.nEps, ∀ call ∈ cfg.nl, call.soft = true → ∀ i < call.dim,
        0 ≤ o.eps k call.name i ∧ call.maxViolation.ge (o.eps k call.name i)) ↔
      (∀ k < cfg.N, ∀ call ∈ cfg.nl, call.soft = true → ∀ i < call.dim,
        0 ≤ cfg.E o k call.name i ∧ call.maxViolation.ge (cfg.E o k call.name i)) := by
    unfold MheCfg.E MheCfg.kEps MheCfg.nEps
    by_cases hs : cfg.singleSlack = true
    · simp only [hs, if_true]
      constructor
      · intro H k _; have : min k (1 - 1) = 0 := by omega
        rw [this]; exact H 0 one_pos
      · intro H k hk
        have : k = 0 := by omega
        subst this; exact H 0 hN
    · simp only [hs, Bool.false_eq_true, if_false]
      constructor
      · intro H k hk; have : min k (cfg.N - 1) = k := by omega
        rw [this]; exact H k hk
      · intro H k hk
        have := H k hk
        have e : min k (cfg.N - 1) = k := by omega
        rwa [e] at this
  have hsingle : cfg.singleSlack = true → ∀ k < cfg.N, cfg.E o k = cfg.E o 0 := by
    intro hs k _
    simp [MheCfg.E, MheCfg.kEps, MheCfg.nEps, hs]
  rw [hslack]
  constructor
  · rintro ⟨a, b, c, e, f, g, i, j⟩
    exact ⟨a, b, c, e, f, g, i, hsingle, j⟩
  · rintro ⟨a, b, c, e, f, g, i, -, j⟩
    exact ⟨a, b, c, e, f, g, i, j⟩

theorem Plain.obj_eq (o : MheX K d ne) (q : MheP K d ne ns) : cfg.obj o q = cfg.task.cost q.toData (cfg.explain o) := by
  rw [C26_objective_partial cfg h.sp]; rfl

/-- Encoding and reading back gives the same explanation up to the slacks of a window with a single slack. -/
theorem Plain.explain_encode (e : Explanation K d ne) (hs : cfg.singleSlack = true → ∀ k < cfg.N, e.E k = e.E 0) :
    let e' := cfg.explain (cfg.encode e)
    e'.X = e.X ∧ e'.U = e.U ∧ e'.Z = e.Z ∧ e'.W = e.W ∧ e'.V = e.V ∧ e'.p = e.p ∧ ∀ k < cfg.N, e'.E k = e.E k := by
  refine ⟨?_, ?_, ?_, rfl, rfl, ?_, ?_⟩
  · funext k; exact div_mul_self_vec _ _ h.sx
  · funext k; exact div_mul_self_vec _ _ h.su
  · funext k; exact div_mul_self_vec _ _ h.sz
  · exact div_mul_self_vec _ _ (by simp [h.sp])
  · intro k hk
    simp only [MheCfg.explain, MheCfg.E, MheCfg.encode, MheCfg.kEps, MheCfg.nEps]
    by_cases h1 : cfg.singleSlack = true
    · simp only [h1, if_true]
      rw [hs h1 k hk]; simp
    · simp only [h1, Bool.false_eq_true, if_false]
      congr 1; omega

end MheCfg

/-- Two explanations that agree on the window are equally admissible and cost the same. -/
theorem explanation_congr (T : EstimationTask K d ne ns) (D : EstimationData K d ne ns) (e e' : Explanation K d ne)
    (hX : e'.X = e.X) (hU : e'.U = e.U) (hZ : e'.Z = e.Z) (hW : e'.W = e.W) (hV : e'.V = e.V) (hp : e'.p = e.p)
    (hE : ∀ k < T.N, e'.E k = e.E k) (h : T.Admissible D e) : T.Admissible D e' ∧ T.cost D e' = T.cost D e := by
  obtain ⟨a, b, c, e1, f, g, i, s, j⟩ := h
  constructor
  · refine ⟨by rw [hX, hU, hZ, hW, hp]; exact a, by rw [hX, hU, hZ, hV, hp]; exact b, ?_, by rw [hX]; exact e1, by rw [hZ]; exact f,
      by rw [hU]; exact g, ?_, ?_, by rw [hp]; exact j⟩
    · intro k hk
      rw [hX, hU, hZ, hp, hE k hk]; exact c k hk
    · intro k hk; rw [hE k hk]; exact i k hk
    · intro hs k hk; rw [hE k hk, hE 0 (by omega)]; exact s hs k hk
  · unfold EstimationTask.cost
    rw [hX, hp, hW, hV]
    congr 2
    apply List.map_congr_left
    intro k hk
    rw [hE k (List.mem_range.mp hk)]

/-- The solver returned a global minimiser of the problem it was given. -/
def MheCfg.Solves (cfg : MheCfg K d ne ns) (o : MheX K d ne) (q : MheP K d ne ns) : Prop :=
  cfg.Feasible o q ∧ ∀ o', cfg.Feasible o' q → cfg.obj o q ≤ cfg.obj o' q

/-- **C72** (problem): a solver's point is a global minimiser of the problem the estimator builds iff it stands for a best explanation
of the data. -/
theorem C72_minimiser_iff (cfg : MheCfg K d ne ns) (h : cfg.Plain) (o : MheX K d ne) (q : MheP K d ne ns) :
    cfg.Solves o q ↔ cfg.task.Optimal q.toData (cfg.explain o) := by
  unfold MheCfg.Solves EstimationTask.Optimal
  rw [h.feasible_iff]
  apply and_congr Iff.rfl
  constructor
  · intro H e he
    obtain ⟨hX, hU, hZ, hW, hV, hp, hE⟩ := h.explain_encode cfg e he.2.2.2.2.2.2.2.1
    obtain ⟨ha, hc⟩ := explanation_congr cfg.task q.toData e _ hX hU hZ hW hV hp hE he
    rw [← h.obj_eq cfg, ← hc, ← h.obj_eq cfg]
    exact H _ ((h.feasible_iff cfg _ q).mpr ha)
  · intro H o' ho'
    rw [h.obj_eq cfg, h.obj_eq cfg]
    exact H _ ((h.feasible_iff cfg _ q).mp ho')

theorem MheEnv.outputs_length (E : MheEnv K d ne ns) (st : MheSt K d ne ns) (calls : List (MheCall K d ne ns E.nLagr)) :
    (E.outputs st calls).length = calls.length := by
  induction calls generalizing st with
  | nil => rfl
  | cons c cs ih => simp [MheEnv.outputs, ih]

/-- The estimated parameters after a sequence of calls are those of the last solution. -/
theorem MheEnv.after_pEst0 (E : MheEnv K d ne ns) (hst : ∀ s ∈ E.storeStats, s ∈ validStats) (st : MheSt K d ne ns)
    (hw : st.data.width "_y" = some d.ny) (calls : List (MheCall K d ne ns E.nLagr)) (xs : List (Vec K d.nx))
    (hok : E.outputs st calls = xs.map .ok) (n : Nat) (hn : calls.length = n + 1) (a : MheArgs K d ne ns)
    (ha : (E.queries st calls)[n]? = some a) : (E.after st calls).pEst0 = E.cfg.pEstPhys (calls[n].S a).x := by
  induction calls generalizing st xs n with
  | nil => simp at hn
  | cons c cs ih =>
    simp only [MheEnv.outputs] at hok
    cases xs with
    | nil => simp at hok
    | cons x xs =>
      simp only [List.map_cons, List.cons.injEq] at hok
      obtain ⟨h1, h2⟩ := hok
      obtain ⟨hup, hx, hst'⟩ := E.makeStep_ok c.S st c.y0 x hw h1
      obtain ⟨-, -, -, -, -, -, dw⟩ := E.makeStep_data hst c.S st c.y0 x hw h1
      have haf : E.after st (c :: cs) = E.after (E.makeStep c.S st c.y0).1 cs := rfl
      rw [haf]
      cases n with
      | zero =>
        have : cs = [] := by simpa using hn
        subst this
        simp only [MheEnv.queries, List.getElem?_cons_zero, Option.some.injEq] at ha
        subst ha
        simp only [MheEnv.after, List.foldl_nil, List.getElem_cons_zero]
        rw [hst']
      | succ n =>
        simp only [MheEnv.queries, List.getElem?_cons_succ] at ha
        exact ih _ dw xs h2 n (by simpa using hn) ha

/-- The data of a problem: measurements `w` (`n_horizon` rows), priors, parameters at time `t`. -/
def MheEnv.IsData (E : MheEnv K d ne ns) (D : EstimationData K d ne ns) (t : K) (window : List (List K)) (x : Vec K d.nx) (p : Vec K ne) :
    Prop :=
  (List.range E.cfg.N).map (fun k => List.ofFn (D.y k)) = window ∧ D.tvp = E.tvpFun t ∧ D.pGiven = E.pFun t ∧
  D.xPrior = x ∧ D.pPrior = p

/-- What a sequence of successful calls looks like: problems, the solver's answers and the returned states. -/
theorem MheEnv.run_problems (E : MheEnv K d ne ns) (hst : ∀ s ∈ E.storeStats, s ∈ validStats)
    (st : MheSt K d ne ns) (hw : st.data.width "_y" = some d.ny) (hrows : ∀ y ∈ st.data.rows "_y", y.length = d.ny)
    (hy : E.yFun = none) (calls : List (MheCall K d ne ns E.nLagr)) (xs : List (Vec K d.nx)) (hok : E.outputs st calls = xs.map .ok) :
    ∃ (a : Nat → MheArgs K d ne ns) (o : Nat → MheX K d ne),
      (∀ n, calls.length = n + 1 → (E.after st calls).pEst0 = E.cfg.pEstPhys (o n)) ∧
      ∀ i, ∀ hi : i < calls.length, (E.queries st calls)[i]? = some (a i) ∧ o i = (calls[i].S (a i)).x ∧ xs[i]? = some (E.cfg.X (o i) E.cfg.N) ∧
        E.IsData (a i).p.toData (st.t0 + i * E.tStep) (Spec.measurementWindow E.cfg.N (st.data.rows "_y" ++ (calls.take (i + 1)).map (·.y0)))
          (if i = 0 then E.cfg.X st.optX 1 else E.cfg.X (o (i - 1)) 1) (if i = 0 then st.pEst0 else E.cfg.pEstPhys (o (i - 1))) := by
  classical
  have key := C21_C23_problem E hst st hw hrows calls xs hok
  let a : Nat → MheArgs K d ne ns := fun i => if hi : i < calls.length then (key i hi).choose else E.args st []
  let o : Nat → MheX K d ne := fun i => if hi : i < calls.length then (calls[i].S (a i)).x else st.optX
  have spec : ∀ i (hi : i < calls.length), _ := fun i hi => (key i hi).choose_spec
  have ea : ∀ i (hi : i < calls.length), a i = (key i hi).choose := fun i hi => by simp only [a, hi, dif_pos]
  have eo : ∀ i (hi : i < calls.length), o i = (calls[i].S (a i)).x := fun i hi => by simp only [o, hi, dif_pos]
  refine ⟨a, o, ?_, ?_⟩
  · intro n hn
    have hi : n < calls.length := by omega
    have s := (spec n hi).1
    rw [← ea n hi] at s
    rw [E.after_pEst0 hst st hw calls xs hok n hn (a n) s, eo n hi]
  intro i hi
  have s := spec i hi
  rw [← ea i hi] at s
  obtain ⟨s1, s2, -, s3, s4, s5, s6, s7⟩ := s
  refine ⟨s1, eo i hi, ?_, ?_⟩
  · rw [s7, eo i hi]; rfl
  · refine ⟨s2 hy, s3, s4, ?_, ?_⟩
    · by_cases h0 : i = 0
      · rw [if_pos h0]; exact (s5 h0).1
      · rw [if_neg h0]
        have hj : i - 1 < calls.length := by omega
        have sb := (spec (i - 1) hj).1
        rw [← ea (i - 1) hj] at sb
        have := (s6 (i - 1) (by omega) (a (i - 1)) sb).1
        rw [eo (i - 1) hj]; exact this
    · by_cases h0 : i = 0
      · rw [if_pos h0]; exact (s5 h0).2.1
      · rw [if_neg h0]
        have hj : i - 1 < calls.length := by omega
        have sb := (spec (i - 1) hj).1
        rw [← ea (i - 1) hj] at sb
        have := (s6 (i - 1) (by omega) (a (i - 1)) sb).2.1
        rw [eo (i - 1) hj]; exact this

/-- **C72** (run; partial: the fragment of `Plain`): after any sequence of successful calls of `make_step` whose solver calls
returned global minimisers, every returned state is the last state of a best explanation of the last `n_horizon` measurements (padded with
the first one), the stored parameter estimate is that of the last call, and the prior of every call is the second state and the parameters of the best explanation of the call before. -/
theorem C72_estimates_partial (E : MheEnv K d ne ns) (h : E.cfg.Plain) (hst : ∀ s ∈ E.storeStats, s ∈ validStats)
    (st : MheSt K d ne ns) (hw : st.data.width "_y" = some d.ny) (hrows : ∀ y ∈ st.data.rows "_y", y.length = d.ny)
    (hy : E.yFun = none) (calls : List (MheCall K d ne ns E.nLagr)) (xs : List (Vec K d.nx)) (hok : E.outputs st calls = xs.map .ok)
    (hsolve : ∀ i (hi : i < calls.length) a, (E.queries st calls)[i]? = some a → E.cfg.Solves (calls[i].S a).x a.p) :
    ∃ (D : Nat → EstimationData K d ne ns) (e : Nat → Explanation K d ne),
      (∀ n, calls.length = n + 1 → (E.after st calls).pEst0 = (e n).p) ∧
      ∀ i < calls.length, E.cfg.task.Optimal (D i) (e i) ∧ xs[i]? = some ((e i).X E.cfg.N) ∧
        E.IsData (D i) (st.t0 + i * E.tStep) (Spec.measurementWindow E.cfg.N (st.data.rows "_y" ++ (calls.take (i + 1)).map (·.y0)))
          (if i = 0 then E.cfg.X st.optX 1 else (e (i - 1)).X 1) (if i = 0 then st.pEst0 else (e (i - 1)).p) := by
  obtain ⟨a, o, h1, h2⟩ := E.run_problems hst st hw hrows hy calls xs hok
  refine ⟨fun i => (a i).p.toData, fun i => E.cfg.explain (o i), h1, fun i hi => ?_⟩
  obtain ⟨s0, s1, s2, s3⟩ := h2 i hi
  exact ⟨(C72_minimiser_iff E.cfg h _ _).mp (by rw [s1]; exact hsolve i hi _ s0), s2, s3⟩

/-! ### C73: exactness -/

theorem window_full (N : Nat) (hN : 0 < N) (old : List (List K)) (Y : Nat → List K) (i : Nat) :
    Spec.measurementWindow N ((old ++ (List.range (N - 1)).map Y) ++ (List.range (i + 1)).map fun j => Y (N - 1 + j)) =
      (List.range N).map fun k => Y (i + k) := by
  unfold Spec.measurementWindow
  dsimp only
  have h1 : (old ++ (List.range (N - 1)).map Y) ++ ((List.range (i + 1)).map fun j => Y (N - 1 + j)) =
      old ++ (List.range (N + i)).map Y := by
    rw [List.append_assoc]
    congr 1
    have : N + i = (N - 1) + (i + 1) := by omega
    rw [this, List.range_add (n := N - 1) (m := i + 1), List.map_append, List.map_map]
    rfl
  rw [h1]
  have h2 : N - (old ++ (List.range (N + i)).map Y).length = 0 := by simp; omega
  rw [h2, List.replicate_zero, List.nil_append]
  have h3 : (old ++ (List.range (N + i)).map Y).length - N = old.length + i := by simp; omega
  rw [h3, ← List.drop_drop, List.drop_left, Nat.add_comm N i, List.range_add, List.map_append, List.map_map]
  rw [List.drop_left' (by simp)]
  rfl

theorem slackCost_zero (calls : List (NlCall K d)) : slackCost calls (fun _ _ => 0) = 0 := by
  unfold slackCost
  apply List.sum_eq_zero
  intro y hy
  obtain ⟨c, -, rfl⟩ := List.mem_map.mp hy
  simp

theorem slackCost_nonneg (calls : List (NlCall K d)) (e : Eps K) (h : ∀ call ∈ calls, call.soft = true → 0 ≤ call.penalty ∧
    ∀ i < call.dim, 0 ≤ e call.name i) : 0 ≤ slackCost calls e := by
  unfold slackCost
  apply List.sum_nonneg
  intro y hy
  obtain ⟨c, hc, rfl⟩ := List.mem_map.mp hy
  split_ifs with hs
  · apply List.sum_nonneg
    intro y hy
    obtain ⟨i, hi, rfl⟩ := List.mem_map.mp hy
    exact mul_nonneg (h c hc hs).1 ((h c hc hs).2 i (List.mem_range.mp hi))
  · exact le_rfl

/-- The noise-free run, as an explanation of the window that starts at `i`. -/
def truth (i : Nat) (x : Nat → Vec K d.nx) (u : Nat → Vec K d.nu) (z : Nat → Vec K d.nz) (pT : Vec K ne) : Explanation K d ne :=
  ⟨fun k => x (i + k), fun k => u (i + k), fun k => z (i + k), fun _ => 0, fun _ => 0, fun _ _ _ => 0, pT⟩

/-- With exact data and priors the truth is admissible and costs nothing. -/
theorem truth_admissible (T : EstimationTask K d ne ns) (hc : T.DefiniteCosts)
    (x : Nat → Vec K d.nx) (u : Nat → Vec K d.nu) (z : Nat → Vec K d.nz) (tv : Nat → Vec K d.ntv) (pT : Vec K ne) (pG : Vec K ns)
    (n : Nat) (hrun : T.NoiseFreeRun n x u z tv pT pG) (i : Nat) (hi : i + T.N ≤ n) (D : EstimationData K d ne ns) (hx : D.xPrior = x i) (hp : D.pPrior = pT)
    (hg : D.pGiven = pG) (htv : ∀ k < T.N, D.tvp k = tv (i + k)) (hy : ∀ k < T.N, D.y k = T.measured x u z tv pT pG (i + k)) :
    T.Admissible D (truth i x u z pT) ∧ T.cost D (truth i x u z pT) = 0 := by
  obtain ⟨r1, r2, r3, r5, r4⟩ := hrun
  obtain ⟨c1, c2, c3⟩ := hc
  set t := truth i x u z pT with ht
  have hta : T.Admissible D t := by
    refine ⟨?_, ?_, ?_, fun k hk => r3 _ (by omega), fun k hk => (r5 _ (by omega)).1, fun k hk => (r5 _ (by omega)).2, ?_, fun _ _ _ => rfl, r4⟩
    · intro k hk
      simp only [ht, truth, hg, htv k hk]
      exact r1 (i + k) (by omega)
    · intro k hk
      simp only [ht, truth, hg, htv k hk, hy k hk]
      rfl
    · intro k hk call hcall j hj
      simp only [ht, truth, hg, htv k hk, sub_zero, ite_self]
      exact r2 (i + k) (by omega) call hcall j hj
    · intro k _ call hcall hs j _
      exact ⟨le_rfl, (c3 call hcall hs).2⟩
  have ht0 : T.cost D t = 0 := by
    unfold EstimationTask.cost
    have : T.arrival (t.X 0) D.xPrior t.p D.pPrior D.pGiven = 0 := (c2 _ _ _ _ _).2.mpr ⟨hx.symm, hp.symm⟩
    rw [this, zero_add]
    apply List.sum_eq_zero
    intro y hy
    obtain ⟨k, -, rfl⟩ := List.mem_map.mp hy
    have : T.stage (t.W k) (t.V k) (D.tvp k) (T.merge t.p D.pGiven) = 0 := (c1 _ _ _ _).2.mpr ⟨rfl, rfl⟩
    rw [this, zero_add]
    exact slackCost_zero _
  exact ⟨hta, ht0⟩

/-- Definite costs are not negative. -/
theorem cost_nonneg' (T : EstimationTask K d ne ns) (hc : T.DefiniteCosts) (D : EstimationData K d ne ns) (e : Explanation K d ne) (he : T.Admissible D e) :
    0 ≤ T.cost D e := by
  obtain ⟨c1, c2, c3⟩ := hc
  apply add_nonneg (c2 _ _ _ _ _).1
  apply List.sum_nonneg
  intro y hy
  obtain ⟨k, hk, rfl⟩ := List.mem_map.mp hy
  exact add_nonneg (c1 _ _ _ _).1 (slackCost_nonneg _ _ fun call hcall hs =>
    ⟨(c3 call hcall hs).1, fun j hj => (he.2.2.2.2.2.2.1 k (List.mem_range.mp hk) call hcall hs j hj).1⟩)

/-- With exact data and priors the truth is a best explanation. -/
theorem truth_optimal (T : EstimationTask K d ne ns) (hc : T.DefiniteCosts)
    (x : Nat → Vec K d.nx) (u : Nat → Vec K d.nu) (z : Nat → Vec K d.nz) (tv : Nat → Vec K d.ntv) (pT : Vec K ne) (pG : Vec K ns)
    (n : Nat) (hrun : T.NoiseFreeRun n x u z tv pT pG) (i : Nat) (hi : i + T.N ≤ n) (D : EstimationData K d ne ns) (hx : D.xPrior = x i) (hp : D.pPrior = pT)
    (hg : D.pGiven = pG) (htv : ∀ k < T.N, D.tvp k = tv (i + k)) (hy : ∀ k < T.N, D.y k = T.measured x u z tv pT pG (i + k)) :
    T.Optimal D (truth i x u z pT) := by
  obtain ⟨h1, h2⟩ := truth_admissible T hc x u z tv pT pG n hrun i hi D hx hp hg htv hy
  exact ⟨h1, fun e' he' => by rw [h2]; exact cost_nonneg' T hc D e' he'⟩

theorem MheCfg.Plain.encode_solves (cfg : MheCfg K d ne ns) (h : cfg.Plain) (q : MheP K d ne ns) (e : Explanation K d ne) (he : cfg.task.Optimal q.toData e) :
    cfg.Solves (cfg.encode e) q := by
  obtain ⟨hX, hU, hZ, hW, hV, hp, hE⟩ := h.explain_encode cfg e he.1.2.2.2.2.2.2.2.1
  obtain ⟨ha, hc⟩ := explanation_congr cfg.task q.toData e _ hX hU hZ hW hV hp hE he.1
  rw [C72_minimiser_iff cfg h]
  exact ⟨ha, fun e' he' => by rw [hc]; exact he.2 e' he'⟩

/-- One window: with an exact prior and exact measurements every best explanation is the truth. -/
theorem exact_window_full (T : EstimationTask K d ne ns) (hc : T.DefiniteCosts) (ho : T.InputsObserved)
    (x : Nat → Vec K d.nx) (u : Nat → Vec K d.nu) (z : Nat → Vec K d.nz) (tv : Nat → Vec K d.ntv) (pT : Vec K ne) (pG : Vec K ns)
    (n : Nat) (hrun : T.NoiseFreeRun n x u z tv pT pG) (i : Nat) (hi : i + T.N ≤ n) (D : EstimationData K d ne ns) (hx : D.xPrior = x i) (hp : D.pPrior = pT)
    (hg : D.pGiven = pG) (htv : ∀ k < T.N, D.tvp k = tv (i + k)) (hy : ∀ k < T.N, D.y k = T.measured x u z tv pT pG (i + k))
    (e : Explanation K d ne) (he : T.Optimal D e) : e.p = pT ∧ (∀ k ≤ T.N, e.X k = x (i + k)) ∧ ∀ k < T.N, e.U k = u (i + k) ∧ e.Z k = z (i + k) := by
  obtain ⟨ht, ht0⟩ := truth_admissible T hc x u z tv pT pG n hrun i hi D hx hp hg htv hy
  obtain ⟨r1, r2, r3, r5, r4⟩ := hrun
  obtain ⟨c1, c2, c3⟩ := hc
  obtain ⟨a1, a2, -, -, -, -, a7, -, -⟩ := he.1
  have hle : T.cost D e ≤ 0 := ht0 ▸ he.2 _ ht
  have hnn : ∀ k < T.N, 0 ≤ slackCost T.cons (e.E k) := fun k hk =>
    slackCost_nonneg _ _ fun call hcall hs => ⟨(c3 call hcall hs).1, fun j hj => (a7 k hk call hcall hs j hj).1⟩
  have hterm : ∀ y ∈ (List.range T.N).map (fun k => T.stage (e.W k) (e.V k) (D.tvp k) (T.merge e.p D.pGiven) + slackCost T.cons (e.E k)),
      0 ≤ y := by
    intro y hy
    obtain ⟨k, hk, rfl⟩ := List.mem_map.mp hy
    exact add_nonneg (c1 _ _ _ _).1 (hnn k (List.mem_range.mp hk))
  have hsum := List.sum_nonneg hterm
  have harr := (c2 (e.X 0) D.xPrior e.p D.pPrior D.pGiven).1
  unfold EstimationTask.cost at hle
  have h1 : T.arrival (e.X 0) D.xPrior e.p D.pPrior D.pGiven = 0 := by linarith
  have h2 : ((List.range T.N).map (fun k => T.stage (e.W k) (e.V k) (D.tvp k) (T.merge e.p D.pGiven) + slackCost T.cons (e.E k))).sum = 0 := by
    linarith
  have h3 : ∀ k < T.N, e.W k = 0 ∧ e.V k = 0 := by
    intro k hk
    have := List.single_le_sum hterm _ (List.mem_map.mpr ⟨k, List.mem_range.mpr hk, rfl⟩)
    rw [h2] at this
    have hs := (c1 (e.W k) (e.V k) (D.tvp k) (T.merge e.p D.pGiven)).1
    exact (c1 _ _ _ _).2.mp (by have := hnn k hk; linarith)
  obtain ⟨hX0, hep⟩ := (c2 _ _ _ _ _).2.mp h1
  rw [hp] at hep
  have hUZ : ∀ k < T.N, e.X k = x (i + k) → e.U k = u (i + k) ∧ e.Z k = z (i + k) ∧ e.X (k + 1) = x (i + (k + 1)) := by
    intro k hk' ihk
    have b1 := a1 k hk'
    have b2 := a2 k hk'
    rw [(h3 k hk').1, hg, hep, ihk, htv k hk'] at b1
    rw [(h3 k hk').2, hg, hep, htv k hk', hy k hk'] at b2
    have hu : e.U k = u (i + k) := ho.1 _ _ _ _ _ _ _ _ b2
    rw [hu] at b1
    have hz : e.Z k = z (i + k) := ho.2 _ _ _ _ _ _ b1.1 (r1 (i + k) (by omega)).1
    refine ⟨hu, hz, ?_⟩
    rw [b1.2, hz]
    exact (r1 (i + k) (by omega)).2.symm
  have hX : ∀ k ≤ T.N, e.X k = x (i + k) := by
    intro k
    induction k with
    | zero => intro _; rw [hX0, hx]; rfl
    | succ k ih => intro hk; exact (hUZ k hk (ih (by omega))).2.2
  exact ⟨hep, hX, fun k hk => ⟨(hUZ k hk (hX k hk.le)).1, (hUZ k hk (hX k hk.le)).2.1⟩⟩

theorem exact_window (T : EstimationTask K d ne ns) (hc : T.DefiniteCosts) (ho : T.InputsObserved)
    (x : Nat → Vec K d.nx) (u : Nat → Vec K d.nu) (z : Nat → Vec K d.nz) (tv : Nat → Vec K d.ntv) (pT : Vec K ne) (pG : Vec K ns)
    (n : Nat) (hrun : T.NoiseFreeRun n x u z tv pT pG) (i : Nat) (hi : i + T.N ≤ n) (D : EstimationData K d ne ns) (hx : D.xPrior = x i) (hp : D.pPrior = pT)
    (hg : D.pGiven = pG) (htv : ∀ k < T.N, D.tvp k = tv (i + k)) (hy : ∀ k < T.N, D.y k = T.measured x u z tv pT pG (i + k))
    (e : Explanation K d ne) (he : T.Optimal D e) : e.p = pT ∧ ∀ k ≤ T.N, e.X k = x (i + k) :=
  have H := exact_window_full T hc ho x u z tv pT pG n hrun i hi D hx hp hg htv hy e he
  ⟨H.1, H.2.1⟩

/-- If problems with exact data and priors have solutions, and all of them are the truth, then all calls after an exact start are exact. -/
theorem MheEnv.exact_calls (E : MheEnv K d ne ns) (hN : 0 < E.cfg.N) (hst : ∀ s ∈ E.storeStats, s ∈ validStats)
    (x : Nat → Vec K d.nx) (Y : Nat → Vec K d.ny) (tv : Nat → Vec K d.ntv) (pT : Vec K ne) (pG : Vec K ns)
    (st : MheSt K d ne ns) (hw : st.data.width "_y" = some d.ny) (hy : E.yFun = none)
    (calls : List (MheCall K d ne ns E.nLagr)) (xs : List (Vec K d.nx)) (hok : E.outputs st calls = xs.map .ok)
    (hwin : ∀ i < calls.length, ∀ (q : MheP K d ne ns), q.xPrev = x i → q.pEstPrev = pT → q.pSet = pG → (∀ k < E.cfg.N, q.tvp k = tv (i + k)) →
      (∀ k < E.cfg.N, q.yMeas k = Y (i + k)) → ((∃ o, E.cfg.Solves o q) ∧
        ∀ o, E.cfg.Solves o q → E.cfg.pEstPhys o = pT ∧ ∀ k ≤ E.cfg.N, E.cfg.X o k = x (i + k)))
    (hsolve : ∀ i (hi : i < calls.length) a, (E.queries st calls)[i]? = some a → (∃ o, E.cfg.Solves o a.p) → E.cfg.Solves (calls[i].S a).x a.p)
    (old : List (List K)) (hold : ∀ y ∈ old, y.length = d.ny)
    (hlog : st.data.rows "_y" = old ++ (List.range (E.cfg.N - 1)).map fun k => List.ofFn (Y k))
    (hmeas : ∀ i (hi : i < calls.length), calls[i].y0 = List.ofFn (Y (E.cfg.N - 1 + i)))
    (htv : ∀ i < calls.length, ∀ k < E.cfg.N, E.tvpFun (st.t0 + i * E.tStep) k = tv (i + k))
    (hpG : ∀ i < calls.length, E.pFun (st.t0 + i * E.tStep) = pG)
    (hx0 : E.cfg.X st.optX 1 = x 0) (hp0 : st.pEst0 = pT) :
    ∀ i (hi : i < calls.length), ∃ a, (E.queries st calls)[i]? = some a ∧ xs[i]? = some (E.cfg.X (calls[i].S a).x E.cfg.N) ∧
      a.p.xPrev = x i ∧ a.p.pEstPrev = pT ∧ a.p.pSet = pG ∧ (∀ k < E.cfg.N, a.p.tvp k = tv (i + k)) ∧ (∀ k < E.cfg.N, a.p.yMeas k = Y (i + k)) ∧
      a.p.tvp = E.tvpFun (st.t0 + i * E.tStep) ∧ E.cfg.Solves (calls[i].S a).x a.p := by
  have hrows : ∀ y ∈ st.data.rows "_y", y.length = d.ny := by
    intro y hy
    rw [hlog] at hy
    rcases List.mem_append.mp hy with h | h
    · exact hold y h
    · obtain ⟨k, -, rfl⟩ := List.mem_map.mp h; simp
  obtain ⟨a, o, -, key⟩ := E.run_problems hst st hw hrows hy calls xs hok
  have hD : ∀ i (hi : i < calls.length), ∀ k < E.cfg.N, (a i).p.yMeas k = Y (i + k) := by
    intro i hi k hk
    obtain ⟨-, -, -, hwin, -⟩ := key i hi
    have htake : (calls.take (i + 1)).map (·.y0) =
        (List.range (i + 1)).map fun j => List.ofFn (Y (E.cfg.N - 1 + j)) := by
      apply List.ext_getElem
      · simp; omega
      · intro j h1 h2
        simp only [List.getElem_map, List.getElem_take, List.getElem_range]
        exact hmeas j (by simp at h1; omega)
    rw [hlog, htake, window_full E.cfg.N hN old (fun k => List.ofFn (Y k)) i] at hwin
    have := congrArg (fun l => l[k]?) hwin
    simp only [List.getElem?_map, List.getElem?_range hk, Option.map_some, Option.some.injEq] at this
    exact List.ofFn_injective this
  have hex : ∀ i (hi : i < calls.length), E.cfg.pEstPhys (o i) = pT ∧ ∀ k ≤ E.cfg.N, E.cfg.X (o i) k = x (i + k) := by
    intro i
    induction i with
    | zero =>
      intro hi
      obtain ⟨o1, o2, -, -, d2, d3, d4, d5⟩ := key 0 hi
      obtain ⟨w1, w2⟩ := hwin 0 hi (a 0).p (d4.trans (by rw [if_pos rfl, hx0])) (d5.trans (by rw [if_pos rfl, hp0])) (d3.trans (hpG 0 hi))
        (fun k hk => (congrFun d2 k).trans (htv 0 hi k hk)) (hD 0 hi)
      exact w2 _ (by rw [o2]; exact hsolve 0 hi _ o1 w1)
    | succ i ih =>
      intro hi
      obtain ⟨i1, i2⟩ := ih (by omega)
      obtain ⟨o1, o2, -, -, d2, d3, d4, d5⟩ := key (i + 1) hi
      obtain ⟨w1, w2⟩ := hwin (i + 1) hi (a (i + 1)).p (d4.trans (by rw [if_neg (by omega)]; exact i2 1 (by omega)))
        (d5.trans (by rw [if_neg (by omega)]; exact i1)) (d3.trans (hpG _ hi))
        (fun k hk => (congrFun d2 k).trans (htv _ hi k hk)) (hD _ hi)
      exact w2 _ (by rw [o2]; exact hsolve _ hi _ o1 w1)
  intro i hi
  have hprev : (a i).p.xPrev = x i ∧ (a i).p.pEstPrev = pT := by
    obtain ⟨o1, o2, -, -, d2, d3, d4, d5⟩ := key i hi
    cases i with
    | zero => exact ⟨d4.trans (by rw [if_pos rfl, hx0]), d5.trans (by rw [if_pos rfl, hp0])⟩
    | succ i =>
      obtain ⟨i1, i2⟩ := hex i (by omega)
      exact ⟨d4.trans (by rw [if_neg (by omega)]; exact i2 1 (by omega)), d5.trans (by rw [if_neg (by omega)]; exact i1)⟩
  obtain ⟨o1, o2, o3, -, d2, d3, -, -⟩ := key i hi
  have htv' : ∀ k < E.cfg.N, (a i).p.tvp k = tv (i + k) := fun k hk => (congrFun d2 k).trans (htv i hi k hk)
  have hg : (a i).p.pSet = pG := d3.trans (hpG i hi)
  exact ⟨a i, o1, by rw [← o2]; exact o3, hprev.1, hprev.2, hg, htv', hD i hi, d2,
    hsolve i hi _ o1 (hwin i hi (a i).p hprev.1 hprev.2 hg htv' (hD i hi)).1⟩

/-- … hence the returned states and the stored parameters are exact. -/
theorem MheEnv.exact_run (E : MheEnv K d ne ns) (hN : 0 < E.cfg.N) (hst : ∀ s ∈ E.storeStats, s ∈ validStats)
    (x : Nat → Vec K d.nx) (Y : Nat → Vec K d.ny) (tv : Nat → Vec K d.ntv) (pT : Vec K ne) (pG : Vec K ns)
    (st : MheSt K d ne ns) (hw : st.data.width "_y" = some d.ny) (hy : E.yFun = none)
    (calls : List (MheCall K d ne ns E.nLagr)) (xs : List (Vec K d.nx)) (hok : E.outputs st calls = xs.map .ok)
    (hwin : ∀ i < calls.length, ∀ (q : MheP K d ne ns), q.xPrev = x i → q.pEstPrev = pT → q.pSet = pG → (∀ k < E.cfg.N, q.tvp k = tv (i + k)) →
      (∀ k < E.cfg.N, q.yMeas k = Y (i + k)) → ((∃ o, E.cfg.Solves o q) ∧
        ∀ o, E.cfg.Solves o q → E.cfg.pEstPhys o = pT ∧ ∀ k ≤ E.cfg.N, E.cfg.X o k = x (i + k)))
    (hsolve : ∀ i (hi : i < calls.length) a, (E.queries st calls)[i]? = some a → (∃ o, E.cfg.Solves o a.p) → E.cfg.Solves (calls[i].S a).x a.p)
    (old : List (List K)) (hold : ∀ y ∈ old, y.length = d.ny)
    (hlog : st.data.rows "_y" = old ++ (List.range (E.cfg.N - 1)).map fun k => List.ofFn (Y k))
    (hmeas : ∀ i (hi : i < calls.length), calls[i].y0 = List.ofFn (Y (E.cfg.N - 1 + i)))
    (htv : ∀ i < calls.length, ∀ k < E.cfg.N, E.tvpFun (st.t0 + i * E.tStep) k = tv (i + k))
    (hpG : ∀ i < calls.length, E.pFun (st.t0 + i * E.tStep) = pG)
    (hx0 : E.cfg.X st.optX 1 = x 0) (hp0 : st.pEst0 = pT) :
    xs = (List.range calls.length).map (fun i => x (i + E.cfg.N)) ∧ (E.after st calls).pEst0 = pT := by
  have key := E.exact_calls hN hst x Y tv pT pG st hw hy calls xs hok hwin hsolve old hold hlog hmeas htv hpG hx0 hp0
  have hex : ∀ i (hi : i < calls.length), ∃ a, (E.queries st calls)[i]? = some a ∧ xs[i]? = some (x (i + E.cfg.N)) ∧ E.cfg.pEstPhys (calls[i].S a).x = pT := by
    intro i hi
    obtain ⟨a, a1, a2, a3, a4, a5, a6, a7, -, a8⟩ := key i hi
    obtain ⟨w1, w2⟩ := (hwin i hi a.p a3 a4 a5 a6 a7).2 _ a8
    exact ⟨a, a1, by rw [a2, w2 _ le_rfl], w1⟩
  have hlen : xs.length = calls.length := by
    have := E.outputs_length st calls
    rw [hok] at this
    simpa using this
  constructor
  · apply List.ext_getElem?
    intro i
    by_cases hi : i < calls.length
    · obtain ⟨-, -, h, -⟩ := hex i hi
      rw [h]
      simp [hi]
    · simp only [List.getElem?_map]
      rw [List.getElem?_eq_none (by omega), List.getElem?_eq_none (by simp; omega)]
      rfl
  · rcases Nat.eq_zero_or_pos calls.length with h0 | h0
    · have : calls = [] := List.length_eq_zero_iff.mp h0
      subst this
      exact hp0
    · obtain ⟨n, hn⟩ : ∃ n, calls.length = n + 1 := ⟨calls.length - 1, by omega⟩
      obtain ⟨a, ha, -, h⟩ := hex n (by omega)
      rw [E.after_pEst0 hst st hw calls xs hok n hn a ha]
      exact h

/-- **C73** (partial: the fragment of `Plain`): the plant is the model without noise.  Once the window is filled with exact
measurements and the prior is exact, and the solver finds a global minimiser whenever there is one, every further call of `make_step` returns exactly the plant's state and leaves exactly its
parameters, for ever. -/
theorem C73_exact_estimates_partial (E : MheEnv K d ne ns) (h : E.cfg.Plain) (hst : ∀ s ∈ E.storeStats, s ∈ validStats)
    (hc : E.cfg.task.DefiniteCosts) (ho : E.cfg.task.InputsObserved)
    (x : Nat → Vec K d.nx) (u : Nat → Vec K d.nu) (z : Nat → Vec K d.nz) (tv : Nat → Vec K d.ntv) (pT : Vec K ne) (pG : Vec K ns)
    (st : MheSt K d ne ns) (hw : st.data.width "_y" = some d.ny) (hy : E.yFun = none)
    (calls : List (MheCall K d ne ns E.nLagr)) (xs : List (Vec K d.nx)) (hok : E.outputs st calls = xs.map .ok)
    (hrun : E.cfg.task.NoiseFreeRun (E.cfg.N - 1 + calls.length) x u z tv pT pG)
    (hsolve : ∀ i (hi : i < calls.length) a, (E.queries st calls)[i]? = some a → (∃ o, E.cfg.Solves o a.p) → E.cfg.Solves (calls[i].S a).x a.p)
    (old : List (List K)) (hold : ∀ y ∈ old, y.length = d.ny)
    (hlog : st.data.rows "_y" = old ++ (List.range (E.cfg.N - 1)).map fun k => List.ofFn (E.cfg.task.measured x u z tv pT pG k))
    (hmeas : ∀ i (hi : i < calls.length), calls[i].y0 = List.ofFn (E.cfg.task.measured x u z tv pT pG (E.cfg.N - 1 + i)))
    (htv : ∀ i < calls.length, ∀ k < E.cfg.N, E.tvpFun (st.t0 + i * E.tStep) k = tv (i + k))
    (hpG : ∀ i < calls.length, E.pFun (st.t0 + i * E.tStep) = pG)
    (hx0 : E.cfg.X st.optX 1 = x 0) (hp0 : st.pEst0 = pT) :
    xs = (List.range calls.length).map (fun i => x (i + E.cfg.N)) ∧ (E.after st calls).pEst0 = pT := by
  refine E.exact_run h.N hst x (E.cfg.task.measured x u z tv pT pG) tv pT pG st hw hy calls xs hok ?_ hsolve old hold hlog hmeas htv hpG hx0 hp0
  intro i hi q h1 h2 h3 h4 h5
  have hiN : i + E.cfg.task.N ≤ E.cfg.N - 1 + calls.length := by show i + E.cfg.N ≤ _; have := h.N; omega
  refine ⟨⟨_, h.encode_solves E.cfg q _ (truth_optimal E.cfg.task hc x u z tv pT pG _ hrun i hiN q.toData h1 h2 h3 h4 h5)⟩, fun o h6 => ?_⟩
  exact exact_window E.cfg.task hc ho x u z tv pT pG _ hrun i hiN q.toData h1 h2 h3 h4 h5 _ ((C72_minimiser_iff E.cfg h o q).mp h6)

namespace MheOptEx
/-- one state, a measured input, an estimated parameter, process and measurement noise -/
abbrev dd : Dims := ⟨1, 1, 0, 0, 1, 1, 1, 2, 0⟩
/-- `x⁺ = x + u + p + w`, `y = (x + v, u)` -/
abbrev mm : DaeModel ℚ dd where
  rhs := fun x u _ _ p w => x + u + p + w
  alg := fun _ _ _ _ _ _ => Fin.elim0
  meas := fun x u _ _ _ v j => if j = 0 then x 0 + v 0 else u 0
  aux := fun _ _ _ _ _ => Fin.elim0
/-- window of two intervals, state scaling 2, constraint `-x ≤ 0` -/
abbrev E : MheEnv ℚ dd 1 0 where
  cfg := { N := 2
           model := mm
           ifcn := discreteIfcn mm (fun _ => 2) (fun _ => 1) Fin.elim0 (fun _ => 1)
           sel := fun _ => .inl 0, sx := fun _ => 2, su := fun _ => 1, sz := Fin.elim0, sp := fun _ => 1
           xlb := fun _ => .ninf, xub := fun _ => .pinf, ulb := fun _ => .fin 0, uub := fun _ => .pinf
           zlb := fun _ => .ninf, zub := fun _ => .pinf, plb := fun _ => .ninf, pub := fun _ => .fin 5
           nl := [⟨"pos", 1, fun x _ _ _ _ _ => - x 0, .fin 0, false, 0, .pinf⟩]
           stage := fun w v _ _ => w 0 ^ 2 + v 0 ^ 2, arrival := fun x xp p pp _ => (x 0 - xp 0) ^ 2 + (p 0 - pp 0) ^ 2 }
  tStep := 1
  tvpFun := fun _ _ => Fin.elim0
  pFun := fun _ => Fin.elim0
  nOptX := 1
  nOptP := 1
  nOptAux := 0
  nLagr := 1
  flatX := fun o => o.x 2 0
  flatP := fun q => q.xPrev
  flatAux := fun _ _ => Fin.elim0
/-- states predicted from the priors and the measured inputs -/
def predict (a : MheArgs ℚ dd 1 0) : Nat → ℚ
  | 0 => a.p.xPrev 0
  | k + 1 => predict a k + a.p.yMeas k 1 + a.p.pEstPrev 0
/-- a "solver" that trusts the priors: no process noise, the measurement noise is what is left over -/
def S (a : MheArgs ℚ dd 1 0) : MheResult ℚ dd 1 1 :=
  { x := ⟨fun k _ _ => predict a k / 2, fun _ _ => Fin.elim0, fun k _ => a.p.yMeas k 1, fun _ _ => 0,
          fun k _ => a.p.yMeas k 0 - predict a (k + 1), fun _ _ _ => 0, a.p.pEstPrev⟩
    lamG := fun _ => 0, lamX := [], stats := [] }
/-- the plant: `p = 1`, inputs `0, 1, 2, …`, states `0, 1, 3, 6, …` -/
def x (k : Nat) : Vec ℚ 1 := fun _ => (k : ℚ) * (k + 1) / 2
def u (k : Nat) : Vec ℚ 1 := fun _ => k
/-- the estimator with exact priors after the first measurement `(1, 0)` -/
def st : MheSt ℚ dd 1 0 :=
  { E.fresh 0 (fun _ => 0) (fun _ => 0) Fin.elim0 (fun _ => 1) with
    data := ((Data.new (E.fields 0)).update [("_y", .arr [1, 0])]).1 }
def calls : List (MheCall ℚ dd 1 0 E.nLagr) := [⟨S, [3, 1]⟩, ⟨S, [6, 2]⟩]

theorem plain : E.cfg.Plain where
  ifcn := rfl
  nlColloc := rfl
  consColloc := rfl
  names := by decide
  sp := rfl
  sx := by intro i; norm_num
  su := by intro i; norm_num
  sz := fun i => i.elim0
  N := by decide

theorem definite : E.cfg.task.DefiniteCosts := by
  refine ⟨?_, ?_, ?_⟩
  · intro w v tv p
    refine ⟨add_nonneg (sq_nonneg _) (sq_nonneg _), ?_⟩
    change w 0 ^ 2 + v 0 ^ 2 = 0 ↔ _
    rw [add_eq_zero_iff_of_nonneg (sq_nonneg _) (sq_nonneg _), sq_eq_zero_iff, sq_eq_zero_iff]
    constructor
    · rintro ⟨h1, h2⟩
      exact ⟨funext fun i => by rw [Subsingleton.elim i 0]; exact h1, funext fun i => by rw [Subsingleton.elim i 0]; exact h2⟩
    · rintro ⟨rfl, rfl⟩; exact ⟨rfl, rfl⟩
  · intro x xp p pp g
    refine ⟨add_nonneg (sq_nonneg _) (sq_nonneg _), ?_⟩
    change (x 0 - xp 0) ^ 2 + (p 0 - pp 0) ^ 2 = 0 ↔ _
    rw [add_eq_zero_iff_of_nonneg (sq_nonneg _) (sq_nonneg _), sq_eq_zero_iff, sq_eq_zero_iff, sub_eq_zero, sub_eq_zero]
    constructor
    · rintro ⟨h1, h2⟩
      exact ⟨funext fun i => by rw [Subsingleton.elim i 0]; exact h1, funext fun i => by rw [Subsingleton.elim i 0]; exact h2⟩
    · rintro ⟨rfl, rfl⟩; exact ⟨rfl, rfl⟩
  · intro call hc hs
    simp only [MheCfg.task, List.mem_singleton] at hc
    subst hc; simp at hs

theorem observed : E.cfg.task.InputsObserved := by
  constructor
  · intro x x' u u' z z' tv p h
    have := congrFun h 1
    simp [MheCfg.task] at this
    exact funext fun i => by rw [Subsingleton.elim i 0]; exact this
  · intro x u z z' tv p _ _
    exact Subsingleton.elim (α := Fin 0 → ℚ) _ _

theorem run (n : Nat) : E.cfg.task.NoiseFreeRun n x u (fun _ => Fin.elim0) (fun _ => Fin.elim0) (fun _ => 1) Fin.elim0 := by
  have hx : ∀ (k : Nat) i, 0 ≤ x k i := by intro k i; unfold x; positivity
  refine ⟨?_, ?_, fun k _ j => ⟨trivial, trivial⟩, ?_, ?_⟩
  · intro k _
    refine ⟨Subsingleton.elim (α := Fin 0 → ℚ) _ _, ?_⟩
    funext i
    simp [MheCfg.task, x, u, MheCfg.cat]
    ring
  · intro k _ call hc i _
    simp only [MheCfg.task, List.mem_singleton] at hc
    subst hc
    simp only [Bound.ge]
    have := hx k 0
    linarith
  · intro k _
    refine ⟨fun j => j.elim0, fun j => ⟨?_, trivial⟩⟩
    change (0 : ℚ) ≤ (k : ℚ)
    positivity
  · intro j
    refine ⟨trivial, ?_⟩
    change (1 : ℚ) ≤ 5
    norm_num

/-- On exact data the solver's answer is a global minimiser. -/
theorem solves (a : MheArgs ℚ dd 1 0) (h0 : 0 ≤ a.p.xPrev 0) (hp0 : 0 ≤ a.p.pEstPrev 0) (hp5 : a.p.pEstPrev 0 ≤ 5)
    (hu : ∀ k < 2, 0 ≤ a.p.yMeas k 1) (hy : ∀ k < 2, a.p.yMeas k 0 = predict a (k + 1)) : E.cfg.Solves (S a).x a.p := by
  rw [C72_minimiser_iff E.cfg plain]
  have hX : ∀ k j, (E.cfg.explain (S a).x).X k j = predict a k := by
    intro k j
    change predict a k / 2 * 2 = _
    ring
  have hpred : ∀ k ≤ 2, 0 ≤ predict a k := by
    intro k
    induction k with
    | zero => intro _; exact h0
    | succ k ih => intro hk; have := ih (by omega); have := hu k (by omega); simp only [predict]; linarith
  have hV : ∀ k < 2, (E.cfg.explain (S a).x).V k = 0 := by
    intro k hk
    funext j
    change a.p.yMeas k 0 - predict a (k + 1) = 0
    rw [hy k hk, sub_self]
  have hp1 : (E.cfg.explain (S a).x).p = a.p.pEstPrev := by funext j; exact mul_one _
  have hU : ∀ k j, (E.cfg.explain (S a).x).U k j = a.p.yMeas k 1 := fun k j => mul_one _
  constructor
  · refine ⟨?_, ?_, ?_, fun k _ j => ⟨trivial, trivial⟩, fun k _ j => j.elim0, ?_, ?_, (fun h => Bool.noConfusion h), ?_⟩
    · intro k hk
      refine ⟨Subsingleton.elim (α := Fin 0 → ℚ) _ _, ?_⟩
      funext j
      rw [hX, hp1]
      change _ = (E.cfg.explain (S a).x).X k j + (E.cfg.explain (S a).x).U k j + a.p.pEstPrev 0 + 0
      rw [hX, hU, add_zero]; rfl
    · intro k hk
      rw [hV k hk]
      funext j
      change (if j = 0 then (E.cfg.explain (S a).x).X (k + 1) 0 + 0 else (E.cfg.explain (S a).x).U k 0) = a.p.yMeas k j
      rw [hX, hU, add_zero]
      split_ifs with hj
      · rw [hj]; exact (hy k hk).symm
      · have hj1 : ∀ j : Fin 2, ¬ j = 0 → j = 1 := by decide
        rw [hj1 j hj]
    · intro k hk call hc i _
      simp only [MheCfg.task, List.mem_singleton] at hc
      subst hc
      simp only [Bound.ge, Bool.false_eq_true, if_false, hX]
      have := hpred k (by have : k < 2 := hk; omega)
      linarith
    · intro k hk j
      refine ⟨?_, trivial⟩
      change (0 : ℚ) ≤ (E.cfg.explain (S a).x).U k j
      rw [hU]; exact hu k hk
    · intro k _ call hc hs
      simp only [MheCfg.task, List.mem_singleton] at hc
      subst hc; simp at hs
    · rw [hp1]
      intro j
      refine ⟨trivial, ?_⟩
      rw [Subsingleton.elim j 0]; exact hp5
  · intro e' he'
    have hnn : 0 ≤ E.cfg.task.cost a.p.toData e' := by
      unfold EstimationTask.cost
      apply add_nonneg (definite.2.1 _ _ _ _ _).1
      apply List.sum_nonneg
      intro y hy
      obtain ⟨k, -, rfl⟩ := List.mem_map.mp hy
      exact add_nonneg (definite.1 _ _ _ _).1 (by simp [slackCost, MheCfg.task])
    refine le_trans (le_of_eq ?_) hnn
    unfold EstimationTask.cost
    have hX0 : (E.cfg.explain (S a).x).X 0 = a.p.xPrev := by
      funext j; rw [hX, Subsingleton.elim j 0]; rfl
    have harr : E.cfg.task.arrival ((E.cfg.explain (S a).x).X 0) a.p.toData.xPrior (E.cfg.explain (S a).x).p a.p.toData.pPrior
        a.p.toData.pGiven = 0 := (definite.2.1 _ _ _ _ _).2.mpr ⟨hX0, hp1⟩
    rw [harr, zero_add]
    apply List.sum_eq_zero
    intro y hy
    obtain ⟨k, hk, rfl⟩ := List.mem_map.mp hy
    have hstage : E.cfg.task.stage ((E.cfg.explain (S a).x).W k) ((E.cfg.explain (S a).x).V k) (a.p.toData.tvp k)
        (E.cfg.task.merge (E.cfg.explain (S a).x).p a.p.toData.pGiven) = 0 :=
      (definite.1 _ _ _ _).2.mpr ⟨rfl, hV k (List.mem_range.mp hk)⟩
    rw [hstage]
    simp [slackCost, MheCfg.task]

theorem solved : ∀ i (hi : i < calls.length) a, (E.queries st calls)[i]? = some a → E.cfg.Solves (calls[i].S a).x a.p := by
  intro i hi a ha
  have : i = 0 ∨ i = 1 := by have : i < 2 := hi; omega
  rcases this with rfl | rfl
  · have e : a = E.args st [3, 1] := by simpa [calls, MheEnv.queries] using ha.symm
    rw [e]
    exact solves _ (by decide +kernel) (by decide +kernel) (by decide +kernel) (by decide +kernel) (by decide +kernel)
  · have e : a = E.args (E.makeStep S st [3, 1]).1 [6, 2] := by simpa [calls, MheEnv.queries] using ha.symm
    rw [e]
    exact solves _ (by decide +kernel) (by decide +kernel) (by decide +kernel) (by decide +kernel) (by decide +kernel)

theorem succeeds : ∃ xs : List (Vec ℚ 1), E.outputs st calls = xs.map .ok := by
  have h : ∀ c ∈ E.outputs st calls, c.toOption.isSome = true := by decide +kernel
  refine ⟨(E.outputs st calls).filterMap Except.toOption, ?_⟩
  generalize E.outputs st calls = l at h
  induction l with
  | nil => rfl
  | cons c cs ih =>
    have hc := h c (by simp)
    cases c with
    | error e => simp [Except.toOption] at hc
    | ok x => simpa [Except.toOption] using ih fun c hc => h c (by simp [hc])
end MheOptEx

open MheOptEx in
/-- Non-vacuity of C72 and C73: all hypotheses hold for the run above; the two calls return 3 and 6. -/
example : ∃ xs : List (Vec ℚ 1), E.outputs st calls = xs.map .ok ∧ xs = [fun _ => 3, fun _ => 6] ∧ (E.after st calls).pEst0 = fun _ => 1 := by
  obtain ⟨xs, hxs⟩ := succeeds
  have := C73_exact_estimates_partial E plain (by decide) definite observed x u (fun _ => Fin.elim0) (fun _ => Fin.elim0)
    (fun _ => 1) Fin.elim0 st (by decide +kernel) rfl calls xs hxs (run _) (fun i hi a ha _ => solved i hi a ha) [] (by simp) (by decide +kernel)
    (by
      intro i hi
      have : i = 0 ∨ i = 1 := by have : i < 2 := hi; omega
      rcases this with rfl | rfl
      · change [(3 : ℚ), 1] = _
        clear hi; decide +kernel
      · change [(6 : ℚ), 2] = _
        clear hi; decide +kernel)
    (fun _ _ _ _ => Subsingleton.elim (α := Fin 0 → ℚ) _ _) (fun _ _ => Subsingleton.elim (α := Fin 0 → ℚ) _ _)
    (by funext j; rw [Subsingleton.elim j 0]; decide +kernel) rfl
  refine ⟨xs, hxs, ?_, this.2⟩
  rw [this.1]
  have h : ∀ i : Nat, x (i + E.cfg.N) = fun _ => ((i : ℚ) + 2) * (i + 3) / 2 := by
    intro i; funext j; simp only [x]; push_cast; ring
  simp only [h]
  change [_, _] = _
  norm_num

end DoMpc
