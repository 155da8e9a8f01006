import Verif.Props.SoftRelaxMhe
import Verif.Props.MheOptimalCollEx

/-!
# C120 for estimators of continuous-time models
-/
set_option linter.unusedSectionVars false
namespace DoMpc
open Spec
variable {K : Type} [Field K] [LinearOrder K] [IsStrictOrderedRing K] {d : Dims} {ne ns : Nat} (T : MheTools K d ne ns)

/-- **C120 (documented estimation problem, continuous time).**  Soft constraints without a maximum violation may be left out without making a difference for whether there is an explanation. -/
theorem C120_relax_estimator_collocation (T : CollEstimation K d ne ns) (D : EstimationData K d ne ns) (cons' : List (NlCall K d)) (hsub : ∀ call ∈ cons', call ∈ T.cons)
    (hdrop : ∀ call ∈ T.cons, call ∉ cons' → NeverBlocks call) (hn : (T.cons.map (·.name)).Nodup) :
    (∃ e, T.Admissible D e) ↔ ∃ e, ({ T with cons := cons' } : CollEstimation K d ne ns).Admissible D e := by
  have uniq : ∀ c ∈ T.cons, ∀ c' ∈ T.cons, c.name = c'.name → c = c' := fun c h c' h' e => List.inj_on_of_nodup_map hn h h' e
  constructor
  · rintro ⟨e, a1, a2, a3, a4, a4', a5, a6, a7, a8, a9⟩
    exact ⟨e, a1, a2, fun k hk call hcall => a3 k hk call (hsub call hcall), a4, a4', a5, a6, fun k hk call hcall => a7 k hk call (hsub call hcall), a8, a9⟩
  · rintro ⟨e, a1, a2, a3, a4, a4', a5, a6, a7, a8, a9⟩
    have hcov : ∀ (call : NlCall K d) (i : Nat), ∃ v : K, 0 ≤ v ∧ (call.ub ≠ .ninf → ∀ k < T.N,
        call.ub.ge (call.expr (e.X k) (e.U k) (e.ζ k 0 0) (D.tvp k) (T.merge e.p D.pGiven) i - v)) := fun call i => by
      by_cases hub : call.ub = .ninf
      · exact ⟨0, le_refl _, fun h => absurd hub h⟩
      · obtain ⟨v, hv, hall⟩ := exists_cover call.ub hub (fun k => call.expr (e.X k) (e.U k) (e.ζ k 0 0) (D.tvp k) (T.merge e.p D.pGiven) i) (List.range T.N)
        exact ⟨v, hv, fun _ k hk => hall k (List.mem_range.2 hk)⟩
    choose cov hcov0 hcov1 using hcov
    classical
    let E' : Nat → Eps K := fun k n i => if H : ∃ call ∈ T.cons, call ∉ cons' ∧ call.name = n then cov H.choose i else e.E k n i
    have hE1 : ∀ k call i, call ∈ T.cons → call ∉ cons' → E' k call.name i = cov call i := fun k call i hc hc' => by
      have H : ∃ call' ∈ T.cons, call' ∉ cons' ∧ call'.name = call.name := ⟨call, hc, hc', rfl⟩
      have e : H.choose = call := uniq _ H.choose_spec.1 _ hc H.choose_spec.2.2
      exact (dif_pos H).trans (by rw [e])
    have hE2 : ∀ k call i, call ∈ cons' → E' k call.name i = e.E k call.name i := fun k call i hc => by
      refine dif_neg ?_
      rintro ⟨c, h1, h2, h3⟩
      exact h2 (uniq c h1 call (hsub call hc) h3 ▸ hc)
    refine ⟨{ e with E := E' }, a1, a2, ?_, a4, a4', a5, a6, ?_, ?_, a9⟩
    · intro k hk call hcall i hi
      show if call.soft = true then call.ub.ge (_ - E' k call.name i) else _
      by_cases hc : call ∈ cons'
      · rw [hE2 k call i hc]
        exact a3 k hk call hc i hi
      · obtain ⟨n1, n2, n3⟩ := hdrop call hcall hc
        rw [if_pos n1, hE1 k call i hcall hc]
        exact hcov1 call i n3 k hk
    · intro k hk call hcall hs i hi
      show 0 ≤ E' k call.name i ∧ call.maxViolation.ge (E' k call.name i)
      by_cases hc : call ∈ cons'
      · rw [hE2 k call i hc]
        exact a7 k hk call hc hs i hi
      · rw [hE1 k call i hcall hc, (hdrop call hcall hc).2.1]
        exact ⟨hcov0 call i, trivial⟩
    · intro hs k hk
      funext n i
      show E' k n i = E' 0 n i
      by_cases H : ∃ call ∈ T.cons, call ∉ cons' ∧ call.name = n
      · have u : ∀ k, E' k n i = cov H.choose i := fun k => dif_pos H
        rw [u, u]
      · have u : ∀ k, E' k n i = e.E k n i := fun k => dif_neg H
        rw [u, u]
        exact congrFun (congrFun (a8 hs k hk) n) i

/-- **C120 (the estimator, continuous time).**  Two estimators configured by the same calls, except that some `set_nl_cons` calls of soft constraints without a maximum violation are left out for the
second one: `setup()` succeeds for the second if it does for the first, and for all data the solver of the first has a feasible point if and only if that of the second has. -/
theorem C120_never_blocks_estimator_collocation (S : MheSettings K) (deg ni : Nat) (tau : Nat → K) (htau : tau 0 = 0) (hinj : ∀ i ≤ deg, ∀ j ≤ deg, tau i = tau j → i = j)
    (ops1 ops2 : List (MheOp K d ne ns)) (h1 : ∀ op ∈ ops1, MheConfigures op) (h2 : ∀ op ∈ ops2, MheLater op)
    (hT : ∀ (s : MheSettings K) sx su sz sp, setupCollocation T.model sx su sz sp deg ni tau s.tStep = .ok (T.ifcn s sx su sz sp))
    (hmeas : ∀ x u z z' tv p v, T.model.meas x u z tv p v = T.model.meas x u z' tv p v)
    (keep : MheOp K d ne ns → Bool) (hk : ∀ op ∈ ops1, keep op = false → ∃ call, op = .setNlCons call ∧ NeverBlocks call) :
    let o1 := (MheObj.new S : MheObj K d ne ns).run T ops1
    let o1' := (MheObj.new S : MheObj K d ne ns).run T (ops1.filter keep)
    let o := o1.run T (.setup :: ops2)
    let o' := o1'.run T (.setup :: ops2)
    let calls := ops1 ++ ops2.filter mheIsBound
    (o1.exec T .setup).2 = none → PlainMheCalls S calls →
      (o1'.exec T .setup).2 = none ∧ ∀ q, (∃ w, MheSolverFeasible o w q) ↔ ∃ w, MheSolverFeasible o' w q := by
  intro o1 o1' o o' calls hs hp
  have hl : ∀ {β : Type} (f : MheOp K d ne ns → Option β), (∀ c, f (.setNlCons c) = none) → ∀ v, lastOf f (ops1.filter keep) v = lastOf f ops1 v := fun f hf v =>
    lastOf_mheFilter keep f ops1 (fun op hop hkeep => by obtain ⟨c, rfl, -⟩ := hk op hop hkeep; exact hf c) v
  let keep' : MheOp K d ne ns → Bool := fun op => keep op || mheIsBound op
  have hcalls : ops1.filter keep' ++ ops2.filter mheIsBound = calls.filter keep' := by
    show _ = (ops1 ++ ops2.filter mheIsBound).filter keep'
    rw [List.filter_append]
    congr 1
    symm
    exact List.filter_eq_self.2 fun op hop => by simp [keep', (List.mem_filter.1 hop).2]
  have hkk : ops1.filter keep = ops1.filter keep' := List.filter_congr fun op hop => by
    by_cases hkeep : keep op = true
    · simp [keep', hkeep]
    · obtain ⟨c, rfl, -⟩ := hk op hop (by simpa using hkeep)
      simp [keep', mheIsBound]
  have hk' : ∀ op ∈ calls, keep' op = false → ∃ call, op = .setNlCons call ∧ NeverBlocks call := fun op hop hkeep => by
    have hkeep' : keep op = false ∧ mheIsBound op = false := by simpa [keep'] using hkeep
    rcases List.mem_append.1 hop with h | h
    · exact hk op h hkeep'.1
    · have := (List.mem_filter.1 h).2
      rw [hkeep'.2] at this
      exact absurd this (by decide)
  have hl' : ∀ {β : Type} (f : MheOp K d ne ns → Option β), (∀ c, f (.setNlCons c) = none) → ∀ v, lastOf f (calls.filter keep') v = lastOf f calls v := fun f hf v =>
    lastOf_mheFilter keep' f calls (fun op hop hkeep => by obtain ⟨c, rfl, -⟩ := hk' op hop hkeep; exact hf c) v
  have hconf : ∀ op ∈ ops1.filter keep, MheConfigures op := fun op hop => h1 op (List.mem_filter.1 hop).1
  have kept : ∀ op, op ∈ ops1 → (∀ c, op ≠ .setNlCons c) → op ∈ ops1.filter keep := fun op hop hne => by
    refine List.mem_filter.2 ⟨hop, ?_⟩
    by_contra hkeep
    obtain ⟨c, e, -⟩ := hk _ hop (by simpa using hkeep)
    exact hne c e
  have hs' : (o1'.exec T .setup).2 = none := by
    obtain ⟨a1, a2, a3, a4, a5, a6⟩ := (C86_setup_returns_iff T S ops1 h1).1 hs
    refine (C86_setup_returns_iff T S _ hconf).2 ?_
    have hset := hl mheSettingsOf (fun _ => rfl) S
    have hsc : ∀ v (w : K), lastOf (mheScalingOf v) (ops1.filter keep) w = lastOf (mheScalingOf v) ops1 w := fun v w => hl _ (fun _ => rfl) w
    have hb : ∀ s v (w : Bound K), lastOf (mheBoundOf s v) (ops1.filter keep) w = lastOf (mheBoundOf s v) ops1 w := fun s v w => hl _ (fun _ => rfl) w
    simp only [hset, hsc, hb]
    exact ⟨a1.imp fun _ h => kept _ h fun _ => by simp, fun h => (a2 h).imp fun _ h => kept _ h fun _ => by simp, fun h => (a3 h).imp fun _ h => kept _ h fun _ => by simp,
      a4, a5.imp_left fun h => h.imp fun _ h => kept _ h fun _ => by simp, a6⟩
  have e1 := hl' mheSettingsOf (fun _ => rfl) S
  have e2 : ∀ s v (w : Bound K), lastOf (mheBoundOf s v) (calls.filter keep') w = lastOf (mheBoundOf s v) calls w := fun s v w => hl' _ (fun _ => rfl) w
  have e4 : ∀ v (w : K), lastOf (mheScalingOf v) (calls.filter keep') w = lastOf (mheScalingOf v) calls w := fun v w => hl' _ (fun _ => rfl) w
  have hcfg : ∀ co, mheConfiguredColl S (calls.filter keep') co T.model T.sel deg ni tau = { mheConfiguredColl S calls co T.model T.sel deg ni tau with cons := (calls.filter keep').filterMap mheNlConsOf } := fun co => by
    unfold mheConfiguredColl mheConfigured
    simp only [e1, e2]
  have hp' : PlainMheCalls S (ops1.filter keep ++ ops2.filter mheIsBound) := by
    rw [hkk, hcalls]
    obtain ⟨a1, a2, a3, a4, a5, a6, a7, a8⟩ := hp
    exact ⟨by rw [e1]; exact a1, by rw [e1]; exact a2, by rw [e1]; exact a3, a4.sublist (((List.filter_sublist).filterMap _).map _), fun v => by rw [e4]; exact a5 v,
      fun v => by rw [e4]; exact a6 v, fun v => by rw [e4]; exact a7 v, fun v => by rw [e4]; exact a8 v⟩
  refine ⟨hs', fun q => ?_⟩
  obtain ⟨co, hco, -, hall⟩ := C97_estimate_collocation T S deg ni tau htau hinj ops1 ops2 h1 h2 hT hmeas hs hp
  obtain ⟨co', hco', -, hall'⟩ := C97_estimate_collocation T S deg ni tau htau hinj (ops1.filter keep) ops2 hconf h2 hT hmeas hs' hp'
  obtain rfl : co' = co := by
    rw [hl _ fun _ => rfl, hco] at hco'
    exact (Option.some.inj hco').symm
  refine (hall q).trans (Iff.trans ?_ (hall' q).symm)
  rw [hkk, hcalls, hcfg co']
  refine C120_relax_estimator_collocation _ _ _ (fun call hcall => ?_) (fun call hcall hnot => ?_) hp.names
  · obtain ⟨op, hop, e⟩ := List.mem_filterMap.1 hcall
    exact List.mem_filterMap.2 ⟨op, (List.mem_filter.1 hop).1, e⟩
  · obtain ⟨op, hop, e⟩ := List.mem_filterMap.1 hcall
    have hkeep : keep' op = false := by
      by_contra hkeep
      exact hnot (List.mem_filterMap.2 ⟨op, List.mem_filter.2 ⟨hop, by simpa using hkeep⟩, e⟩)
    obtain ⟨c, rfl, hc⟩ := hk' op hop hkeep
    exact Option.some.inj e ▸ hc

/-- **C120 (documented estimation problem, nothing violated, continuous time).**  A best explanation that violates no soft constraint is a best explanation for the problem in which all constraints
are hard. -/
theorem C120_unused_estimator_collocation (T : CollEstimation K d ne ns) (D : EstimationData K d ne ns) (e : CollExplanation K d ne) (ho : T.Optimal D e)
    (hz : ∀ k < T.N, ∀ call ∈ T.cons, call.soft = true → ∀ i < call.dim, e.E k call.name i = 0) :
    ({ T with cons := T.cons.map asHard } : CollEstimation K d ne ns).Optimal D e := by
  obtain ⟨ha, hmin⟩ := ho
  have hard0 : ∀ E : Eps K, slackCost (T.cons.map asHard) E = 0 := fun E => by
    unfold slackCost
    rw [List.map_map]
    exact List.sum_eq_zero fun a ha => by
      obtain ⟨c, -, rfl⟩ := List.mem_map.1 ha
      rfl
  have soft0 : ∀ E : Eps K, (∀ call ∈ T.cons, call.soft = true → ∀ i < call.dim, E call.name i = 0) → slackCost T.cons E = 0 := fun E hE => by
    unfold slackCost
    refine List.sum_eq_zero fun a ha => ?_
    obtain ⟨c, hc, rfl⟩ := List.mem_map.1 ha
    by_cases hs : c.soft = true
    · rw [if_pos hs]
      refine List.sum_eq_zero fun a ha => ?_
      obtain ⟨i, hi, rfl⟩ := List.mem_map.1 ha
      rw [hE c hc hs i (List.mem_range.1 hi), mul_zero]
    · rw [if_neg hs]
  have same : ∀ e : CollExplanation K d ne, (∀ k < T.N, ∀ call ∈ T.cons, call.soft = true → ∀ i < call.dim, e.E k call.name i = 0) →
      ({ T with cons := T.cons.map asHard } : CollEstimation K d ne ns).explanationCost D e = T.explanationCost D e := fun e he => by
    unfold CollEstimation.explanationCost
    refine congrArg (fun t => _ + t) (congrArg List.sum (List.map_congr_left fun k hk => ?_))
    show _ + slackCost (T.cons.map asHard) (e.E k) = _ + slackCost T.cons (e.E k)
    rw [hard0, soft0 _ (he k (List.mem_range.1 hk))]
  obtain ⟨a1, a2, a3, a4, a4', a5, a6, a7, a8, a9⟩ := ha
  refine ⟨⟨a1, a2, ?_, a4, a4', a5, a6, ?_, a8, a9⟩, fun e' ha' => ?_⟩
  · intro k hk call' hcall' i hi
    obtain ⟨call, hcall, rfl⟩ := List.mem_map.1 hcall'
    rw [if_neg (show ¬ (asHard call).soft = true from Bool.false_ne_true)]
    have old := a3 k hk call hcall i hi
    by_cases hs : call.soft = true
    · rw [if_pos hs, hz k hk call hcall hs i hi, sub_zero] at old
      exact old
    · rw [if_neg hs] at old
      exact old
  · intro k hk call' hcall' hs
    obtain ⟨call, hcall, rfl⟩ := List.mem_map.1 hcall'
    exact absurd hs Bool.false_ne_true
  · obtain ⟨b1, b2, b3, b4, b4', b5, b6, b7, b8, b9⟩ := ha'
    have hadm : T.Admissible D { e' with E := fun _ _ _ => 0 } := by
      refine ⟨b1, b2, ?_, b4, b4', b5, b6, ?_, fun _ _ _ => rfl, b9⟩
      · intro k hk call hcall i hi
        have old := b3 k hk (asHard call) (List.mem_map_of_mem hcall) i hi
        rw [if_neg (show ¬ (asHard call).soft = true from Bool.false_ne_true)] at old
        show if call.soft = true then call.ub.ge (_ - (0 : K)) else _
        rw [sub_zero]
        by_cases hs : call.soft = true
        · rw [if_pos hs]; exact old
        · rw [if_neg hs]; exact old
      · intro k hk call hcall hs i hi
        have := (a7 k hk call hcall hs i hi).2
        rw [hz k hk call hcall hs i hi] at this
        exact ⟨le_refl _, this⟩
    have h1 := hmin _ hadm
    have e2 : ({ T with cons := T.cons.map asHard } : CollEstimation K d ne ns).explanationCost D e' = T.explanationCost D { e' with E := fun _ _ _ => 0 } := by
      rw [← same { e' with E := fun _ _ _ => 0 } fun _ _ _ _ _ _ _ => rfl]
      unfold CollEstimation.explanationCost
      simp only [hard0]
    rw [same e hz, e2]
    exact h1

/-- **C120 (the estimator, nothing violated, continuous time).**  If the solver answers with a global minimiser in which all slacks of soft constraints are zero, the returned state and parameters
belong to a best explanation for the problem in which all constraints are hard. -/
theorem C120_as_hard_estimator_collocation (S : MheSettings K) (deg ni : Nat) (tau : Nat → K) (htau : tau 0 = 0) (hinj : ∀ i ≤ deg, ∀ j ≤ deg, tau i = tau j → i = j)
    (ops1 ops2 : List (MheOp K d ne ns)) (h1 : ∀ op ∈ ops1, MheConfigures op) (h2 : ∀ op ∈ ops2, MheLater op)
    (hT : ∀ (s : MheSettings K) sx su sz sp, setupCollocation T.model sx su sz sp deg ni tau s.tStep = .ok (T.ifcn s sx su sz sp))
    (hmeas : ∀ x u z z' tv p v, T.model.meas x u z tv p v = T.model.meas x u z' tv p v) :
    let o1 := (MheObj.new S : MheObj K d ne ns).run T ops1
    let o := o1.run T (.setup :: ops2)
    let calls := ops1 ++ ops2.filter mheIsBound
    let s := lastOf mheSettingsOf calls S
    (o1.exec T .setup).2 = none → PlainMheCalls S calls →
      ∃ co, lastOf (fun op => (mheCostOf op).map some) ops1 none = some co ∧
        ∀ w q, MheSolverMinimises o w q →
          (∀ k < s.N, ∀ call, MheOp.setNlCons call ∈ ops1 → call.soft = true → ∀ i < call.dim, w.eps (if s.singleSlack then 0 else k) call.name i = 0) →
          ∃ e, (mheConfiguredColl S (calls.map (mheMapCons asHard)) co T.model T.sel deg ni tau).Optimal (dataOf q) e ∧ o.estimate w = some (e.X s.N, e.p) := by
  intro o1 o calls s hs hp
  obtain ⟨co, ha⟩ := mheAfter_setup T S ops1 h1 hs
  have hf := mheAfter_run T S co ops2 ops1 _ ha h2
  have hpl : (mheWantedCfg T S calls co).CollPlain deg ni tau (lastOf mheSettingsOf calls S).tStep :=
    { setup := hT _ _ _ _ _, tau0 := htau, tauInj := hinj, nlColloc := hp.noColl, consColloc := hp.allPoints, names := hp.names, sp := funext hp.sp, sx := hp.sx,
      su := hp.su, sz := hp.sz, N := hp.horizon, meas := hmeas }
  refine ⟨co, ha.cost, fun w q hw hz => ?_⟩
  have hn := (mheAfter_minimises T S calls co o hf w q).1 hw
  obtain ⟨P, e⟩ := (C80_minimiser_is_best hpl q).1 w hn
  have ho : (mheConfiguredColl S calls co T.model T.sel deg ni tau).Optimal (dataOf q) ((mheWantedCfg T S calls co).explainColl deg w P) := e
  refine ⟨(mheWantedCfg T S calls co).explainColl deg w P, ?_, mheAfter_estimate T S calls co o hf w⟩
  have hset : lastOf mheSettingsOf (calls.map (mheMapCons asHard)) S = lastOf mheSettingsOf calls S := lastOf_mheMapCons asHard mheSettingsOf (fun _ => rfl) calls S
  unfold mheConfiguredColl
  rw [mheConfigured_mapCons, hset]
  refine C120_unused_estimator_collocation _ _ _ ho fun k hk call hcall hsoft i hi => ?_
  have hE : ((mheWantedCfg T S calls co).explainColl deg w P).E k = w.eps (if s.singleSlack then 0 else k) := mhe_slack_entry T S calls co w k hk
  rw [hE]
  refine hz k hk call ?_ hsoft i hi
  obtain ⟨op, hop, e⟩ := List.mem_filterMap.1 hcall
  rcases List.mem_append.1 hop with h' | h'
  · cases op with
    | setNlCons c => obtain rfl := Option.some.inj e; exact h'
    | _ => cases e
  · have := (List.mem_filter.1 h').2
    cases op with
    | setNlCons c => exact absurd this Bool.false_ne_true
    | _ => cases e

/-! ## The hypotheses can be met -/
namespace SoftMheCollEx
open MheOptEx (dd)
open MheCollEx (model)

abbrev S2 : MheSettings ℚ := ⟨2, 1, true, false, false, true⟩
/-- the state should not exceed 1 -/
def con : NlCall ℚ dd := { name := "c", dim := 1, expr := fun x _ _ _ _ _ => x 0, ub := .fin 1, soft := true, penalty := 1, maxViolation := .pinf }
def co : MheCost ℚ dd 1 0 := ⟨fun w v _ _ => w 0 ^ 2 + v 0 ^ 2, fun x xp p pp _ => (x 0 - xp 0) ^ 2 + (p 0 - pp 0) ^ 2⟩
def ops : List (MheOp ℚ dd 1 0) := [.setObjective co, .setNlCons con]
/-- the state 0 and the parameter 0 are expected and 0 has been measured -/
def q0 : MheP ℚ dd 1 0 := ⟨0, 0, 0, fun _ => 0, fun _ => 0⟩

theorem plainCalls : PlainMheCalls S2 (ops ++ []) where
  horizon := by decide
  noColl := rfl
  allPoints := rfl
  names := List.nodup_singleton _
  sx := fun _ => (by decide +kernel : (0 : ℚ) < 1)
  su := fun _ => (by decide +kernel : (0 : ℚ) < 1)
  sz := fun j => Fin.elim0 j
  sp := fun _ => rfl

theorem conf : ∀ op ∈ ops, MheConfigures op := by simp [ops, MheConfigures]
theorem ready (T : MheTools ℚ dd 1 0) : (((MheObj.new S2).run T ops).exec T .setup).2 = none := by
  rw [C86_setup_returns_iff T S2 ops conf]
  exact ⟨⟨co, List.mem_cons_self⟩, fun h => absurd h (Nat.lt_irrefl 0), fun h => absurd h (Nat.lt_irrefl 0), fun v _ => trivial, Or.inr rfl, fun h => absurd h Bool.false_ne_true⟩

/-- tools that transcribe the model with one element of degree 1 -/
theorem tools : ∃ T : MheTools ℚ dd 1 0, T.model = model ∧ T.sel = (fun _ => .inl 0) ∧
    ∀ (s : MheSettings ℚ) sx su sz sp, setupCollocation T.model sx su sz sp 1 1 unitTau s.tStep = .ok (T.ifcn s sx su sz sp) := by
  have h := fun (s : MheSettings ℚ) sx su sz sp => (C11_bookkeeping model sx su sz sp 1 1 unitTau s.tStep one_pos).1
  choose F hF using h
  exact ⟨⟨model, fun _ => .inl 0, F⟩, rfl, rfl, fun s sx su sz sp => (hF s sx su sz sp).1⟩

/-- an estimator with a soft constraint, and an answer of its solver that violates nothing -/
theorem example_solved : ∃ T : MheTools ℚ dd 1 0, (∀ (s : MheSettings ℚ) sx su sz sp, setupCollocation T.model sx su sz sp 1 1 unitTau s.tStep = .ok (T.ifcn s sx su sz sp)) ∧
    (∀ x u z z' tv p v, T.model.meas x u z tv p v = T.model.meas x u z' tv p v) ∧ (((MheObj.new S2).run T ops).exec T .setup).2 = none ∧
    ∃ w, MheSolverMinimises (((MheObj.new S2).run T ops).run T (.setup :: [])) w q0 ∧ ∀ k < 2, w.eps k "c" 0 = 0 := by
  obtain ⟨⟨m', sel', F⟩, hm, hsel, hT⟩ := tools
  obtain rfl : m' = model := hm
  obtain rfl : sel' = fun _ => .inl 0 := hsel
  set T : MheTools ℚ dd 1 0 := ⟨model, fun _ => .inl 0, F⟩ with hTd
  refine ⟨T, hT, fun _ _ _ _ _ _ _ => rfl, ready T, ?_⟩
  obtain ⟨co', ha⟩ := mheAfter_setup T S2 ops conf (ready T)
  obtain rfl : co' = co := Option.some.inj ha.cost.symm
  have hf := mheAfter_run T S2 co [] ops _ ha (by simp)
  have hpl : (mheWantedCfg T S2 (ops ++ []) co).CollPlain 1 1 unitTau 1 :=
    { setup := hT S2 _ _ _ _, tau0 := by simp [unitTau], tauInj := by intro i _ j _ h; simpa [unitTau] using h, nlColloc := plainCalls.noColl, consColloc := plainCalls.allPoints,
      names := plainCalls.names, sp := funext plainCalls.sp, sx := plainCalls.sx, su := plainCalls.su, sz := plainCalls.sz, N := plainCalls.horizon,
      meas := fun _ _ _ _ _ _ _ => rfl }
  let e0 : CollExplanation ℚ dd 1 := ⟨fun _ => 0, fun _ => 0, fun _ => 0, fun _ => 0, fun _ _ _ => 0, 0, fun _ _ => line 0 0, fun _ _ _ => 0⟩
  have hadm : ((mheWantedCfg T S2 (ops ++ []) co).collTask 1 1 unitTau 1).Admissible q0.toData e0 := by
    refine ⟨fun k _ => ?_, fun k _ => ?_, ?_, ?_, ?_, ?_, ?_, ?_, fun _ _ _ => rfl, ?_⟩
    · refine euler_line ?_ (Subsingleton.elim (α := Fin 0 → ℚ) _ _) (Subsingleton.elim (α := Fin 0 → ℚ) _ _)
      funext i
      show (0 : ℚ) = 0 + (0 + 0 + 0)
      norm_num
    · funext j
      show (if j = 0 then (0 : ℚ) + 0 else 0) = 0
      split_ifs <;> norm_num
    · intro k _ call hcall i _
      obtain rfl : call = con := List.mem_singleton.1 hcall
      show (0 : ℚ) - 0 ≤ 1
      norm_num
    · exact fun k _ j => ⟨trivial, trivial⟩
    · exact fun k _ _ _ _ _ _ j => ⟨trivial, trivial⟩
    · exact fun k _ _ _ _ _ j => ⟨trivial, trivial⟩
    · exact fun k _ j => ⟨trivial, trivial⟩
    · intro k _ call hcall _ i _
      obtain rfl : call = con := List.mem_singleton.1 hcall
      exact ⟨le_refl (0 : ℚ), trivial⟩
    · exact fun j => ⟨trivial, trivial⟩
  have hcost : ∀ e : CollExplanation ℚ dd 1, ((mheWantedCfg T S2 (ops ++ []) co).collTask 1 1 unitTau 1).explanationCost q0.toData e =
      ((e.X 0 0 - 0) ^ 2 + (e.p 0 - 0) ^ 2) + (((e.W 0 0 ^ 2 + e.V 0 0 ^ 2) + e.E 0 "c" 0) + ((e.W 1 0 ^ 2 + e.V 1 0 ^ 2) + e.E 1 "c" 0)) := fun e => by
    have c1 : ∀ E : Eps ℚ, slackCost [con] E = E "c" 0 := fun E => by
      show (1 * E "c" 0 + 0) + 0 = _
      ring
    show ((e.X 0 0 - 0) ^ 2 + (e.p 0 - 0) ^ 2) + (((e.W 0 0 ^ 2 + e.V 0 0 ^ 2) + slackCost [con] (e.E 0)) + (((e.W 1 0 ^ 2 + e.V 1 0 ^ 2) + slackCost [con] (e.E 1)) + 0)) = _
    rw [c1, c1, add_zero]
  have hopt : ((mheWantedCfg T S2 (ops ++ []) co).collTask 1 1 unitTau 1).Optimal q0.toData e0 := by
    refine ⟨hadm, fun e he => ?_⟩
    rw [hcost, hcost]
    have b0 : 0 ≤ e.E 0 "c" 0 := (he.slacks 0 (show 0 < 2 by decide) con List.mem_cons_self rfl 0 Nat.zero_lt_one).1
    have b1 : 0 ≤ e.E 1 "c" 0 := (he.slacks 1 (show 1 < 2 by decide) con List.mem_cons_self rfl 0 Nat.zero_lt_one).1
    have z : (((e0.X 0 0 - 0) ^ 2 + (e0.p 0 - 0) ^ 2) + (((e0.W 0 0 ^ 2 + e0.V 0 0 ^ 2) + e0.E 0 "c" 0) + ((e0.W 1 0 ^ 2 + e0.V 1 0 ^ 2) + e0.E 1 "c" 0)) : ℚ) = 0 := by
      show (((0 : ℚ) - 0) ^ 2 + ((0 : ℚ) - 0) ^ 2) + (((0 : ℚ) ^ 2 + (0 : ℚ) ^ 2 + 0) + ((0 : ℚ) ^ 2 + (0 : ℚ) ^ 2 + 0)) = 0
      norm_num
    rw [z]
    positivity
  refine ⟨(mheWantedCfg T S2 (ops ++ []) co).encodeColl 1 1 unitTau e0, (mheAfter_minimises T S2 _ co _ hf _ q0).2 ((C80_minimiser_is_best hpl q0).2.1 e0 hopt), fun k (hk : k < 2) => ?_⟩
  have hN : k < (lastOf mheSettingsOf (ops ++ []) S2).N := hk
  have hE := ((mheWantedCfg T S2 (ops ++ []) co).encodeColl_spec hpl.toCollBase e0 fun _ _ _ => rfl).2.2.2.2.2.1 k hk
  have h0 := mhe_slack_entry T S2 (ops ++ []) co ((mheWantedCfg T S2 (ops ++ []) co).encodeColl 1 1 unitTau e0) k hN
  have := congrFun (congrFun (h0.symm.trans hE) "c") 0
  exact this

-- the remaining hypotheses of `C120_never_blocks_estimator_collocation` and `C120_as_hard_estimator_collocation`
example : (∀ op ∈ ops, MheConfigures op) ∧ PlainMheCalls S2 (ops ++ []) ∧ NeverBlocks con ∧ unitTau 0 = (0 : ℚ) ∧ ∀ i ≤ 1, ∀ j ≤ 1, (unitTau i : ℚ) = unitTau j → i = j :=
  ⟨conf, plainCalls, ⟨rfl, rfl, by simp [con]⟩, by simp [unitTau], by intro i _ j _ h; simpa [unitTau] using h⟩
end SoftMheCollEx

end DoMpc
