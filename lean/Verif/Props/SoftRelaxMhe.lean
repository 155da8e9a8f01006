import Verif.Props.SoftRelax
import Verif.Props.SoftMhe

/-!
# C120: soft constraints never make the problem of an estimator infeasible
-/
set_option linter.unusedSectionVars false
namespace DoMpc
open Spec
variable {K : Type} [Field K] [LinearOrder K] [IsStrictOrderedRing K] {d : Dims} {ne ns : Nat} (T : MheTools K d ne ns)

/-- **C120 (documented estimation problem).**  Soft constraints without a maximum violation may be left out without making a difference for whether there is an explanation. -/
theorem C120_relax_estimator (T : EstimationTask K d ne ns) (D : EstimationData K d ne ns) (cons' : List (NlCall K d)) (hsub : ∀ call ∈ cons', call ∈ T.cons)
    (hdrop : ∀ call ∈ T.cons, call ∉ cons' → NeverBlocks call) (hn : (T.cons.map (·.name)).Nodup) :
    (∃ e, T.Admissible D e) ↔ ∃ e, ({ T with cons := cons' } : EstimationTask K d ne ns).Admissible D e := by
  have uniq : ∀ c ∈ T.cons, ∀ c' ∈ T.cons, c.name = c'.name → c = c' := fun c h c' h' e => List.inj_on_of_nodup_map hn h h' e
  constructor
  · rintro ⟨e, a1, a2, a3, a4, a5, a6, a7, a8, a9⟩
    exact ⟨e, a1, a2, fun k hk call hcall => a3 k hk call (hsub call hcall), a4, a5, a6, fun k hk call hcall => a7 k hk call (hsub call hcall), a8, a9⟩
  · rintro ⟨e, a1, a2, a3, a4, a5, a6, a7, a8, a9⟩
    have hcov : ∀ (call : NlCall K d) (i : Nat), ∃ v : K, 0 ≤ v ∧ (call.ub ≠ .ninf → ∀ k < T.N,
        call.ub.ge (call.expr (e.X k) (e.U k) (e.Z k) (D.tvp k) (T.merge e.p D.pGiven) i - v)) := fun call i => by
      by_cases hub : call.ub = .ninf
      · exact ⟨0, le_refl _, fun h => absurd hub h⟩
      · obtain ⟨v, hv, hall⟩ := exists_cover call.ub hub (fun k => call.expr (e.X k) (e.U k) (e.Z k) (D.tvp k) (T.merge e.p D.pGiven) i) (List.range T.N)
        exact ⟨v, hv, fun _ k hk => hall k (List.mem_range.2 hk)⟩
    choose cov hcov0 hcov1 using hcov
    classical
    let E' : Nat → Eps K := fun k n i => if H : ∃ call ∈ T.cons, call ∉ cons' ∧ call.name = n then cov H.choose i else e.E k n i
    have hE1 : ∀ k call i, call ∈ T.cons → call ∉ cons' → E' k call.name i = cov call i := fun k call i hc hc' => by
      have H : ∃ call' ∈ T.cons, call' ∉ cons' ∧ call'.name = call.name := ⟨call, hc, hc', rfl⟩
      have e : H.choose = call := uniq _ H.choose_spec.1 _ hc H.choose_spec.2.2
      exact (dif_pos H).trans (by rw [e])
    have hE2 : ∀ k call i, call ∈ cons' → E' k call.name i = e.E k call.name i := fun k call i hc => by
      refine dif_neg ?_
      rintro ⟨c, h1, h2, h3⟩
      exact h2 (uniq c h1 call (hsub call hc) h3 ▸ hc)
    refine ⟨{ e with E := E' }, a1, a2, ?_, a4, a5, a6, ?_, ?_, a9⟩
    · intro k hk call hcall i hi
      show if call.soft = true then call.ub.ge (_ - E' k call.name i) else _
      by_cases hc : call ∈ cons'
      · rw [hE2 k call i hc]
        exact a3 k hk call hc i hi
      · obtain ⟨n1, n2, n3⟩ := hdrop call hcall hc
        rw [if_pos n1, hE1 k call i hcall hc]
        exact hcov1 call i n3 k hk
    · intro k hk call hcall hs i hi
      show 0 ≤ E' k call.name i ∧ call.maxViolation.ge (E' k call.name i)
      by_cases hc : call ∈ cons'
      · rw [hE2 k call i hc]
        exact a7 k hk call hc hs i hi
      · rw [hE1 k call i hcall hc, (hdrop call hcall hc).2.1]
        exact ⟨hcov0 call i, trivial⟩
    · intro hs k hk
      funext n i
      show E' k n i = E' 0 n i
      by_cases H : ∃ call ∈ T.cons, call ∉ cons' ∧ call.name = n
      · have u : ∀ k, E' k n i = cov H.choose i := fun k => dif_pos H
        rw [u, u]
      · have u : ∀ k, E' k n i = e.E k n i := fun k => dif_neg H
        rw [u, u]
        exact congrFun (congrFun (a8 hs k hk) n) i

theorem lastOf_mheFilter {β : Type} (keep : MheOp K d ne ns → Bool) (f : MheOp K d ne ns → Option β) (ops : List (MheOp K d ne ns))
    (h : ∀ op ∈ ops, keep op = false → f op = none) (v : β) : lastOf f (ops.filter keep) v = lastOf f ops v := by
  have : (ops.filter keep).filterMap f = ops.filterMap f := by
    induction ops with
    | nil => rfl
    | cons op ops ih =>
      have ih' := ih fun op' h' => h op' (List.mem_cons_of_mem _ h')
      by_cases hk : keep op = true
      · rw [List.filter_cons_of_pos hk, List.filterMap_cons, List.filterMap_cons, ih']
      · rw [List.filter_cons_of_neg hk, ih', List.filterMap_cons, h op List.mem_cons_self (by simpa using hk)]
  unfold lastOf
  rw [this]

/-- **C120 (the estimator).**  Two estimators configured by the same calls, except that some `set_nl_cons` calls of soft constraints without a maximum violation are left out for the
second one: `setup()` succeeds for the second if it does for the first, and for all data the solver of the first has a feasible point if and only if that of the second has. -/
theorem C120_never_blocks_estimator (S : MheSettings K) (ops1 ops2 : List (MheOp K d ne ns)) (h1 : ∀ op ∈ ops1, MheConfigures op) (h2 : ∀ op ∈ ops2, MheLater op)
    (hT : ∀ s sx su sz sp, T.ifcn s sx su sz sp = discreteIfcn T.model sx su sz sp)
    (keep : MheOp K d ne ns → Bool) (hk : ∀ op ∈ ops1, keep op = false → ∃ call, op = .setNlCons call ∧ NeverBlocks call) :
    let o1 := (MheObj.new S : MheObj K d ne ns).run T ops1
    let o1' := (MheObj.new S : MheObj K d ne ns).run T (ops1.filter keep)
    let o := o1.run T (.setup :: ops2)
    let o' := o1'.run T (.setup :: ops2)
    let calls := ops1 ++ ops2.filter mheIsBound
    (o1.exec T .setup).2 = none → PlainMheCalls S calls →
      (o1'.exec T .setup).2 = none ∧ ∀ q, (∃ w, MheSolverFeasible o w q) ↔ ∃ w, MheSolverFeasible o' w q := by
  intro o1 o1' o o' calls hs hp
  have hl : ∀ {β : Type} (f : MheOp K d ne ns → Option β), (∀ c, f (.setNlCons c) = none) → ∀ v, lastOf f (ops1.filter keep) v = lastOf f ops1 v := fun f hf v =>
    lastOf_mheFilter keep f ops1 (fun op hop hkeep => by obtain ⟨c, rfl, -⟩ := hk op hop hkeep; exact hf c) v
  let keep' : MheOp K d ne ns → Bool := fun op => keep op || mheIsBound op
  have hcalls : ops1.filter keep' ++ ops2.filter mheIsBound = calls.filter keep' := by
    show _ = (ops1 ++ ops2.filter mheIsBound).filter keep'
    rw [List.filter_append]
    congr 1
    symm
    exact List.filter_eq_self.2 fun op hop => by simp [keep', (List.mem_filter.1 hop).2]
  have hkk : ops1.filter keep = ops1.filter keep' := List.filter_congr fun op hop => by
    by_cases hkeep : keep op = true
    · simp [keep', hkeep]
    · obtain ⟨c, rfl, -⟩ := hk op hop (by simpa using hkeep)
      simp [keep', mheIsBound]
  have hk' : ∀ op ∈ calls, keep' op = false → ∃ call, op = .setNlCons call ∧ NeverBlocks call := fun op hop hkeep => by
    have hkeep' : keep op = false ∧ mheIsBound op = false := by simpa [keep'] using hkeep
    rcases List.mem_append.1 hop with h | h
    · exact hk op h hkeep'.1
    · have := (List.mem_filter.1 h).2
      rw [hkeep'.2] at this
      exact absurd this (by decide)
  have hl' : ∀ {β : Type} (f : MheOp K d ne ns → Option β), (∀ c, f (.setNlCons c) = none) → ∀ v, lastOf f (calls.filter keep') v = lastOf f calls v := fun f hf v =>
    lastOf_mheFilter keep' f calls (fun op hop hkeep => by obtain ⟨c, rfl, -⟩ := hk' op hop hkeep; exact hf c) v
  have hconf : ∀ op ∈ ops1.filter keep, MheConfigures op := fun op hop => h1 op (List.mem_filter.1 hop).1
  have kept : ∀ op, op ∈ ops1 → (∀ c, op ≠ .setNlCons c) → op ∈ ops1.filter keep := fun op hop hne => by
    refine List.mem_filter.2 ⟨hop, ?_⟩
    by_contra hkeep
    obtain ⟨c, e, -⟩ := hk _ hop (by simpa using hkeep)
    exact hne c e
  have hs' : (o1'.exec T .setup).2 = none := by
    obtain ⟨a1, a2, a3, a4, a5, a6⟩ := (C86_setup_returns_iff T S ops1 h1).1 hs
    refine (C86_setup_returns_iff T S _ hconf).2 ?_
    have hset := hl mheSettingsOf (fun _ => rfl) S
    have hsc : ∀ v (w : K), lastOf (mheScalingOf v) (ops1.filter keep) w = lastOf (mheScalingOf v) ops1 w := fun v w => hl _ (fun _ => rfl) w
    have hb : ∀ s v (w : Bound K), lastOf (mheBoundOf s v) (ops1.filter keep) w = lastOf (mheBoundOf s v) ops1 w := fun s v w => hl _ (fun _ => rfl) w
    simp only [hset, hsc, hb]
    exact ⟨a1.imp fun _ h => kept _ h fun _ => by simp, fun h => (a2 h).imp fun _ h => kept _ h fun _ => by simp, fun h => (a3 h).imp fun _ h => kept _ h fun _ => by simp,
      a4, a5.imp_left fun h => h.imp fun _ h => kept _ h fun _ => by simp, a6⟩
  have e1 := hl' mheSettingsOf (fun _ => rfl) S
  have e2 : ∀ s v (w : Bound K), lastOf (mheBoundOf s v) (calls.filter keep') w = lastOf (mheBoundOf s v) calls w := fun s v w => hl' _ (fun _ => rfl) w
  have e4 : ∀ v (w : K), lastOf (mheScalingOf v) (calls.filter keep') w = lastOf (mheScalingOf v) calls w := fun v w => hl' _ (fun _ => rfl) w
  have hcfg : ∀ co, mheConfigured S (calls.filter keep') co T.model T.sel = { mheConfigured S calls co T.model T.sel with cons := (calls.filter keep').filterMap mheNlConsOf } := fun co => by
    unfold mheConfigured
    simp only [e1, e2]
  have hp' : PlainMheCalls S (ops1.filter keep ++ ops2.filter mheIsBound) := by
    rw [hkk, hcalls]
    obtain ⟨a1, a2, a3, a4, a5, a6, a7, a8⟩ := hp
    exact ⟨by rw [e1]; exact a1, by rw [e1]; exact a2, by rw [e1]; exact a3, a4.sublist (((List.filter_sublist).filterMap _).map _), fun v => by rw [e4]; exact a5 v,
      fun v => by rw [e4]; exact a6 v, fun v => by rw [e4]; exact a7 v, fun v => by rw [e4]; exact a8 v⟩
  refine ⟨hs', fun q => ?_⟩
  obtain ⟨co, hco, -, hall⟩ := C97_estimate T S ops1 ops2 h1 h2 hT hs hp
  obtain ⟨co', hco', -, hall'⟩ := C97_estimate T S (ops1.filter keep) ops2 hconf h2 hT hs' hp'
  obtain rfl : co' = co := by
    rw [hl _ fun _ => rfl, hco] at hco'
    exact (Option.some.inj hco').symm
  refine (hall q).trans (Iff.trans ?_ (hall' q).symm)
  rw [hkk, hcalls, hcfg co']
  refine C120_relax_estimator _ _ _ (fun call hcall => ?_) (fun call hcall hnot => ?_) hp.names
  · obtain ⟨op, hop, e⟩ := List.mem_filterMap.1 hcall
    exact List.mem_filterMap.2 ⟨op, (List.mem_filter.1 hop).1, e⟩
  · obtain ⟨op, hop, e⟩ := List.mem_filterMap.1 hcall
    have hkeep : keep' op = false := by
      by_contra hkeep
      exact hnot (List.mem_filterMap.2 ⟨op, List.mem_filter.2 ⟨hop, by simpa using hkeep⟩, e⟩)
    obtain ⟨c, rfl, hc⟩ := hk' op hop hkeep
    exact Option.some.inj e ▸ hc

-- the estimator of `SoftMheEx`, with and without its soft constraint
example : (∀ op ∈ SoftMheEx.ops, MheConfigures op) ∧ (((MheObj.new SoftMheEx.S2).run MheLifeEx.tools SoftMheEx.ops).exec MheLifeEx.tools .setup).2 = none ∧
    PlainMheCalls SoftMheEx.S2 (SoftMheEx.ops ++ []) ∧ NeverBlocks SoftMheEx.con :=
  ⟨SoftMheEx.conf.1, SoftMheEx.conf.2, SoftMheEx.plainCalls, rfl, rfl, by simp [SoftMheEx.con]⟩

/-! ## Nothing violated -/

/-- **C120 (documented estimation problem, nothing violated).**  A best explanation that violates no soft constraint is a best explanation for the problem in which all constraints
are hard. -/
theorem C120_unused_estimator (T : EstimationTask K d ne ns) (D : EstimationData K d ne ns) (e : Explanation K d ne) (ho : T.Optimal D e)
    (hz : ∀ k < T.N, ∀ call ∈ T.cons, call.soft = true → ∀ i < call.dim, e.E k call.name i = 0) :
    ({ T with cons := T.cons.map asHard } : EstimationTask K d ne ns).Optimal D e := by
  obtain ⟨ha, hmin⟩ := ho
  have hard0 : ∀ E : Eps K, slackCost (T.cons.map asHard) E = 0 := fun E => by
    unfold slackCost
    rw [List.map_map]
    exact List.sum_eq_zero fun a ha => by
      obtain ⟨c, -, rfl⟩ := List.mem_map.1 ha
      rfl
  have soft0 : ∀ E : Eps K, (∀ call ∈ T.cons, call.soft = true → ∀ i < call.dim, E call.name i = 0) → slackCost T.cons E = 0 := fun E hE => by
    unfold slackCost
    refine List.sum_eq_zero fun a ha => ?_
    obtain ⟨c, hc, rfl⟩ := List.mem_map.1 ha
    by_cases hs : c.soft = true
    · rw [if_pos hs]
      refine List.sum_eq_zero fun a ha => ?_
      obtain ⟨i, hi, rfl⟩ := List.mem_map.1 ha
      rw [hE c hc hs i (List.mem_range.1 hi), mul_zero]
    · rw [if_neg hs]
  have same : ∀ e : Explanation K d ne, (∀ k < T.N, ∀ call ∈ T.cons, call.soft = true → ∀ i < call.dim, e.E k call.name i = 0) →
      ({ T with cons := T.cons.map asHard } : EstimationTask K d ne ns).cost D e = T.cost D e := fun e he => by
    unfold EstimationTask.cost
    refine congrArg (fun t => _ + t) (congrArg List.sum (List.map_congr_left fun k hk => ?_))
    show _ + slackCost (T.cons.map asHard) (e.E k) = _ + slackCost T.cons (e.E k)
    rw [hard0, soft0 _ (he k (List.mem_range.1 hk))]
  obtain ⟨a1, a2, a3, a4, a5, a6, a7, a8, a9⟩ := ha
  refine ⟨⟨a1, a2, ?_, a4, a5, a6, ?_, a8, a9⟩, fun e' ha' => ?_⟩
  · intro k hk call' hcall' i hi
    obtain ⟨call, hcall, rfl⟩ := List.mem_map.1 hcall'
    rw [if_neg (show ¬ (asHard call).soft = true from Bool.false_ne_true)]
    have old := a3 k hk call hcall i hi
    by_cases hs : call.soft = true
    · rw [if_pos hs, hz k hk call hcall hs i hi, sub_zero] at old
      exact old
    · rw [if_neg hs] at old
      exact old
  · intro k hk call' hcall' hs
    obtain ⟨call, hcall, rfl⟩ := List.mem_map.1 hcall'
    exact absurd hs Bool.false_ne_true
  · obtain ⟨b1, b2, b3, b4, b5, b6, b7, b8, b9⟩ := ha'
    have hadm : T.Admissible D { e' with E := fun _ _ _ => 0 } := by
      refine ⟨b1, b2, ?_, b4, b5, b6, ?_, fun _ _ _ => rfl, b9⟩
      · intro k hk call hcall i hi
        have old := b3 k hk (asHard call) (List.mem_map_of_mem hcall) i hi
        rw [if_neg (show ¬ (asHard call).soft = true from Bool.false_ne_true)] at old
        show if call.soft = true then call.ub.ge (_ - (0 : K)) else _
        rw [sub_zero]
        by_cases hs : call.soft = true
        · rw [if_pos hs]; exact old
        · rw [if_neg hs]; exact old
      · intro k hk call hcall hs i hi
        have := (a7 k hk call hcall hs i hi).2
        rw [hz k hk call hcall hs i hi] at this
        exact ⟨le_refl _, this⟩
    have h1 := hmin _ hadm
    have e2 : ({ T with cons := T.cons.map asHard } : EstimationTask K d ne ns).cost D e' = T.cost D { e' with E := fun _ _ _ => 0 } := by
      rw [← same { e' with E := fun _ _ _ => 0 } fun _ _ _ _ _ _ _ => rfl]
      unfold EstimationTask.cost
      simp only [hard0]
    rw [same e hz, e2]
    exact h1

/-- **C120 (the estimator, nothing violated).**  If the solver answers with a global minimiser in which all slacks of soft constraints are zero, the returned state and parameters
belong to a best explanation for the problem in which all constraints are hard. -/
theorem C120_as_hard_estimator (S : MheSettings K) (ops1 ops2 : List (MheOp K d ne ns)) (h1 : ∀ op ∈ ops1, MheConfigures op) (h2 : ∀ op ∈ ops2, MheLater op)
    (hT : ∀ s sx su sz sp, T.ifcn s sx su sz sp = discreteIfcn T.model sx su sz sp) :
    let o1 := (MheObj.new S : MheObj K d ne ns).run T ops1
    let o := o1.run T (.setup :: ops2)
    let calls := ops1 ++ ops2.filter mheIsBound
    let s := lastOf mheSettingsOf calls S
    (o1.exec T .setup).2 = none → PlainMheCalls S calls →
      ∃ co, lastOf (fun op => (mheCostOf op).map some) ops1 none = some co ∧
        ∀ w q, MheSolverMinimises o w q →
          (∀ k < s.N, ∀ call, MheOp.setNlCons call ∈ ops1 → call.soft = true → ∀ i < call.dim, w.eps (if s.singleSlack then 0 else k) call.name i = 0) →
          ∃ e, (mheConfigured S (calls.map (mheMapCons asHard)) co T.model T.sel).Optimal (dataOf q) e ∧ o.estimate w = some (e.X s.N, e.p) := by
  intro o1 o calls s hs hp
  obtain ⟨co, hco, hall⟩ := returned_explanation T S ops1 ops2 h1 h2 hT hs hp
  refine ⟨co, hco, fun w q hw hz => ?_⟩
  obtain ⟨e, ho, hu, hE⟩ := hall w q hw
  refine ⟨e, ?_, hu⟩
  rw [mheConfigured_mapCons]
  refine C120_unused_estimator _ _ e ho fun k hk call hcall hsoft i hi => ?_
  rw [hE k hk]
  refine hz k hk call ?_ hsoft i hi
  obtain ⟨op, hop, e⟩ := List.mem_filterMap.1 hcall
  rcases List.mem_append.1 hop with h' | h'
  · cases op with
    | setNlCons c => obtain rfl := Option.some.inj e; exact h'
    | _ => cases e
  · have := (List.mem_filter.1 h').2
    cases op with
    | setNlCons c => exact absurd this Bool.false_ne_true
    | _ => cases e

namespace SoftMheEx
open MheLifeEx (dd mm tools co)
/-- the state 1/2 and the parameter 2 are expected; 1 and 2 have been measured -/
def q0 : MheP ℚ dd 1 0 := ⟨fun _ => 1 / 2, fun _ => 2, 0, fun _ => 0, fun k _ => if k = 0 then 1 else 2⟩
/-- the states 1/2, 1, 2: no constraint is violated -/
def w0 : MheX ℚ dd 1 := ⟨fun k _ _ => if k = 0 then 1 / 2 else if k = 1 then 1 else 2, fun _ _ => 0, fun _ => 0, fun _ => 0, fun _ => 0, fun _ _ _ => 0, fun _ => 2⟩

theorem minimised0 : MheSolverMinimises oo w0 q0 := by
  rw [mheAfter_minimises tools _ _ co _ after]
  refine ⟨⟨_, rfl, ?_, ?_⟩, fun w' hw' => ?_⟩
  · decide +kernel
  · refine ⟨?_, ?_, ?_, ?_, ?_⟩
    · decide +kernel
    · decide +kernel
    · decide +kernel
    · intro k hk sl hsl i hi
      exact ⟨le_refl (0 : ℚ), by
        obtain rfl : sl = con := List.mem_singleton.1 hsl
        have hi0 : i = 0 := by have : i < 1 := hi; omega
        subst hi0
        trivial⟩
    · decide +kernel
  · have h1 : (mheWantedCfg tools S2 (ops ++ []) co).obj w0 q0 = 0 := by decide +kernel
    rw [h1, plain.obj_eq]
    obtain ⟨-, -, -, -, -, -, a7, -, -⟩ := (plain.feasible_iff _ w' q0).1 hw'
    set e := (mheWantedCfg tools S2 (ops ++ []) co).explain w' with he
    have b3 : 0 ≤ e.E 0 "c" 0 := (a7 0 (by decide) con List.mem_cons_self rfl 0 Nat.zero_lt_one).1
    have b5 : 0 ≤ e.E 1 "c" 0 := (a7 1 (by decide) con List.mem_cons_self rfl 0 Nat.zero_lt_one).1
    have b4 : (mheWantedCfg tools S2 (ops ++ []) co).task.cost q0.toData e = (e.X 0 0 - 1 / 2) ^ 2 + (e.p 0 - 2) ^ 2 + (e.E 0 "c" 0 + e.E 1 "c" 0) := by
      have c1 : ∀ E : Eps ℚ, slackCost [con] E = E "c" 0 := fun E => by
        show (1 * E "c" 0 + 0) + 0 = _
        ring
      show (e.X 0 0 - 1 / 2) ^ 2 + (e.p 0 - 2) ^ 2 + ((0 + slackCost [con] (e.E 0)) + ((0 + slackCost [con] (e.E 1)) + 0)) = _
      rw [c1, c1]
      ring
    rw [b4]
    nlinarith [sq_nonneg (e.X 0 0 - 1 / 2), sq_nonneg (e.p 0 - 2)]

-- hypotheses of `C120_as_hard_estimator`: a global minimiser that violates nothing (`conf`, `plainCalls` above)
example : MheSolverMinimises oo w0 q0 ∧ ∀ k i, w0.eps k "c" i = 0 := ⟨minimised0, fun _ _ => rfl⟩
end SoftMheEx

end DoMpc
