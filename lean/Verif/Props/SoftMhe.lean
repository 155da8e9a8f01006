import Verif.Spec.SoftMhe
import Verif.Props.Soft
import Verif.Props.MheConfigured

/-!
# C119: soft constraints of an estimator
-/
set_option linter.unusedSectionVars false
namespace DoMpc
open Spec
variable {K : Type} [Field K] [LinearOrder K] [IsStrictOrderedRing K] {d : Dims} {ne ns : Nat} (T : MheTools K d ne ns)

theorem lower_slack (cons : List (NlCall K d)) (single : Bool) (N : Nat) (X : Nat → Vec K d.nx) (U : Nat → Vec K d.nu) (Z : Nat → Vec K d.nz) (tvp : Nat → Vec K d.ntv)
    (p : Vec K d.np) (E : Nat → Eps K) (hn : (cons.map (·.name)).Nodup) (a3 : RespectsOnWindow cons N X U Z tvp p E)
    (a7 : ∀ k < N, ∀ call ∈ cons, call.soft = true → ∀ i < call.dim, 0 ≤ E k call.name i ∧ call.maxViolation.ge (E k call.name i))
    (a8 : single = true → ∀ k < N, E k = E 0) (k : Nat) (hk : k < N) (call : NlCall K d) (hcall : call ∈ cons) (hs : call.soft = true) (hpen : 0 < call.penalty) (i : Nat)
    (hi : i < call.dim) (v : K) (hv0 : 0 ≤ v) (hvh : ∀ k' < N, (single = true ∨ k' = k) → call.ub.ge (call.expr (X k') (U k') (Z k') (tvp k') p i - v))
    (hlt : v < E k call.name i) :
    ∃ E' : Nat → Eps K, RespectsOnWindow cons N X U Z tvp p E' ∧
      (∀ k < N, ∀ call ∈ cons, call.soft = true → ∀ i < call.dim, 0 ≤ E' k call.name i ∧ call.maxViolation.ge (E' k call.name i)) ∧
      (single = true → ∀ k < N, E' k = E' 0) ∧ (∀ k' < N, slackCost cons (E' k') ≤ slackCost cons (E k')) ∧ slackCost cons (E' k) < slackCost cons (E k) := by
  have uniq : ∀ call' ∈ cons, call'.name = call.name → call' = call := fun call' h' e => List.inj_on_of_nodup_map hn h' hcall e
  have same : ∀ k' < N, (single = true ∨ k' = k) → E k' = E k := by
    rintro k' hk' (h | rfl)
    · rw [a8 h k' hk', a8 h k hk]
    · rfl
  let E' : Nat → Eps K := fun k' n' i' => if (single = true ∨ k' = k) ∧ n' = call.name ∧ i' = i then v else E k' n' i'
  have hE : ∀ k' n' i', E' k' n' i' = if (single = true ∨ k' = k) ∧ n' = call.name ∧ i' = i then v else E k' n' i' := fun _ _ _ => rfl
  have hterm : ∀ k' < N, ∀ call' ∈ cons, ∀ i', call'.soft = true → call'.penalty * E' k' call'.name i' ≤ call'.penalty * E k' call'.name i' := by
    intro k' hk' call' hcall' i' hs'
    rw [hE]
    by_cases he : (single = true ∨ k' = k) ∧ call'.name = call.name ∧ i' = i
    · rw [if_pos he]
      obtain ⟨he1, he2, rfl⟩ := he
      obtain rfl := uniq call' hcall' he2
      rw [same k' hk' he1]
      exact mul_le_mul_of_nonneg_left hlt.le hpen.le
    · rw [if_neg he]
  refine ⟨E', ?_, ?_, ?_, ?_, ?_⟩
  · intro k' hk' call' hcall' i' hi'
    have old := a3 k' hk' call' hcall' i' hi'
    by_cases hs' : call'.soft = true
    · rw [if_pos hs'] at old ⊢
      rw [hE]
      by_cases he : (single = true ∨ k' = k) ∧ call'.name = call.name ∧ i' = i
      · rw [if_pos he]
        obtain ⟨he1, he2, rfl⟩ := he
        obtain rfl := uniq call' hcall' he2
        exact hvh k' hk' he1
      · rw [if_neg he]
        exact old
    · rw [if_neg hs'] at old ⊢
      exact old
  · intro k' hk' call' hcall' hs' i' hi'
    have old := a7 k' hk' call' hcall' hs' i' hi'
    rw [hE]
    by_cases he : (single = true ∨ k' = k) ∧ call'.name = call.name ∧ i' = i
    · rw [if_pos he]
      obtain ⟨he1, he2, rfl⟩ := he
      rw [he2, same k' hk' he1] at old
      exact ⟨hv0, ge_anti old.2 hlt.le⟩
    · rw [if_neg he]
      exact old
  · intro hsing k' hk'
    funext n' i'
    rw [hE, hE, a8 hsing k' hk']
    simp only [hsing, true_or]
  · intro k' hk'
    refine sum_le_of_le _ _ _ fun call' hcall' => ?_
    by_cases hs' : call'.soft = true
    · rw [if_pos hs', if_pos hs']
      exact sum_le_of_le _ _ _ fun i' _ => hterm k' hk' call' hcall' i' hs'
    · rw [if_neg hs', if_neg hs']
  · refine sum_lt_of_mem _ _ _ (fun call' hcall' => ?_) hcall ?_
    · by_cases hs' : call'.soft = true
      · rw [if_pos hs', if_pos hs']
        exact sum_le_of_le _ _ _ fun i' _ => hterm k hk call' hcall' i' hs'
      · rw [if_neg hs', if_neg hs']
    · rw [if_pos hs, if_pos hs]
      refine sum_lt_of_mem _ _ _ (fun i' _ => hterm k hk call hcall i' hs) (List.mem_range.2 hi) ?_
      rw [hE, if_pos ⟨.inr rfl, rfl, rfl⟩]
      exact mul_lt_mul_of_pos_left hlt hpen

theorem window_cost_lt (A : K) (N : Nat) (st : Nat → K) (f g : Nat → K) (hle : ∀ k < N, f k ≤ g k) (k : Nat) (hk : k < N) (hlt : f k < g k) :
    A + ((List.range N).map fun k => st k + f k).sum < A + ((List.range N).map fun k => st k + g k).sum := by
  refine add_lt_add_of_le_of_lt (le_refl _) (sum_lt_of_mem _ _ _ (fun k' hk' => ?_) (List.mem_range.2 hk) ?_)
  · exact add_le_add (le_refl _) (hle k' (List.mem_range.1 hk'))
  · exact add_lt_add_of_le_of_lt (le_refl _) hlt

/-- **C119 (documented problem).**  In a best explanation every slack of a soft constraint with a positive penalty is the worst violation of the constraint in its interval (with
one slack for all intervals: in the window). -/
theorem C119_optimal_slack (T : EstimationTask K d ne ns) (D : EstimationData K d ne ns) (hn : (T.cons.map (·.name)).Nodup) (e : Explanation K d ne) (ho : T.Optimal D e) (k : Nat)
    (hk : k < T.N) (call : NlCall K d) (hcall : call ∈ T.cons) (hs : call.soft = true) (hpen : 0 < call.penalty) (i : Nat) (hi : i < call.dim) :
    WorstInWindow T D e k call i (e.E k call.name i) := by
  obtain ⟨⟨a1, a2, a3, a4, a5, a6, a7, a8, a9⟩, hmin⟩ := ho
  refine ⟨⟨(a7 k hk call hcall hs i hi).1, fun k' hk' hkk => ?_⟩, fun v hv => ?_⟩
  · have h1 := a3 k' hk' call hcall i hi
    have h2 : e.E k' = e.E k := by
      rcases hkk with h | rfl
      · rw [a8 h k' hk', a8 h k hk]
      · rfl
    rwa [if_pos hs, h2] at h1
  · by_contra hlt
    rw [not_le] at hlt
    obtain ⟨E', b3, b7, b8, ble, blt⟩ := lower_slack T.cons T.singleSlack T.N _ _ _ _ _ _ hn a3 a7 a8 k hk call hcall hs hpen i hi v hv.1 hv.2 hlt
    exact absurd (hmin { e with E := E' } ⟨a1, a2, b3, a4, a5, a6, b7, b8, a9⟩) (not_le.2 (window_cost_lt _ _ _ _ _ ble k hk blt))

/-- **C119 (documented problem, continuous time).**  The same for the collocation problem: the constraints are those at the sampling times. -/
theorem C119_optimal_slack_collocation (T : CollEstimation K d ne ns) (D : EstimationData K d ne ns) (hn : (T.cons.map (·.name)).Nodup) (e : CollExplanation K d ne)
    (ho : T.Optimal D e) (k : Nat) (hk : k < T.N) (call : NlCall K d) (hcall : call ∈ T.cons) (hs : call.soft = true) (hpen : 0 < call.penalty) (i : Nat) (hi : i < call.dim) :
    WorstInWindow T.toEstimationTask D ⟨e.X, e.U, fun k => e.ζ k 0 0, e.W, e.V, e.E, e.p⟩ k call i (e.E k call.name i) := by
  obtain ⟨ha, hmin⟩ := ho
  refine ⟨⟨(ha.slacks k hk call hcall hs i hi).1, fun k' hk' hkk => ?_⟩, fun v hv => ?_⟩
  · have h1 := ha.constraints k' hk' call hcall i hi
    have h2 : e.E k' = e.E k := by
      rcases hkk with h | rfl
      · rw [ha.oneSlack h k' hk', ha.oneSlack h k hk]
      · rfl
    rwa [if_pos hs, h2] at h1
  · by_contra hlt
    rw [not_le] at hlt
    obtain ⟨E', b3, b7, b8, ble, blt⟩ := lower_slack T.cons T.singleSlack T.N _ _ _ _ _ _ hn ha.constraints ha.slacks ha.oneSlack k hk call hcall hs hpen i hi v hv.1 hv.2 hlt
    exact absurd (hmin { e with E := E' } ⟨ha.dynamics, ha.measurements, b3, ha.states, ha.inside, ha.algebraic, ha.inputs, b7, b8, ha.params⟩)
      (not_le.2 (window_cost_lt _ _ _ _ _ ble k hk blt))

theorem mheCost_times (T : EstimationTask K d ne ns) (D : EstimationData K d ne ns) (t : K) (e : Explanation K d ne) :
    ({ T with cons := T.cons.map (timesPenalty t) } : EstimationTask K d ne ns).cost D e = T.cost D e - explainedViolation T e + t * explainedViolation T e := by
  unfold EstimationTask.cost explainedViolation
  simp only [slackCost_times, List.sum_map_add, List.sum_map_mul_left]
  ring

theorem mheAdmissible_times (T : EstimationTask K d ne ns) (D : EstimationData K d ne ns) (t : K) (e : Explanation K d ne) :
    ({ T with cons := T.cons.map (timesPenalty t) } : EstimationTask K d ne ns).Admissible D e ↔ T.Admissible D e := by
  constructor
  · rintro ⟨a1, a2, a3, a4, a5, a6, a7, a8, a9⟩
    exact ⟨a1, a2, fun k hk call hcall => a3 k hk (timesPenalty t call) (List.mem_map_of_mem hcall), a4, a5, a6,
      fun k hk call hcall => a7 k hk (timesPenalty t call) (List.mem_map_of_mem hcall), a8, a9⟩
  · rintro ⟨a1, a2, a3, a4, a5, a6, a7, a8, a9⟩
    refine ⟨a1, a2, ?_, a4, a5, a6, ?_, a8, a9⟩
    · intro k hk call hcall
      obtain ⟨c0, hc0, rfl⟩ := List.mem_map.1 hcall
      exact a3 k hk c0 hc0
    · intro k hk call hcall
      obtain ⟨c0, hc0, rfl⟩ := List.mem_map.1 hcall
      exact a7 k hk c0 hc0

/-- **C119 (documented problem, larger penalties).**  If all penalties are multiplied by a larger factor, the best explanation contains no more (weighted) violation, and what it
costs otherwise does not fall. -/
theorem C119_larger_penalty (T : EstimationTask K d ne ns) (D : EstimationData K d ne ns) (t t' : K) (ht : 0 ≤ t) (htt : t < t') (e e' : Explanation K d ne)
    (ho : ({ T with cons := T.cons.map (timesPenalty t) } : EstimationTask K d ne ns).Optimal D e)
    (ho' : ({ T with cons := T.cons.map (timesPenalty t') } : EstimationTask K d ne ns).Optimal D e') :
    explainedViolation T e' ≤ explainedViolation T e ∧ T.cost D e - explainedViolation T e ≤ T.cost D e' - explainedViolation T e' := by
  have h1 := ho.2 e' ((mheAdmissible_times T D t e').2 ((mheAdmissible_times T D t' e').1 ho'.1))
  have h2 := ho'.2 e ((mheAdmissible_times T D t' e).2 ((mheAdmissible_times T D t e).1 ho.1))
  rw [mheCost_times, mheCost_times] at h1 h2
  have hv : explainedViolation T e' ≤ explainedViolation T e := by
    by_contra hlt
    rw [not_le] at hlt
    nlinarith [mul_pos (sub_pos.2 htt) (sub_pos.2 hlt)]
  exact ⟨hv, by nlinarith [mul_le_mul_of_nonneg_left hv ht]⟩

theorem mhe_slack_entry (S : MheSettings K) (calls : List (MheOp K d ne ns)) (co : MheCost K d ne ns) (w : MheX K d ne) (k : Nat) (hk : k < (lastOf mheSettingsOf calls S).N) :
    (mheWantedCfg T S calls co).E w k = w.eps (if (lastOf mheSettingsOf calls S).singleSlack then 0 else k) := by
  set s := lastOf mheSettingsOf calls S with hs
  have e1 : (mheWantedCfg T S calls co).singleSlack = s.singleSlack := rfl
  have e2 : (mheWantedCfg T S calls co).N = s.N := rfl
  unfold MheCfg.E MheCfg.kEps MheCfg.nEps
  rw [e1, e2]
  by_cases hss : s.singleSlack = true
  · rw [if_pos hss, if_pos hss, Nat.sub_self, Nat.min_zero]
  · rw [if_neg hss, if_neg hss, Nat.min_eq_left (by omega)]

theorem returned_explanation (S : MheSettings K) (ops1 ops2 : List (MheOp K d ne ns)) (h1 : ∀ op ∈ ops1, MheConfigures op) (h2 : ∀ op ∈ ops2, MheLater op)
    (hT : ∀ s sx su sz sp, T.ifcn s sx su sz sp = discreteIfcn T.model sx su sz sp) :
    let o1 := (MheObj.new S : MheObj K d ne ns).run T ops1
    let o := o1.run T (.setup :: ops2)
    let calls := ops1 ++ ops2.filter mheIsBound
    let s := lastOf mheSettingsOf calls S
    (o1.exec T .setup).2 = none → PlainMheCalls S calls →
      ∃ co, lastOf (fun op => (mheCostOf op).map some) ops1 none = some co ∧
        ∀ w q, MheSolverMinimises o w q → ∃ e, (mheConfigured S calls co T.model T.sel).Optimal (dataOf q) e ∧ o.estimate w = some (e.X s.N, e.p) ∧
          ∀ k < s.N, e.E k = w.eps (if s.singleSlack then 0 else k) := by
  intro o1 o calls s hs hp
  obtain ⟨co, ha⟩ := mheAfter_setup T S ops1 h1 hs
  have hf := mheAfter_run T S co ops2 ops1 _ ha h2
  have hpl : (mheWantedCfg T S calls co).Plain :=
    { ifcn := hT _ _ _ _ _, nlColloc := hp.noColl, consColloc := hp.allPoints, names := hp.names, sp := funext hp.sp, sx := hp.sx, su := hp.su, sz := hp.sz,
      N := hp.horizon }
  refine ⟨co, ha.cost, fun w q hw => ?_⟩
  have hn := (mheAfter_minimises T S calls co o hf w q).1 hw
  exact ⟨_, (C72_minimiser_iff _ hpl w q).mp hn, mheAfter_estimate T S calls co o hf w, fun k hk => mhe_slack_entry T S calls co w k hk⟩

/-- **C119 (the estimator).**  Configure an estimator by any calls, `setup()`, then assign bounds and make steps: if the solver answers with a global minimiser, the slack of every
component of every soft constraint with a positive penalty is exactly the worst violation in the best explanation returned, in its interval – with `nl_cons_single_slack`, in the
window. -/
theorem C119_slack (S : MheSettings K) (ops1 ops2 : List (MheOp K d ne ns)) (h1 : ∀ op ∈ ops1, MheConfigures op) (h2 : ∀ op ∈ ops2, MheLater op)
    (hT : ∀ s sx su sz sp, T.ifcn s sx su sz sp = discreteIfcn T.model sx su sz sp) :
    let o1 := (MheObj.new S : MheObj K d ne ns).run T ops1
    let o := o1.run T (.setup :: ops2)
    let calls := ops1 ++ ops2.filter mheIsBound
    let s := lastOf mheSettingsOf calls S
    (o1.exec T .setup).2 = none → PlainMheCalls S calls →
      ∃ co, lastOf (fun op => (mheCostOf op).map some) ops1 none = some co ∧
        ∀ q w, MheSolverMinimises o w q → ∃ e, (mheConfigured S calls co T.model T.sel).Optimal (dataOf q) e ∧ o.estimate w = some (e.X s.N, e.p) ∧
          ∀ k < s.N, ∀ call, MheOp.setNlCons call ∈ ops1 → call.soft = true → 0 < call.penalty → ∀ i < call.dim,
            WorstInWindow (mheConfigured S calls co T.model T.sel) (dataOf q) e k call i (w.eps (if s.singleSlack then 0 else k) call.name i) := by
  intro o1 o calls s hs hp
  obtain ⟨co, hco, hall⟩ := returned_explanation T S ops1 ops2 h1 h2 hT hs hp
  refine ⟨co, hco, fun q w hw => ?_⟩
  obtain ⟨e, he, hu, hE⟩ := hall w q hw
  refine ⟨e, he, hu, fun k hk call hcall hsoft hpen i hi => ?_⟩
  rw [← hE k hk]
  exact C119_optimal_slack _ (dataOf q) hp.names _ he k hk call (List.mem_filterMap.2 ⟨_, List.mem_append_left _ hcall, rfl⟩) hsoft hpen i hi

/-- **C119 (the estimator, continuous time).**  The same for a continuous-time model whose measurements do not depend on the algebraic states. -/
theorem C119_slack_collocation (S : MheSettings K) (deg ni : Nat) (tau : Nat → K) (htau : tau 0 = 0) (hinj : ∀ i ≤ deg, ∀ j ≤ deg, tau i = tau j → i = j)
    (ops1 ops2 : List (MheOp K d ne ns)) (h1 : ∀ op ∈ ops1, MheConfigures op) (h2 : ∀ op ∈ ops2, MheLater op)
    (hT : ∀ (s : MheSettings K) sx su sz sp, setupCollocation T.model sx su sz sp deg ni tau s.tStep = .ok (T.ifcn s sx su sz sp))
    (hmeas : ∀ x u z z' tv p v, T.model.meas x u z tv p v = T.model.meas x u z' tv p v) :
    let o1 := (MheObj.new S : MheObj K d ne ns).run T ops1
    let o := o1.run T (.setup :: ops2)
    let calls := ops1 ++ ops2.filter mheIsBound
    let s := lastOf mheSettingsOf calls S
    (o1.exec T .setup).2 = none → PlainMheCalls S calls →
      ∃ co, lastOf (fun op => (mheCostOf op).map some) ops1 none = some co ∧
        ∀ q w, MheSolverMinimises o w q → ∃ e, (mheConfiguredColl S calls co T.model T.sel deg ni tau).Optimal (dataOf q) e ∧ o.estimate w = some (e.X s.N, e.p) ∧
          ∀ k < s.N, ∀ call, MheOp.setNlCons call ∈ ops1 → call.soft = true → 0 < call.penalty → ∀ i < call.dim,
            WorstInWindow (mheConfigured S calls co T.model T.sel) (dataOf q) ⟨e.X, e.U, fun k => e.ζ k 0 0, e.W, e.V, e.E, e.p⟩ k call i
              (w.eps (if s.singleSlack then 0 else k) call.name i) := by
  intro o1 o calls s hs hp
  obtain ⟨co, ha⟩ := mheAfter_setup T S ops1 h1 hs
  have hf := mheAfter_run T S co ops2 ops1 _ ha h2
  have hpl : (mheWantedCfg T S calls co).CollPlain deg ni tau (lastOf mheSettingsOf calls S).tStep :=
    { setup := hT _ _ _ _ _, tau0 := htau, tauInj := hinj, nlColloc := hp.noColl, consColloc := hp.allPoints, names := hp.names, sp := funext hp.sp, sx := hp.sx,
      su := hp.su, sz := hp.sz, N := hp.horizon, meas := hmeas }
  refine ⟨co, ha.cost, fun q w hw => ?_⟩
  have hn := (mheAfter_minimises T S calls co o hf w q).1 hw
  obtain ⟨P, e⟩ := (C80_minimiser_is_best hpl q).1 w hn
  have ho : (mheConfiguredColl S calls co T.model T.sel deg ni tau).Optimal (dataOf q) ((mheWantedCfg T S calls co).explainColl deg w P) := e
  refine ⟨_, ho, mheAfter_estimate T S calls co o hf w, fun k hk call hcall hsoft hpen i hi => ?_⟩
  have key := C119_optimal_slack_collocation _ (dataOf q) hp.names _ ho k hk call (List.mem_filterMap.2 ⟨_, List.mem_append_left _ hcall, rfl⟩) hsoft hpen i hi
  have hE : ((mheWantedCfg T S calls co).explainColl deg w P).E k = w.eps (if s.singleSlack then 0 else k) := mhe_slack_entry T S calls co w k hk
  rw [hE] at key
  exact key

/-! ## Larger penalties -/

theorem lastOf_mheMapCons {β : Type} (φ : NlCall K d → NlCall K d) (f : MheOp K d ne ns → Option β) (hf : ∀ c, f (.setNlCons c) = none) (ops : List (MheOp K d ne ns)) (v : β) :
    lastOf f (ops.map (mheMapCons φ)) v = lastOf f ops v := by
  unfold lastOf
  rw [List.filterMap_map]
  have : f ∘ mheMapCons φ = f := by
    funext op
    cases op <;> first | rfl | exact (hf _).trans (hf _).symm
  rw [this]

theorem mheNlCons_mapCons (φ : NlCall K d → NlCall K d) (ops : List (MheOp K d ne ns)) :
    (ops.map (mheMapCons φ)).filterMap mheNlConsOf = (ops.filterMap mheNlConsOf).map φ := by
  rw [List.filterMap_map, List.map_filterMap]
  refine List.filterMap_congr fun op _ => ?_
  cases op <;> rfl

theorem mheConfigured_mapCons (φ : NlCall K d → NlCall K d) (S : MheSettings K) (calls : List (MheOp K d ne ns)) (co : MheCost K d ne ns) (m : DaeModel K d)
    (sel : Fin d.np → Fin ne ⊕ Fin ns) :
    mheConfigured S (calls.map (mheMapCons φ)) co m sel = { mheConfigured S calls co m sel with cons := (calls.filterMap mheNlConsOf).map φ } := by
  have h1 := lastOf_mheMapCons φ mheSettingsOf (fun _ => rfl) calls S
  have h2 : ∀ s v (w : Bound K), lastOf (mheBoundOf s v) (calls.map (mheMapCons φ)) w = lastOf (mheBoundOf s v) calls w := fun s v w =>
    lastOf_mheMapCons φ _ (fun _ => rfl) calls w
  unfold mheConfigured
  simp only [h1, h2, mheNlCons_mapCons]

theorem mhePlain_mapCons (φ : NlCall K d → NlCall K d) (hφ : ∀ c, (φ c).name = c.name) (S : MheSettings K) (calls : List (MheOp K d ne ns)) (hp : PlainMheCalls S calls) :
    PlainMheCalls S (calls.map (mheMapCons φ)) := by
  have h1 := lastOf_mheMapCons φ mheSettingsOf (fun _ => rfl) calls S
  have h4 : ∀ v (w : K), lastOf (mheScalingOf v) (calls.map (mheMapCons φ)) w = lastOf (mheScalingOf v) calls w := fun v w => lastOf_mheMapCons φ _ (fun _ => rfl) calls w
  have hn : (((calls.map (mheMapCons φ)).filterMap mheNlConsOf).map (·.name)) = (calls.filterMap mheNlConsOf).map (·.name) := by
    rw [mheNlCons_mapCons, List.map_map]
    exact List.map_congr_left fun c _ => hφ c
  obtain ⟨a1, a2, a3, a4, a5, a6, a7, a8⟩ := hp
  exact ⟨by rw [h1]; exact a1, by rw [h1]; exact a2, by rw [h1]; exact a3, by rw [hn]; exact a4, fun v => by rw [h4]; exact a5 v, fun v => by rw [h4]; exact a6 v,
    fun v => by rw [h4]; exact a7 v, fun v => by rw [h4]; exact a8 v⟩

theorem mheConfigures_mapCons (φ : NlCall K d → NlCall K d) (ops : List (MheOp K d ne ns)) (h : ∀ op ∈ ops, MheConfigures op) : ∀ op ∈ ops.map (mheMapCons φ), MheConfigures op := by
  intro op hop
  obtain ⟨op, ho, rfl⟩ := List.mem_map.1 hop
  have := h op ho
  cases op <;> first | exact this | trivial

theorem mheMapCons_setup (φ : NlCall K d → NlCall K d) (S : MheSettings K) (ops1 : List (MheOp K d ne ns)) (h1 : ∀ op ∈ ops1, MheConfigures op)
    (hs : (((MheObj.new S : MheObj K d ne ns).run T ops1).exec T .setup).2 = none) :
    (((MheObj.new S : MheObj K d ne ns).run T (ops1.map (mheMapCons φ))).exec T .setup).2 = none := by
  rw [C86_setup_returns_iff T S ops1 h1] at hs
  rw [C86_setup_returns_iff T S _ (mheConfigures_mapCons φ ops1 h1)]
  have hset := lastOf_mheMapCons φ mheSettingsOf (fun _ => rfl) ops1 S
  have hsc : ∀ v (w : K), lastOf (mheScalingOf v) (ops1.map (mheMapCons φ)) w = lastOf (mheScalingOf v) ops1 w := fun v w => lastOf_mheMapCons φ _ (fun _ => rfl) ops1 w
  have hb : ∀ s v (w : Bound K), lastOf (mheBoundOf s v) (ops1.map (mheMapCons φ)) w = lastOf (mheBoundOf s v) ops1 w := fun s v w =>
    lastOf_mheMapCons φ _ (fun _ => rfl) ops1 w
  obtain ⟨a1, a2, a3, a4, a5, a6⟩ := hs
  simp only [hset, hsc, hb]
  exact ⟨a1.imp fun c hc => List.mem_map.2 ⟨_, hc, rfl⟩, fun h => (a2 h).imp fun c hc => List.mem_map.2 ⟨_, hc, rfl⟩, fun h => (a3 h).imp fun c hc => List.mem_map.2 ⟨_, hc, rfl⟩,
    a4, a5.imp_left fun h => h.imp fun c hc => List.mem_map.2 ⟨_, hc, rfl⟩, a6⟩

/-- **C119 (larger penalties).**  Two estimators configured by the same calls, except that all penalties of the second one are multiplied by `t > 1`, solve for the same data: the
estimate of the second one contains no more violation of the soft constraints (the sum over the window, weighted with the first one's penalties, in the solver's slacks), and costs
at least as much otherwise. -/
theorem C119_penalty (S : MheSettings K) (ops1 ops2 : List (MheOp K d ne ns)) (h1 : ∀ op ∈ ops1, MheConfigures op) (h2 : ∀ op ∈ ops2, MheLater op)
    (hT : ∀ s sx su sz sp, T.ifcn s sx su sz sp = discreteIfcn T.model sx su sz sp) (t : K) (ht : 1 < t) :
    let o1 := (MheObj.new S : MheObj K d ne ns).run T ops1
    let o1' := (MheObj.new S : MheObj K d ne ns).run T (ops1.map (mheMapCons (timesPenalty t)))
    let o := o1.run T (.setup :: ops2)
    let o' := o1'.run T (.setup :: ops2)
    let calls := ops1 ++ ops2.filter mheIsBound
    let s := lastOf mheSettingsOf calls S
    let violation := fun w : MheX K d ne => ((List.range s.N).map fun k => slackCost (ops1.filterMap mheNlConsOf) (w.eps (if s.singleSlack then 0 else k))).sum
    (o1.exec T .setup).2 = none → PlainMheCalls S calls →
      (o1'.exec T .setup).2 = none ∧ ∃ co, lastOf (fun op => (mheCostOf op).map some) ops1 none = some co ∧
        ∀ w w' q, MheSolverMinimises o w q → MheSolverMinimises o' w' q → violation w' ≤ violation w ∧
          ∃ e e', (mheConfigured S calls co T.model T.sel).Optimal (dataOf q) e ∧ o.estimate w = some (e.X s.N, e.p) ∧
            (mheConfigured S calls co T.model T.sel).Admissible (dataOf q) e' ∧ o'.estimate w' = some (e'.X s.N, e'.p) ∧
            (mheConfigured S calls co T.model T.sel).cost (dataOf q) e - violation w ≤ (mheConfigured S calls co T.model T.sel).cost (dataOf q) e' - violation w' := by
  intro o1 o1' o o' calls s violation hs hp
  set φ : NlCall K d → NlCall K d := timesPenalty t with hφ
  have hno : ∀ op ∈ ops2.filter mheIsBound, mheMapCons φ op = op := fun op hop => by
    have := (List.mem_filter.1 hop).2
    cases op <;> first | rfl | exact absurd this (by simp [mheIsBound])
  have hcalls : ops1.map (mheMapCons φ) ++ ops2.filter mheIsBound = calls.map (mheMapCons φ) := by
    show _ = (ops1 ++ ops2.filter mheIsBound).map (mheMapCons φ)
    rw [List.map_append]
    congr 1
    symm
    exact (List.map_congr_left hno).trans (List.map_id _)
  have hcons : calls.filterMap mheNlConsOf = ops1.filterMap mheNlConsOf := by
    show (ops1 ++ ops2.filter mheIsBound).filterMap mheNlConsOf = _
    rw [List.filterMap_append]
    refine (congrArg (ops1.filterMap mheNlConsOf ++ ·) (List.filterMap_eq_nil_iff.2 ?_)).trans (List.append_nil _)
    intro op hop
    have := (List.mem_filter.1 hop).2
    cases op <;> first | rfl | exact absurd this (by simp [mheIsBound])
  have hs' := mheMapCons_setup T φ S ops1 h1 hs
  have hp' : PlainMheCalls S (ops1.map (mheMapCons φ) ++ ops2.filter mheIsBound) := hcalls ▸ mhePlain_mapCons φ (fun c => rfl) S calls hp
  obtain ⟨co, hco, hall⟩ := returned_explanation T S ops1 ops2 h1 h2 hT hs hp
  obtain ⟨co', hco', hall'⟩ := returned_explanation T S (ops1.map (mheMapCons φ)) ops2 (mheConfigures_mapCons φ ops1 h1) h2 hT hs' hp'
  obtain rfl : co' = co := by
    rw [lastOf_mheMapCons φ _ (fun _ => rfl), hco] at hco'
    exact (Option.some.inj hco').symm
  refine ⟨hs', co', hco, fun w w' q hw hw' => ?_⟩
  obtain ⟨e, he, hu, hE⟩ := hall w q hw
  obtain ⟨e', he', hu', hE'⟩ := hall' w' q hw'
  have hs2 : lastOf mheSettingsOf (ops1.map (mheMapCons φ) ++ ops2.filter mheIsBound) S = s := by rw [hcalls, lastOf_mheMapCons φ _ (fun _ => rfl)]
  rw [hs2] at hu' hE'
  have hcfg : mheConfigured S (ops1.map (mheMapCons φ) ++ ops2.filter mheIsBound) co' T.model T.sel =
      { mheConfigured S calls co' T.model T.sel with cons := (mheConfigured S calls co' T.model T.sel).cons.map (timesPenalty t) } := by
    rw [hcalls, mheConfigured_mapCons]
    rfl
  have hone : ({ mheConfigured S calls co' T.model T.sel with cons := (mheConfigured S calls co' T.model T.sel).cons.map (timesPenalty 1) } : EstimationTask K d ne ns) =
      mheConfigured S calls co' T.model T.sel := by
    have : (mheConfigured S calls co' T.model T.sel).cons.map (timesPenalty 1) = (mheConfigured S calls co' T.model T.sel).cons := by
      refine (List.map_congr_left fun c _ => ?_).trans (List.map_id _)
      unfold timesPenalty
      rw [one_mul]
      rfl
    rw [this]
  rw [hcfg] at he'
  obtain ⟨r1, r2⟩ := C119_larger_penalty (mheConfigured S calls co' T.model T.sel) (dataOf q) 1 t zero_le_one ht e e' (hone.symm ▸ he) he'
  have hv : ∀ (f : Explanation K d ne) (w : MheX K d ne), (∀ k < s.N, f.E k = w.eps (if s.singleSlack then 0 else k)) →
      explainedViolation (mheConfigured S calls co' T.model T.sel) f = violation w := fun f w hf => by
    show ((List.range s.N).map fun k => slackCost (calls.filterMap mheNlConsOf) (f.E k)).sum = _
    rw [hcons]
    refine congrArg List.sum (List.map_congr_left fun k hk => ?_)
    rw [hf k (List.mem_range.1 hk)]
  rw [hv e w hE, hv e' w' hE'] at r1 r2
  exact ⟨r1, e, e', he, hu, (mheAdmissible_times _ _ t e').1 he'.1, hu', r2⟩

/-! ## An estimator that has to accept a violation -/
namespace SoftMheEx
open MheLifeEx (dd mm tools co)

/-- two intervals, one slack per interval -/
abbrev S2 : MheSettings ℚ := MheLifeEx.S 2
/-- the state should not exceed 1 -/
def con : NlCall ℚ dd := { name := "c", dim := 1, expr := fun x _ _ _ _ _ => x 0, ub := .fin 1, soft := true, penalty := 1, maxViolation := .pinf }
def ops : List (MheOp ℚ dd 1 0) := [.setObjective co, .setNlCons con]
def oo : MheObj ℚ dd 1 0 := ((MheObj.new S2).run tools ops).run tools (.setup :: [])

theorem conf : (∀ op ∈ ops, MheConfigures op) ∧ (((MheObj.new S2).run tools ops).exec tools .setup).2 = none :=
  ⟨by simp [ops, MheConfigures], by decide +kernel⟩

theorem plainCalls : PlainMheCalls S2 (ops ++ []) where
  horizon := by decide
  noColl := rfl
  allPoints := rfl
  names := List.nodup_singleton _
  sx := fun j => (by decide +kernel : (0 : ℚ) < 1)
  su := fun j => Fin.elim0 j
  sz := fun j => Fin.elim0 j
  sp := fun _ => rfl

theorem after : MheAfter tools S2 (ops ++ []) co oo := by
  obtain ⟨co', ha⟩ := mheAfter_setup tools S2 ops conf.1 conf.2
  have hc : some co' = some co := ha.cost.symm
  rw [Option.some.inj hc] at ha
  exact mheAfter_run tools S2 co [] _ _ ha (by simp)

/-- the state 1 and the parameter 2 are expected; 2 and 4 have been measured -/
def q : MheP ℚ dd 1 0 := ⟨fun _ => 1, fun _ => 2, 0, fun _ => 0, fun k _ => if k = 0 then 2 else 4⟩
/-- the states 1, 2, 4: the second one is more than 1 -/
def w : MheX ℚ dd 1 := ⟨fun k _ _ => if k = 0 then 1 else if k = 1 then 2 else 4, fun _ _ => 0, fun _ => 0, fun _ => 0, fun _ => 0, fun k _ _ => if k = 0 then 0 else 1, fun _ => 2⟩

theorem plain : (mheWantedCfg tools S2 (ops ++ []) co).Plain where
  ifcn := rfl
  nlColloc := rfl
  consColloc := rfl
  names := plainCalls.names
  sp := funext plainCalls.sp
  sx := plainCalls.sx
  su := plainCalls.su
  sz := plainCalls.sz
  N := plainCalls.horizon

theorem minimised : MheSolverMinimises oo w q := by
  rw [mheAfter_minimises tools _ _ co _ after]
  refine ⟨⟨_, rfl, ?_, ?_⟩, fun w' hw' => ?_⟩
  · decide +kernel
  · refine ⟨?_, ?_, ?_, ?_, ?_⟩
    · decide +kernel
    · decide +kernel
    · decide +kernel
    · intro k hk sl hsl i hi
      obtain rfl : sl = con := List.mem_singleton.1 hsl
      have hi0 : i = 0 := by have : i < 1 := hi; omega
      subst hi0
      refine ⟨?_, trivial⟩
      show (0 : ℚ) ≤ if k = 0 then 0 else 1
      by_cases h0 : k = 0
      · rw [if_pos h0]
      · rw [if_neg h0]; norm_num
    · decide +kernel
  · have h1 : (mheWantedCfg tools S2 (ops ++ []) co).obj w q = 1 := by decide +kernel
    rw [h1, plain.obj_eq]
    obtain ⟨-, a2, a3, -, -, -, a7, -, -⟩ := (plain.feasible_iff _ w' q).1 hw'
    set e := (mheWantedCfg tools S2 (ops ++ []) co).explain w' with he
    have b1 : e.X 1 0 = 2 := by
      exact congrFun (a2 0 (by decide)) 0
    have b2 : e.X 1 0 - e.E 1 "c" 0 ≤ 1 := by
      have := a3 1 (by decide) con List.mem_cons_self 0 Nat.zero_lt_one
      rwa [if_pos (show con.soft = true from rfl)] at this
    have b3 : 0 ≤ e.E 0 "c" 0 := (a7 0 (by decide) con List.mem_cons_self rfl 0 Nat.zero_lt_one).1
    have b4 : (mheWantedCfg tools S2 (ops ++ []) co).task.cost q.toData e = (e.X 0 0 - 1) ^ 2 + (e.p 0 - 2) ^ 2 + (e.E 0 "c" 0 + e.E 1 "c" 0) := by
      have c1 : ∀ E : Eps ℚ, slackCost [con] E = E "c" 0 := fun E => by
        show (1 * E "c" 0 + 0) + 0 = _
        ring
      show (e.X 0 0 - 1) ^ 2 + (e.p 0 - 2) ^ 2 + ((0 + slackCost [con] (e.E 0)) + ((0 + slackCost [con] (e.E 1)) + 0)) = _
      rw [c1, c1]
      ring
    rw [b4]
    nlinarith [sq_nonneg (e.X 0 0 - 1), sq_nonneg (e.p 0 - 2)]

-- hypotheses of `C119_slack`: a global minimiser that accepts a violation
example : (∀ op ∈ ops, MheConfigures op) ∧ (((MheObj.new S2).run tools ops).exec tools .setup).2 = none ∧ PlainMheCalls S2 (ops ++ []) ∧ MheSolverMinimises oo w q ∧
    w.eps 1 "c" 0 = 1 ∧ MheOp.setNlCons con ∈ ops ∧ con.soft = true ∧ 0 < con.penalty :=
  ⟨conf.1, conf.2, plainCalls, minimised, rfl, by simp [ops], rfl, by decide +kernel⟩
end SoftMheEx

end DoMpc
