import Verif.Props.Soft

/-!
# C120: soft constraints relax, and only where necessary
-/
set_option linter.unusedSectionVars false
namespace DoMpc
open Spec
variable {K : Type} [Field K] [LinearOrder K] [IsStrictOrderedRing K] {d : Dims}

theorem exists_cover (ub : Bound K) (hub : ub ≠ .ninf) (f : Nat → K) (l : List Nat) : ∃ v, 0 ≤ v ∧ ∀ r ∈ l, ub.ge (f r - v) := by
  induction l with
  | nil => exact ⟨0, le_refl _, by simp⟩
  | cons a l ih =>
    obtain ⟨v, hv, h⟩ := ih
    cases ub with
    | ninf => exact absurd rfl hub
    | pinf => exact ⟨0, le_refl _, fun _ _ => trivial⟩
    | fin b =>
      refine ⟨max v (f a - b), le_trans hv (le_max_left _ _), fun r hr => ?_⟩
      rcases List.mem_cons.1 hr with rfl | hr
      · show f r - max v (f r - b) ≤ b
        linarith [le_max_right v (f r - b)]
      · exact ge_anti (h r hr) (sub_le_sub_left (le_max_left _ _) _)

/-- **C120 (documented problem).**  Soft constraints without a maximum violation may be left out without making a difference for whether there is an admissible policy. -/
theorem C120_relax (P : MultiStage K d) (cons' : List (NlCall K d)) (hsub : ∀ call ∈ cons', call ∈ P.cons) (hdrop : ∀ call ∈ P.cons, call ∉ cons' → NeverBlocks call)
    (hn : (P.cons.map (·.name)).Nodup) : (∃ π, P.Admissible π) ↔ ∃ π, ({ P with cons := cons' } : MultiStage K d).Admissible π := by
  have uniq : ∀ c ∈ P.cons, ∀ c' ∈ P.cons, c.name = c'.name → c = c' := fun c h c' h' e => List.inj_on_of_nodup_map hn h h' e
  constructor
  · rintro ⟨π, ha⟩
    exact ⟨π, ha.dynamics, ha.states, ha.terminal, ha.inputs, ha.algebraic, fun k hk h hh r hr call hcall => ha.constraints k hk h hh r hr call (hsub call hcall),
      fun k hk h hh call hcall => ha.slacks k hk h hh call (hsub call hcall), ha.oneInput⟩
  · rintro ⟨π, ha⟩
    have hcov : ∀ (k : Nat) (h : List Nat) (call : NlCall K d) (i : Nat), ∃ v : K, 0 ≤ v ∧ (call.ub ≠ .ninf → ∀ r, MayOccur P.c P.nR k h r →
        call.ub.ge (call.expr (π.X k h) (π.U k h) (π.Z k (extend P.nR k h r)) (P.tvp k) (P.p r) i - v)) := fun k h call i => by
      by_cases hub : call.ub = .ninf
      · exact ⟨0, le_refl _, fun h => absurd hub h⟩
      · obtain ⟨v, hv, hall⟩ := exists_cover call.ub hub (fun r => call.expr (π.X k h) (π.U k h) (π.Z k (extend P.nR k h r)) (P.tvp k) (P.p r) i) (occurring P.c P.nR k h)
        exact ⟨v, hv, fun _ r hr => hall r ((mem_occurring ..).2 hr)⟩
    choose cov hcov0 hcov1 using hcov
    classical
    let E' : Nat → List Nat → Eps K := fun k h n i => if H : ∃ call ∈ P.cons, call ∉ cons' ∧ call.name = n then cov k h H.choose i else π.E k h n i
    have hE1 : ∀ k h call i, call ∈ P.cons → call ∉ cons' → E' k h call.name i = cov k h call i := fun k h call i hc hc' => by
      have H : ∃ call' ∈ P.cons, call' ∉ cons' ∧ call'.name = call.name := ⟨call, hc, hc', rfl⟩
      have e : H.choose = call := uniq _ H.choose_spec.1 _ hc H.choose_spec.2.2
      exact (dif_pos H).trans (by rw [e])
    have hE2 : ∀ k h call i, call ∈ cons' → E' k h call.name i = π.E k h call.name i := fun k h call i hc => by
      refine dif_neg ?_
      rintro ⟨c, h1, h2, h3⟩
      exact h2 (uniq c h1 call (hsub call hc) h3 ▸ hc)
    refine ⟨{ π with E := E' }, ha.dynamics, ha.states, ha.terminal, ha.inputs, ha.algebraic, ?_, ?_, ha.oneInput⟩
    · intro k hk h hh r hr call hcall i hi
      by_cases hc : call ∈ cons'
      · have := ha.constraints k hk h hh r hr call hc i hi
        show if call.soft = true then call.ub.ge (_ - E' k h call.name i) else _
        rw [hE2 k h call i hc]
        exact this
      · obtain ⟨n1, n2, n3⟩ := hdrop call hcall hc
        rw [if_pos n1]
        show call.ub.ge (_ - E' k h call.name i)
        rw [hE1 k h call i hcall hc]
        exact hcov1 k h call i n3 r hr
    · intro k hk h hh call hcall hs i hi
      show 0 ≤ E' k h call.name i ∧ call.maxViolation.ge (E' k h call.name i)
      by_cases hc : call ∈ cons'
      · rw [hE2 k h call i hc]
        exact ha.slacks k hk h hh call hc hs i hi
      · rw [hE1 k h call i hcall hc, (hdrop call hcall hc).2.1]
        exact ⟨hcov0 k h call i, trivial⟩

/-- **C120 (documented problem, nothing violated).**  An optimal policy that plans no violation is an optimal policy of the problem in which all constraints are hard. -/
theorem C120_unused (P : MultiStage K d) (π : Policy K d) (ho : P.Optimal π)
    (hz : ∀ k < P.N, ∀ h, IsHistory P.c P.nR k h → ∀ call ∈ P.cons, call.soft = true → ∀ i < call.dim, π.E k h call.name i = 0) :
    ({ P with cons := P.cons.map asHard } : MultiStage K d).Optimal π := by
  obtain ⟨ha, hmin⟩ := ho
  have hard0 : ∀ π : Policy K d, branchSum P.c P.N P.nR (fun k h _ => slackCost (P.cons.map asHard) (π.E k h)) = branchSum P.c P.N P.nR (fun _ _ _ => (0 : K)) := fun π => by
    refine branchSum_congr _ _ _ fun k _ h _ r _ => ?_
    unfold slackCost
    rw [List.map_map]
    exact List.sum_eq_zero fun a ha => by
      obtain ⟨c, -, rfl⟩ := List.mem_map.1 ha
      rfl
  have soft0 : ∀ π : Policy K d, (∀ k < P.N, ∀ h, IsHistory P.c P.nR k h → ∀ call ∈ P.cons, call.soft = true → ∀ i < call.dim, π.E k h call.name i = 0) →
      branchSum P.c P.N P.nR (fun k h _ => slackCost P.cons (π.E k h)) = branchSum P.c P.N P.nR (fun _ _ _ => (0 : K)) := fun π hπ => by
    refine branchSum_congr _ _ _ fun k hk h hh r _ => ?_
    unfold slackCost
    refine List.sum_eq_zero fun a ha => ?_
    obtain ⟨c, hc, rfl⟩ := List.mem_map.1 ha
    by_cases hs : c.soft = true
    · rw [if_pos hs]
      refine List.sum_eq_zero fun a ha => ?_
      obtain ⟨i, hi, rfl⟩ := List.mem_map.1 ha
      rw [hπ k hk h hh c hc hs i (List.mem_range.1 hi), mul_zero]
    · rw [if_neg hs]
  refine ⟨⟨ha.dynamics, ha.states, ha.terminal, ha.inputs, ha.algebraic, ?_, ?_, ha.oneInput⟩, fun π' ha' => ?_⟩
  · intro k hk h hh r hr call' hcall' i hi
    obtain ⟨call, hcall, rfl⟩ := List.mem_map.1 hcall'
    rw [if_neg (show ¬ (asHard call).soft = true from Bool.false_ne_true)]
    have old := ha.constraints k hk h hh r hr call hcall i hi
    by_cases hs : call.soft = true
    · rw [if_pos hs, hz k hk h hh call hcall hs i hi, sub_zero] at old
      exact old
    · rw [if_neg hs] at old
      exact old
  · intro k hk h hh call' hcall' hs
    obtain ⟨call, hcall, rfl⟩ := List.mem_map.1 hcall'
    exact absurd hs Bool.false_ne_true
  · have hadm : P.Admissible { π' with E := fun _ _ _ _ => 0 } := by
      refine ⟨ha'.dynamics, ha'.states, ha'.terminal, ha'.inputs, ha'.algebraic, ?_, ?_, ha'.oneInput⟩
      · intro k hk h hh r hr call hcall i hi
        have old := ha'.constraints k hk h hh r hr (asHard call) (List.mem_map_of_mem hcall) i hi
        rw [if_neg (show ¬ (asHard call).soft = true from Bool.false_ne_true)] at old
        show if call.soft = true then call.ub.ge (_ - (0 : K)) else _
        rw [sub_zero]
        by_cases hs : call.soft = true
        · rw [if_pos hs]; exact old
        · rw [if_neg hs]; exact old
      · intro k hk h hh call hcall hs i hi
        have := (ha.slacks k hk h hh call hcall hs i hi).2
        rw [hz k hk h hh call hcall hs i hi] at this
        exact ⟨le_refl _, this⟩
    have h1 := hmin _ hadm
    have e1 : ({ P with cons := P.cons.map asHard } : MultiStage K d).cost π = P.cost π := by
      unfold MultiStage.cost
      rw [soft0 π hz]
      exact congrArg (fun t => _ + t + _) (hard0 π)
    have e2 : ({ P with cons := P.cons.map asHard } : MultiStage K d).cost π' = P.cost { π' with E := fun _ _ _ _ => 0 } := by
      unfold MultiStage.cost
      rw [soft0 { π' with E := fun _ _ _ _ => 0 } fun _ _ _ _ _ _ _ _ _ => rfl]
      exact congrArg (fun t => _ + t + _) (hard0 π')
    rw [e1, e2]
    exact h1

/-! ## The controller -/

theorem lastOf_filter {β : Type} (keep : MpcOp K d → Bool) (f : MpcOp K d → Option β) (ops : List (MpcOp K d)) (h : ∀ op ∈ ops, keep op = false → f op = none) (v : β) :
    lastOf f (ops.filter keep) v = lastOf f ops v := by
  have : (ops.filter keep).filterMap f = ops.filterMap f := by
    induction ops with
    | nil => rfl
    | cons op ops ih =>
      have ih' := ih fun op' h' => h op' (List.mem_cons_of_mem _ h')
      by_cases hk : keep op = true
      · rw [List.filter_cons_of_pos hk, List.filterMap_cons, List.filterMap_cons, ih']
      · rw [List.filter_cons_of_neg hk, ih', List.filterMap_cons, h op List.mem_cons_self (by simpa using hk)]
  unfold lastOf
  rw [this]

/-- **C120.**  Two controllers configured by the same calls, except that some `set_nl_cons` calls of soft constraints without a maximum violation (the default) are left out for the
second one: `setup()` succeeds for the second if it does for the first, and for all parameters the problem the first one gives to the solver has a feasible point if and only if the
second one's has: such soft constraints never make the problem infeasible. -/
theorem C120_never_blocks (S : MpcSettings) (m : DaeModel K d) (ops1 ops2 : List (MpcOp K d)) (h1 : ∀ op ∈ ops1, Configures op) (h2 : ∀ op ∈ ops2, Later op)
    (keep : MpcOp K d → Bool) (hk : ∀ op ∈ ops1, keep op = false → ∃ call, op = .setNlCons call ∧ NeverBlocks call) :
    let mk := fun sx su sz => discreteIfcn m sx su sz 1
    let o1 := (MpcObj.new S : MpcObj K d).run mk ops1
    let o1' := (MpcObj.new S : MpcObj K d).run mk (ops1.filter keep)
    let o := o1.run mk (.setup :: ops2)
    let o' := o1'.run mk (.setup :: ops2)
    let calls := ops1 ++ ops2.filter isBound
    (o1.exec mk .setup).2 = none → PlainCalls S calls →
      (o1'.exec mk .setup).2 = none ∧ ∀ q, (∃ w, SolverFeasible o w q) ↔ ∃ w, SolverFeasible o' w q := by
  intro mk o1 o1' o o' calls hs hp
  have hl : ∀ {β : Type} (f : MpcOp K d → Option β), (∀ c, f (.setNlCons c) = none) → ∀ v, lastOf f (ops1.filter keep) v = lastOf f ops1 v := fun f hf v =>
    lastOf_filter keep f ops1 (fun op hop hkeep => by obtain ⟨c, rfl, -⟩ := hk op hop hkeep; exact hf c) v
  let keep' : MpcOp K d → Bool := fun op => keep op || isBound op
  have hcalls : ops1.filter keep' ++ ops2.filter isBound = calls.filter keep' := by
    show _ = (ops1 ++ ops2.filter isBound).filter keep'
    rw [List.filter_append]
    congr 1
    symm
    exact List.filter_eq_self.2 fun op hop => by simp [keep', (List.mem_filter.1 hop).2]
  have hkk : ops1.filter keep = ops1.filter keep' := List.filter_congr fun op hop => by
    by_cases hkeep : keep op = true
    · simp [keep', hkeep]
    · obtain ⟨c, rfl, -⟩ := hk op hop (by simpa using hkeep)
      simp [keep', isBound]
  have hk' : ∀ op ∈ calls, keep' op = false → ∃ call, op = .setNlCons call ∧ NeverBlocks call := fun op hop hkeep => by
    have hkeep' : keep op = false ∧ isBound op = false := by simpa [keep'] using hkeep
    rcases List.mem_append.1 hop with h | h
    · exact hk op h hkeep'.1
    · have := (List.mem_filter.1 h).2
      rw [hkeep'.2] at this
      exact absurd this (by decide)
  have hl' : ∀ {β : Type} (f : MpcOp K d → Option β), (∀ c, f (.setNlCons c) = none) → ∀ v, lastOf f (calls.filter keep') v = lastOf f calls v := fun f hf v =>
    lastOf_filter keep' f calls (fun op hop hkeep => by obtain ⟨c, rfl, -⟩ := hk' op hop hkeep; exact hf c) v
  have hconf : ∀ op ∈ ops1.filter keep, Configures op := fun op hop => h1 op (List.mem_filter.1 hop).1
  have hs' : (o1'.exec mk .setup).2 = none := by
    have a := (C37_setup_returns_iff mk S ops1 h1).1 hs
    refine (C37_setup_returns_iff mk S _ hconf).2 ⟨a.1.imp fun ob hob => List.mem_filter.2 ⟨hob, ?_⟩, fun v => ?_⟩
    · by_contra hkeep
      obtain ⟨c, e, -⟩ := hk _ hob (by simpa using hkeep)
      cases e
    · rw [hl _ fun _ => rfl, hl _ fun _ => rfl]
      exact a.2 v
  have hn : (((calls.filter keep').filterMap nlConsOf).map (·.name)).Nodup :=
    hp.names.sublist (((List.filter_sublist).filterMap _).map _)
  have hcfg : ∀ ob q, configured S (calls.filter keep') ob m q = { configured S calls ob m q with cons := (calls.filter keep').filterMap nlConsOf } := fun ob q => by
    have e1 := hl' settingsOf (fun _ => rfl) S
    have e2 : ∀ s v (w : Bound K), lastOf (boundOf s v) (calls.filter keep') w = lastOf (boundOf s v) calls w := fun s v w => hl' _ (fun _ => rfl) w
    have e3 : ∀ s j (w : Bound K), lastOf (terminalOf s j) (calls.filter keep') w = lastOf (terminalOf s j) calls w := fun s v w => hl' _ (fun _ => rfl) w
    have e4 : ∀ v (w : K), lastOf (scalingOf v) (calls.filter keep') w = lastOf (scalingOf v) calls w := fun v w => hl' _ (fun _ => rfl) w
    have e5 := hl' (rtermOf (K := K) (d := d)) (fun _ => rfl) (.factor fun _ => 0)
    unfold configured terminalWanted changeWanted
    simp only [e1, e2, e3, e4, e5]
  have hp' : PlainCalls S (ops1.filter keep ++ ops2.filter isBound) := by
    rw [hkk, hcalls]
    have e1 := hl' settingsOf (fun _ => rfl) S
    have e4 : ∀ v (w : K), lastOf (scalingOf v) (calls.filter keep') w = lastOf (scalingOf v) calls w := fun v w => hl' _ (fun _ => rfl) w
    have e5 := hl' (rtermOf (K := K) (d := d)) (fun _ => rfl) (.factor fun _ => 0)
    obtain ⟨a1, a2, a3, a4, a5, a6, a7, a8⟩ := hp
    exact ⟨by rw [e1]; exact a1, by rw [e1]; exact a2, by rw [e1]; exact a3, by rw [e1]; exact a4, by rw [e1]; exact a5, fun v => by rw [e4]; exact a6 v, hn,
      fun f hf j => by rw [e4]; exact a8 f (e5.symm.trans hf) j⟩
  refine ⟨hs', fun q => ?_⟩
  obtain ⟨ob, hob, hall⟩ := C96_solvable S m ops1 ops2 h1 h2 hs hp
  obtain ⟨ob', hob', hall'⟩ := C96_solvable S m (ops1.filter keep) ops2 hconf h2 hs' hp'
  obtain rfl : ob' = ob := by
    rw [hl _ fun _ => rfl, hob] at hob'
    exact (Option.some.inj hob').symm
  refine (hall q).trans (Iff.trans ?_ (hall' q).symm)
  rw [hkk, hcalls, hcfg ob' q]
  refine C120_relax _ _ (fun call hcall => ?_) (fun call hcall hnot => ?_) hp.names
  · obtain ⟨op, hop, e⟩ := List.mem_filterMap.1 hcall
    exact List.mem_filterMap.2 ⟨op, (List.mem_filter.1 hop).1, e⟩
  · obtain ⟨op, hop, e⟩ := List.mem_filterMap.1 hcall
    have hkeep : keep' op = false := by
      by_contra hkeep
      exact hnot (List.mem_filterMap.2 ⟨op, List.mem_filter.2 ⟨hop, by simpa using hkeep⟩, e⟩)
    obtain ⟨c, rfl, hc⟩ := hk' op hop hkeep
    exact Option.some.inj e ▸ hc

/-- **C120 (nothing violated).**  If the solver answers with a global minimiser in which all slacks of soft constraints are zero (at the nodes of the scenario tree), the returned
input is the first input of an optimal policy of the problem in which all constraints are hard. -/
theorem C120_as_hard (S : MpcSettings) (m : DaeModel K d) (ops1 ops2 : List (MpcOp K d)) (h1 : ∀ op ∈ ops1, Configures op) (h2 : ∀ op ∈ ops2, Later op) :
    let mk := fun sx su sz => discreteIfcn m sx su sz 1
    let o1 := (MpcObj.new S : MpcObj K d).run mk ops1
    let o := o1.run mk (.setup :: ops2)
    let calls := ops1 ++ ops2.filter isBound
    let s := lastOf settingsOf calls S
    (o1.exec mk .setup).2 = none → PlainCalls S calls →
      ∃ ob, lastOf (fun op => (objectiveOf op).map some) ops1 none = some ob ∧
        ∀ w q, SolverMinimises o w q →
          (∀ k < s.N, ∀ h, IsHistory s.c s.nRobust k h → ∀ call, MpcOp.setNlCons call ∈ ops1 → call.soft = true → ∀ i < call.dim, w.eps k (number s.c h) call.name i = 0) →
          ∃ π, (configured S (calls.map (mapCons asHard)) ob m q).Optimal π ∧ o.returnedInput w = π.U 0 [] := by
  intro mk o1 o calls s hs hp
  obtain ⟨ob, hob, hall⟩ := returned_policy S m ops1 ops2 h1 h2 hs hp
  refine ⟨ob, hob, fun w q hw hz => ?_⟩
  obtain ⟨π, ho, hu, hE⟩ := hall w q hw
  refine ⟨π, ?_, hu⟩
  rw [configured_mapCons]
  refine C120_unused _ π ho fun k hk h hh call hcall hsoft i hi => ?_
  rw [hE]
  refine hz k hk h hh call ?_ hsoft i hi
  obtain ⟨op, hop, e⟩ := List.mem_filterMap.1 hcall
  rcases List.mem_append.1 hop with h' | h'
  · cases op with
    | setNlCons c => obtain rfl := Option.some.inj e; exact h'
    | _ => cases e
  · have := (List.mem_filter.1 h').2
    cases op with
    | setNlCons c => exact absurd this Bool.false_ne_true
    | _ => cases e

-- `C120_never_blocks`: the controller of `SoftEx`, with and without its soft constraint
example : (∀ op ∈ SoftEx.ops 1 .pinf, Configures op) ∧ (((MpcObj.new SoftEx.S1).run LifecycleExample.mkD (SoftEx.ops 1 .pinf)).exec LifecycleExample.mkD .setup).2 = none ∧
    PlainCalls SoftEx.S1 (SoftEx.ops 1 .pinf ++ []) ∧ NeverBlocks (SoftEx.con 1 .pinf) :=
  ⟨SoftEx.conf _ _, SoftEx.ready _ _, SoftEx.plain _ _, rfl, rfl, by simp [SoftEx.con]⟩

namespace SoftEx
open LifecycleExample (dm x0 u0 model mkD)
/-- state 0: nothing is violated -/
def q0 : OptP ℚ dm := ⟨fun _ => 0, fun _ => 0, fun _ => 0, 0⟩
def w0 : OptX ℚ dm := ⟨fun _ _ _ _ => 0, fun _ _ _ _ => 0, fun _ _ _ => 0, fun _ _ _ _ => 0⟩

theorem minimises0 : SolverMinimises (oo 1 .pinf) w0 q0 := by
  refine (after_minimises mkD S1 _ ob0 _ (after 1 .pinf) w0 q0).2 ⟨⟨?_, ?_, ?_, ?_, ?_⟩, fun w' hw' => ?_⟩
  · decide +kernel
  · decide +kernel
  · decide +kernel
  · decide +kernel
  · intro k hk s hs sl hsl i hi
    obtain rfl : sl = con 1 .pinf := List.mem_singleton.1 hsl
    exact ⟨le_refl (0 : ℚ), trivial⟩
  · rw [obj_eq, obj_eq]
    have ha := C12_feasible_is_admissible _ model (plain_regular S1 (ops 1 .pinf ++ []) ob0 model (plain 1 .pinf)) w' q0 hw'
    have h1 : 0 ≤ w'.eps 0 0 "c" 0 := (ha.slacks 0 Nat.zero_lt_one [] ⟨rfl, by simp⟩ (con 1 .pinf) List.mem_cons_self rfl 0 Nat.zero_lt_one).1
    show (1 : ℚ) * 0 ≤ _
    linarith

-- `C120_as_hard`: a global minimiser without violations
example : SolverMinimises (oo 1 .pinf) w0 q0 ∧ ∀ k h i, w0.eps k h "c" i = 0 := ⟨minimises0, fun _ _ _ => rfl⟩
end SoftEx

end DoMpc
