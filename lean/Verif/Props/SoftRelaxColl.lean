import Verif.Props.SoftRelax
import Verif.Props.SoftColl

/-!
# C120 for controllers of continuous-time models
-/
set_option linter.unusedSectionVars false
namespace DoMpc
open Spec
variable {K : Type} [Field K] [LinearOrder K] [IsStrictOrderedRing K] {d : Dims} {mk : Vec K d.nx → Vec K d.nu → Vec K d.nz → Ifcn K d}

/-- **C120 (documented problem, continuous time).**  Soft constraints without a maximum violation may be left out without making a difference for whether there is an admissible policy. -/
theorem C120_relax_collocation (P : CollStage K d) (cons' : List (NlCall K d)) (hsub : ∀ call ∈ cons', call ∈ P.cons) (hdrop : ∀ call ∈ P.cons, call ∉ cons' → NeverBlocks call)
    (hn : (P.cons.map (·.name)).Nodup) : (∃ π, P.Admissible π) ↔ ∃ π, ({ P with cons := cons' } : CollStage K d).Admissible π := by
  have uniq : ∀ c ∈ P.cons, ∀ c' ∈ P.cons, c.name = c'.name → c = c' := fun c h c' h' e => List.inj_on_of_nodup_map hn h h' e
  constructor
  · rintro ⟨π, ha⟩
    exact ⟨π, ha.start, ha.dynamics, ha.states, ha.inside, ha.terminal, ha.inputs, ha.algebraic, fun k hk h hh r hr call hcall => ha.constraints k hk h hh r hr call (hsub call hcall),
      fun k hk h hh call hcall => ha.slacks k hk h hh call (hsub call hcall), ha.oneInput⟩
  · rintro ⟨π, ha⟩
    have hcov : ∀ (k : Nat) (h : List Nat) (call : NlCall K d) (i : Nat), ∃ v : K, 0 ≤ v ∧ (call.ub ≠ .ninf → ∀ r, MayOccur P.c P.nR k h r →
        call.ub.ge (call.expr (π.X k h) (π.U k h) (π.ζ k (extend P.nR k h r) 0 0) (P.tvp k) (P.p r) i - v)) := fun k h call i => by
      by_cases hub : call.ub = .ninf
      · exact ⟨0, le_refl _, fun h => absurd hub h⟩
      · obtain ⟨v, hv, hall⟩ := exists_cover call.ub hub (fun r => call.expr (π.X k h) (π.U k h) (π.ζ k (extend P.nR k h r) 0 0) (P.tvp k) (P.p r) i) (occurring P.c P.nR k h)
        exact ⟨v, hv, fun _ r hr => hall r ((mem_occurring ..).2 hr)⟩
    choose cov hcov0 hcov1 using hcov
    classical
    let E' : Nat → List Nat → Eps K := fun k h n i => if H : ∃ call ∈ P.cons, call ∉ cons' ∧ call.name = n then cov k h H.choose i else π.E k h n i
    have hE1 : ∀ k h call i, call ∈ P.cons → call ∉ cons' → E' k h call.name i = cov k h call i := fun k h call i hc hc' => by
      have H : ∃ call' ∈ P.cons, call' ∉ cons' ∧ call'.name = call.name := ⟨call, hc, hc', rfl⟩
      have e : H.choose = call := uniq _ H.choose_spec.1 _ hc H.choose_spec.2.2
      exact (dif_pos H).trans (by rw [e])
    have hE2 : ∀ k h call i, call ∈ cons' → E' k h call.name i = π.E k h call.name i := fun k h call i hc => by
      refine dif_neg ?_
      rintro ⟨c, h1, h2, h3⟩
      exact h2 (uniq c h1 call (hsub call hc) h3 ▸ hc)
    refine ⟨{ π with E := E' }, ha.start, ha.dynamics, ha.states, ha.inside, ha.terminal, ha.inputs, ha.algebraic, ?_, ?_, ha.oneInput⟩
    · intro k hk h hh r hr call hcall i hi
      by_cases hc : call ∈ cons'
      · have := ha.constraints k hk h hh r hr call hc i hi
        show if call.soft = true then call.ub.ge (_ - E' k h call.name i) else _
        rw [hE2 k h call i hc]
        exact this
      · obtain ⟨n1, n2, n3⟩ := hdrop call hcall hc
        rw [if_pos n1]
        show call.ub.ge (_ - E' k h call.name i)
        rw [hE1 k h call i hcall hc]
        exact hcov1 k h call i n3 r hr
    · intro k hk h hh call hcall hs i hi
      show 0 ≤ E' k h call.name i ∧ call.maxViolation.ge (E' k h call.name i)
      by_cases hc : call ∈ cons'
      · rw [hE2 k h call i hc]
        exact ha.slacks k hk h hh call hc hs i hi
      · rw [hE1 k h call i hcall hc, (hdrop call hcall hc).2.1]
        exact ⟨hcov0 k h call i, trivial⟩

/-- **C120 (documented problem, nothing violated, continuous time).**  An optimal policy that plans no violation is an optimal policy of the problem in which all constraints are hard. -/
theorem C120_unused_collocation (P : CollStage K d) (π : CollPolicy K d) (ho : P.Optimal π)
    (hz : ∀ k < P.N, ∀ h, IsHistory P.c P.nR k h → ∀ call ∈ P.cons, call.soft = true → ∀ i < call.dim, π.E k h call.name i = 0) :
    ({ P with cons := P.cons.map asHard } : CollStage K d).Optimal π := by
  obtain ⟨ha, hmin⟩ := ho
  have hard0 : ∀ π : CollPolicy K d, branchSum P.c P.N P.nR (fun k h _ => slackCost (P.cons.map asHard) (π.E k h)) = branchSum P.c P.N P.nR (fun _ _ _ => (0 : K)) := fun π => by
    refine branchSum_congr _ _ _ fun k _ h _ r _ => ?_
    unfold slackCost
    rw [List.map_map]
    exact List.sum_eq_zero fun a ha => by
      obtain ⟨c, -, rfl⟩ := List.mem_map.1 ha
      rfl
  have soft0 : ∀ π : CollPolicy K d, (∀ k < P.N, ∀ h, IsHistory P.c P.nR k h → ∀ call ∈ P.cons, call.soft = true → ∀ i < call.dim, π.E k h call.name i = 0) →
      branchSum P.c P.N P.nR (fun k h _ => slackCost P.cons (π.E k h)) = branchSum P.c P.N P.nR (fun _ _ _ => (0 : K)) := fun π hπ => by
    refine branchSum_congr _ _ _ fun k hk h hh r _ => ?_
    unfold slackCost
    refine List.sum_eq_zero fun a ha => ?_
    obtain ⟨c, hc, rfl⟩ := List.mem_map.1 ha
    by_cases hs : c.soft = true
    · rw [if_pos hs]
      refine List.sum_eq_zero fun a ha => ?_
      obtain ⟨i, hi, rfl⟩ := List.mem_map.1 ha
      rw [hπ k hk h hh c hc hs i (List.mem_range.1 hi), mul_zero]
    · rw [if_neg hs]
  refine ⟨⟨ha.start, ha.dynamics, ha.states, ha.inside, ha.terminal, ha.inputs, ha.algebraic, ?_, ?_, ha.oneInput⟩, fun π' ha' => ?_⟩
  · intro k hk h hh r hr call' hcall' i hi
    obtain ⟨call, hcall, rfl⟩ := List.mem_map.1 hcall'
    rw [if_neg (show ¬ (asHard call).soft = true from Bool.false_ne_true)]
    have old := ha.constraints k hk h hh r hr call hcall i hi
    by_cases hs : call.soft = true
    · rw [if_pos hs, hz k hk h hh call hcall hs i hi, sub_zero] at old
      exact old
    · rw [if_neg hs] at old
      exact old
  · intro k hk h hh call' hcall' hs
    obtain ⟨call, hcall, rfl⟩ := List.mem_map.1 hcall'
    exact absurd hs Bool.false_ne_true
  · have hadm : P.Admissible { π' with E := fun _ _ _ _ => 0 } := by
      refine ⟨ha'.start, ha'.dynamics, ha'.states, ha'.inside, ha'.terminal, ha'.inputs, ha'.algebraic, ?_, ?_, ha'.oneInput⟩
      · intro k hk h hh r hr call hcall i hi
        have old := ha'.constraints k hk h hh r hr (asHard call) (List.mem_map_of_mem hcall) i hi
        rw [if_neg (show ¬ (asHard call).soft = true from Bool.false_ne_true)] at old
        show if call.soft = true then call.ub.ge (_ - (0 : K)) else _
        rw [sub_zero]
        by_cases hs : call.soft = true
        · rw [if_pos hs]; exact old
        · rw [if_neg hs]; exact old
      · intro k hk h hh call hcall hs i hi
        have := (ha.slacks k hk h hh call hcall hs i hi).2
        rw [hz k hk h hh call hcall hs i hi] at this
        exact ⟨le_refl _, this⟩
    have h1 := hmin _ hadm
    have e1 : ({ P with cons := P.cons.map asHard } : CollStage K d).policyCost π = P.policyCost π := by
      unfold CollStage.policyCost MultiStage.cost
      exact congrArg (fun t => _ + t + _) ((hard0 π).trans (soft0 π hz).symm)
    have e2 : ({ P with cons := P.cons.map asHard } : CollStage K d).policyCost π' = P.policyCost { π' with E := fun _ _ _ _ => 0 } := by
      unfold CollStage.policyCost MultiStage.cost
      exact congrArg (fun t => _ + t + _) ((hard0 π').trans (soft0 { π' with E := fun _ _ _ _ => 0 } fun _ _ _ _ _ _ _ _ _ => rfl).symm)
    rw [e1, e2]
    exact h1

/-- **C96 (feasibility, continuous time).**  For all parameters: the problem given to the solver has a feasible point if and only if the documented problem has an admissible policy. -/
theorem C96_solvable_collocation (S : MpcSettings) (m : DaeModel K d) (deg ni : Nat) (tau : Nat → K) (tStep : K) (htau : tau 0 = 0)
    (hinj : ∀ i ≤ deg, ∀ j ≤ deg, tau i = tau j → i = j) (hmk : ∀ sx su sz, setupCollocation m sx su sz 1 deg ni tau tStep = .ok (mk sx su sz))
    (ops1 ops2 : List (MpcOp K d)) (h1 : ∀ op ∈ ops1, Configures op) (h2 : ∀ op ∈ ops2, Later op) :
    let o1 := (MpcObj.new S : MpcObj K d).run mk ops1
    let o := o1.run mk (.setup :: ops2)
    let calls := ops1 ++ ops2.filter isBound
    (o1.exec mk .setup).2 = none → PlainCalls S calls →
      ∃ ob, lastOf (fun op => (objectiveOf op).map some) ops1 none = some ob ∧
        ∀ q, (∃ w, SolverFeasible o w q) ↔ ∃ π, (configuredColl S calls ob m deg ni tau tStep q).Admissible π := by
  intro o1 o calls hs hp
  obtain ⟨ob, ha⟩ := after_setup mk S ops1 h1 hs
  have hf := after_run mk S ob ops2 ops1 _ ha h2
  have hR : (wantedCfg mk S calls ob).CollConstraints m deg ni tau tStep :=
    { setup := hmk _ _ _, tau0 := htau, tauInj := hinj, cpos := hp.cpos, sx := fun j => hp.scaling (.x j), su := fun j => hp.scaling (.u j),
      sz := fun j => hp.scaling (.z j), noColl := hp.noColl, names := hp.names, noAlg := hp.noAlg, slack := hp.slack }
  have hP : ∀ q, (wantedCfg mk S calls ob).collProblem m deg ni tau tStep q = configuredColl S calls ob m deg ni tau tStep q := fun q => by
    unfold MpcCfg.collProblem configuredColl
    rw [wantedCfg_problem]
    rfl
  refine ⟨ob, ha.objective, fun q => ⟨?_, ?_⟩⟩
  · rintro ⟨w, hw⟩
    obtain ⟨P, h⟩ := C12_feasible_is_admissible_collocation hR w q ((after_feasible mk S calls ob o hf w q).1 hw)
    exact ⟨_, hP q ▸ h⟩
  · rintro ⟨π, hπ⟩
    rw [← hP q] at hπ
    exact ⟨_, (after_feasible mk S calls ob o hf _ q).2 (admissible_is_feasible_coll hR q π hπ).1⟩

/-- **C120 (continuous time).**  Two controllers configured by the same calls, except that some `set_nl_cons` calls of soft constraints without a maximum violation (the default) are left out for the
second one: `setup()` succeeds for the second if it does for the first, and for all parameters the problem the first one gives to the solver has a feasible point if and only if the
second one's has: such soft constraints never make the problem infeasible. -/
theorem C120_never_blocks_collocation (S : MpcSettings) (m : DaeModel K d) (deg ni : Nat) (tau : Nat → K) (tStep : K) (htau : tau 0 = 0)
    (hinj : ∀ i ≤ deg, ∀ j ≤ deg, tau i = tau j → i = j) (hmk : ∀ sx su sz, setupCollocation m sx su sz 1 deg ni tau tStep = .ok (mk sx su sz))
    (ops1 ops2 : List (MpcOp K d)) (h1 : ∀ op ∈ ops1, Configures op) (h2 : ∀ op ∈ ops2, Later op)
    (keep : MpcOp K d → Bool) (hk : ∀ op ∈ ops1, keep op = false → ∃ call, op = .setNlCons call ∧ NeverBlocks call) :
    let o1 := (MpcObj.new S : MpcObj K d).run mk ops1
    let o1' := (MpcObj.new S : MpcObj K d).run mk (ops1.filter keep)
    let o := o1.run mk (.setup :: ops2)
    let o' := o1'.run mk (.setup :: ops2)
    let calls := ops1 ++ ops2.filter isBound
    (o1.exec mk .setup).2 = none → PlainCalls S calls →
      (o1'.exec mk .setup).2 = none ∧ ∀ q, (∃ w, SolverFeasible o w q) ↔ ∃ w, SolverFeasible o' w q := by
  intro o1 o1' o o' calls hs hp
  have hl : ∀ {β : Type} (f : MpcOp K d → Option β), (∀ c, f (.setNlCons c) = none) → ∀ v, lastOf f (ops1.filter keep) v = lastOf f ops1 v := fun f hf v =>
    lastOf_filter keep f ops1 (fun op hop hkeep => by obtain ⟨c, rfl, -⟩ := hk op hop hkeep; exact hf c) v
  let keep' : MpcOp K d → Bool := fun op => keep op || isBound op
  have hcalls : ops1.filter keep' ++ ops2.filter isBound = calls.filter keep' := by
    show _ = (ops1 ++ ops2.filter isBound).filter keep'
    rw [List.filter_append]
    congr 1
    symm
    exact List.filter_eq_self.2 fun op hop => by simp [keep', (List.mem_filter.1 hop).2]
  have hkk : ops1.filter keep = ops1.filter keep' := List.filter_congr fun op hop => by
    by_cases hkeep : keep op = true
    · simp [keep', hkeep]
    · obtain ⟨c, rfl, -⟩ := hk op hop (by simpa using hkeep)
      simp [keep', isBound]
  have hk' : ∀ op ∈ calls, keep' op = false → ∃ call, op = .setNlCons call ∧ NeverBlocks call := fun op hop hkeep => by
    have hkeep' : keep op = false ∧ isBound op = false := by simpa [keep'] using hkeep
    rcases List.mem_append.1 hop with h | h
    · exact hk op h hkeep'.1
    · have := (List.mem_filter.1 h).2
      rw [hkeep'.2] at this
      exact absurd this (by decide)
  have hl' : ∀ {β : Type} (f : MpcOp K d → Option β), (∀ c, f (.setNlCons c) = none) → ∀ v, lastOf f (calls.filter keep') v = lastOf f calls v := fun f hf v =>
    lastOf_filter keep' f calls (fun op hop hkeep => by obtain ⟨c, rfl, -⟩ := hk' op hop hkeep; exact hf c) v
  have hconf : ∀ op ∈ ops1.filter keep, Configures op := fun op hop => h1 op (List.mem_filter.1 hop).1
  have hs' : (o1'.exec mk .setup).2 = none := by
    have a := (C37_setup_returns_iff mk S ops1 h1).1 hs
    refine (C37_setup_returns_iff mk S _ hconf).2 ⟨a.1.imp fun ob hob => List.mem_filter.2 ⟨hob, ?_⟩, fun v => ?_⟩
    · by_contra hkeep
      obtain ⟨c, e, -⟩ := hk _ hob (by simpa using hkeep)
      cases e
    · rw [hl _ fun _ => rfl, hl _ fun _ => rfl]
      exact a.2 v
  have hn : (((calls.filter keep').filterMap nlConsOf).map (·.name)).Nodup :=
    hp.names.sublist (((List.filter_sublist).filterMap _).map _)
  have hcfg : ∀ ob q, configuredColl S (calls.filter keep') ob m deg ni tau tStep q = { configuredColl S calls ob m deg ni tau tStep q with cons := (calls.filter keep').filterMap nlConsOf } := fun ob q => by
    have e1 := hl' settingsOf (fun _ => rfl) S
    have e2 : ∀ s v (w : Bound K), lastOf (boundOf s v) (calls.filter keep') w = lastOf (boundOf s v) calls w := fun s v w => hl' _ (fun _ => rfl) w
    have e3 : ∀ s j (w : Bound K), lastOf (terminalOf s j) (calls.filter keep') w = lastOf (terminalOf s j) calls w := fun s v w => hl' _ (fun _ => rfl) w
    have e4 : ∀ v (w : K), lastOf (scalingOf v) (calls.filter keep') w = lastOf (scalingOf v) calls w := fun v w => hl' _ (fun _ => rfl) w
    have e5 := hl' (rtermOf (K := K) (d := d)) (fun _ => rfl) (.factor fun _ => 0)
    unfold configuredColl configured terminalWanted changeWanted
    simp only [e1, e2, e3, e4, e5]
  have hp' : PlainCalls S (ops1.filter keep ++ ops2.filter isBound) := by
    rw [hkk, hcalls]
    have e1 := hl' settingsOf (fun _ => rfl) S
    have e4 : ∀ v (w : K), lastOf (scalingOf v) (calls.filter keep') w = lastOf (scalingOf v) calls w := fun v w => hl' _ (fun _ => rfl) w
    have e5 := hl' (rtermOf (K := K) (d := d)) (fun _ => rfl) (.factor fun _ => 0)
    obtain ⟨a1, a2, a3, a4, a5, a6, a7, a8⟩ := hp
    exact ⟨by rw [e1]; exact a1, by rw [e1]; exact a2, by rw [e1]; exact a3, by rw [e1]; exact a4, by rw [e1]; exact a5, fun v => by rw [e4]; exact a6 v, hn,
      fun f hf j => by rw [e4]; exact a8 f (e5.symm.trans hf) j⟩
  refine ⟨hs', fun q => ?_⟩
  obtain ⟨ob, hob, hall⟩ := C96_solvable_collocation S m deg ni tau tStep htau hinj hmk ops1 ops2 h1 h2 hs hp
  obtain ⟨ob', hob', hall'⟩ := C96_solvable_collocation S m deg ni tau tStep htau hinj hmk (ops1.filter keep) ops2 hconf h2 hs' hp'
  obtain rfl : ob' = ob := by
    rw [hl _ fun _ => rfl, hob] at hob'
    exact (Option.some.inj hob').symm
  refine (hall q).trans (Iff.trans ?_ (hall' q).symm)
  rw [hkk, hcalls, hcfg ob' q]
  refine C120_relax_collocation _ _ (fun call hcall => ?_) (fun call hcall hnot => ?_) hp.names
  · obtain ⟨op, hop, e⟩ := List.mem_filterMap.1 hcall
    exact List.mem_filterMap.2 ⟨op, (List.mem_filter.1 hop).1, e⟩
  · obtain ⟨op, hop, e⟩ := List.mem_filterMap.1 hcall
    have hkeep : keep' op = false := by
      by_contra hkeep
      exact hnot (List.mem_filterMap.2 ⟨op, List.mem_filter.2 ⟨hop, by simpa using hkeep⟩, e⟩)
    obtain ⟨c, rfl, hc⟩ := hk' op hop hkeep
    exact Option.some.inj e ▸ hc

/-- **C120 (nothing violated, continuous time).**  If the solver answers with a global minimiser in which all slacks of soft constraints are zero (at the nodes of the scenario tree),
the returned input is the first input of an optimal policy of the problem in which all constraints are hard. -/
theorem C120_as_hard_collocation (S : MpcSettings) (m : DaeModel K d) (deg ni : Nat) (tau : Nat → K) (tStep : K) (htau : tau 0 = 0)
    (hinj : ∀ i ≤ deg, ∀ j ≤ deg, tau i = tau j → i = j) (hmk : ∀ sx su sz, setupCollocation m sx su sz 1 deg ni tau tStep = .ok (mk sx su sz))
    (ops1 ops2 : List (MpcOp K d)) (h1 : ∀ op ∈ ops1, Configures op) (h2 : ∀ op ∈ ops2, Later op) :
    let o1 := (MpcObj.new S : MpcObj K d).run mk ops1
    let o := o1.run mk (.setup :: ops2)
    let calls := ops1 ++ ops2.filter isBound
    let s := lastOf settingsOf calls S
    (o1.exec mk .setup).2 = none → PlainCalls S calls →
    (∀ f, lastOf rtermOf calls (.factor fun _ => 0) = .user f → ∀ x u v z z' tv p, f x u v z tv p = f x u v z' tv p) →
      ∃ ob, lastOf (fun op => (objectiveOf op).map some) ops1 none = some ob ∧
        ((∀ x u z z' tv p, ob.lterm x u z tv p = ob.lterm x u z' tv p) →
        ∀ w q, SolverMinimises o w q →
          (∀ k < s.N, ∀ h, IsHistory s.c s.nRobust k h → ∀ call, MpcOp.setNlCons call ∈ ops1 → call.soft = true → ∀ i < call.dim, w.eps k (number s.c h) call.name i = 0) →
          ∃ π, (configuredColl S (calls.map (mapCons asHard)) ob m deg ni tau tStep q).Optimal π ∧ o.returnedInput w = π.U 0 []) := by
  intro o1 o calls s hs hp hz
  obtain ⟨ob, ha⟩ := after_setup mk S ops1 h1 hs
  refine ⟨ob, ha.objective, fun hl w q hw hv => ?_⟩
  have hf := after_run mk S ob ops2 ops1 _ ha h2
  have hn := (after_minimises mk S calls ob o hf w q).1 hw
  have hR : (wantedCfg mk S calls ob).CollRegular m deg ni tau tStep :=
    { setup := hmk _ _ _, tau0 := htau, tauInj := hinj, cpos := hp.cpos, sx := fun j => hp.scaling (.x j), su := fun j => hp.scaling (.u j),
      sz := fun j => hp.scaling (.z j), noColl := hp.noColl, names := hp.names, noAlg := hp.noAlg, slack := hp.slack, horizon := hp.horizon,
      lterm := hl, rterm := fun f hf => ⟨hp.rterm f hf, hz f hf⟩ }
  have hP : (wantedCfg mk S calls ob).collProblem m deg ni tau tStep q = configuredColl S calls ob m deg ni tau tStep q := by
    unfold MpcCfg.collProblem configuredColl
    rw [wantedCfg_problem]
    rfl
  obtain ⟨π, e1, e3, eE⟩ := first_input_slacks_coll hR w q hn
  rw [hP] at e1
  refine ⟨π, ?_, Eq.trans (congrArg (w.u 0 0 * ·) hf.su) e3⟩
  have hset : lastOf settingsOf (calls.map (mapCons asHard)) S = lastOf settingsOf calls S := lastOf_mapCons asHard settingsOf (fun _ => rfl) calls S
  unfold configuredColl
  rw [configured_mapCons, hset]
  refine C120_unused_collocation _ π e1 fun k hk h hh call hcall hsoft i hi => ?_
  have : (wantedCfg mk S calls ob).singleSlack = false := hp.slack
  have hE : π.E k h = w.eps k (number s.c h) := by
    rw [eE]
    show w.eps (if (wantedCfg mk S calls ob).singleSlack = true then 0 else k) _ = _
    rw [this, if_neg (by decide)]
    rfl
  rw [hE]
  refine hv k hk h hh call ?_ hsoft i hi
  obtain ⟨op, hop, e⟩ := List.mem_filterMap.1 hcall
  rcases List.mem_append.1 hop with h' | h'
  · cases op with
    | setNlCons c => obtain rfl := Option.some.inj e; exact h'
    | _ => cases e
  · have := (List.mem_filter.1 h').2
    cases op with
    | setNlCons c => exact absurd this Bool.false_ne_true
    | _ => cases e

/-! ## The hypotheses can be met: the integrator of `CollEx` with a soft constraint that need not be violated -/
namespace SoftRelaxCollEx
open CollEx (dm model tau)
open Polynomial

/-- one interval; the state should not be positive -/
def S1 : MpcSettings := ⟨1, 0, 1, false, false, false, false, true⟩
def con : NlCall ℚ dm := { name := "c", dim := 1, expr := fun x _ _ _ _ _ => x 0, ub := .fin 0, soft := true, penalty := 1, maxViolation := .pinf }
def ob0 : Objective ℚ dm := ⟨fun _ _ _ _ _ => 0, fun _ _ _ => 0⟩
def ops : List (MpcOp ℚ dm) := [.setObjective ob0, .setNlCons con]
def q0 : OptP ℚ dm := ⟨fun _ => 0, fun _ => 0, fun _ => 0, 0⟩

theorem conf : ∀ op ∈ ops, Configures op := by simp [ops, Configures]
theorem ready (mk : Vec ℚ dm.nx → Vec ℚ dm.nu → Vec ℚ dm.nz → Ifcn ℚ dm) : (((MpcObj.new S1).run mk ops).exec mk .setup).2 = none := by
  rw [C37_setup_returns_iff mk S1 _ conf]
  refine ⟨⟨ob0, by simp [ops]⟩, fun v => ?_⟩
  have : ∀ s, lastOf (boundOf s v) ops (infOf s) = infOf s := fun s => rfl
  exact this .lower ▸ trivial
theorem plain : PlainCalls S1 (ops ++ []) where
  cpos := Nat.zero_lt_one
  horizon := Nat.zero_lt_one
  slack := rfl
  noColl := rfl
  noAlg := Or.inr (Or.inl rfl)
  scaling := fun v => (by decide +kernel : (0 : ℚ) < 1)
  names := List.nodup_singleton _
  rterm := by
    intro f hf
    have : lastOf rtermOf (ops ++ []) (.factor fun _ => 0) = (.factor fun _ => 0 : RTerm ℚ dm) := rfl
    rw [this] at hf
    cases hf

/-- the state stays 0 -/
noncomputable def pol : CollPolicy ℚ dm := ⟨fun _ _ _ => 0, fun _ _ _ => 0, fun _ _ _ _ => 0, fun _ _ _ _ => 0, fun _ _ _ _ _ => 0⟩

theorem admissible : (configuredColl S1 (ops ++ []) ob0 model 1 1 tau 1 q0).Admissible pol where
  start := rfl
  dynamics := by
    intro k hk h hh r hr
    refine ⟨?_, ?_, ?_, ?_, ?_, ?_⟩
    · intro i hi e; simp [pol]
    · funext e; simp [valueAt, pol]
    · intro i hi j h1 h2; funext e; simp [slopeAt, pol, configuredColl, configured, model]
    · intro i hi j h1; funext e; simp [valueAt, pol, configuredColl, configured, model]
    · intro i hi; exact absurd hi (by simp [configuredColl])
    · funext e; simp [valueAt, pol]
  states := fun k _ _ h _ j => ⟨trivial, trivial⟩
  inside := fun _ k _ h _ i _ j _ _ e => ⟨trivial, trivial⟩
  terminal := fun h _ j => ⟨trivial, trivial⟩
  inputs := fun k _ h _ j => ⟨trivial, trivial⟩
  algebraic := fun k _ h _ i _ j _ _ e => ⟨trivial, trivial⟩
  constraints := by
    intro k hk h hh r hr call hcall i hi
    obtain rfl : call = con := List.mem_singleton.1 hcall
    rw [if_pos (show con.soft = true from rfl)]
    show (0 : ℚ) - 0 ≤ 0
    norm_num
  slacks := by
    intro k hk h hh call hcall hs i hi
    obtain rfl : call = con := List.mem_singleton.1 hcall
    exact ⟨le_refl (0 : ℚ), trivial⟩
  oneInput := fun h => by cases h

theorem cost_eq (π : CollPolicy ℚ dm) : (configuredColl S1 (ops ++ []) ob0 model 1 1 tau 1 q0).policyCost π = π.E 0 [] "c" 0 := by
  have h1 : allHistories 1 0 = [[]] := by decide
  have h2 : occurring 1 0 0 [] = [0] := by decide
  have h3 : ∀ E : Eps ℚ, slackCost [con] E = E "c" 0 := fun E => by
    show (1 * E "c" 0 + 0) + 0 = _
    ring
  have h5 : ∀ x u v z t p, (configuredColl S1 (ops ++ []) ob0 model 1 1 tau 1 q0).change x u v z t p = 0 := fun x u v z t p => by
    show (List.ofFn fun j : Fin 1 => (0 : ℚ) * _).sum = 0
    simp
  unfold CollStage.policyCost MultiStage.cost
  simp only [h5]
  show averageCost 1 1 0 (fun _ _ _ => 0) (fun _ _ => 0) + branchSum 1 1 0 (fun k h _ => slackCost [con] (π.E k h)) + branchSum 1 1 0 (fun _ _ _ => 0) = _
  simp [averageCost, scenarioCost, branchSum, h1, h2, h3]

theorem optimal : (configuredColl S1 (ops ++ []) ob0 model 1 1 tau 1 q0).Optimal pol := by
  refine ⟨admissible, fun π' h' => ?_⟩
  rw [cost_eq, cost_eq]
  exact (h'.slacks 0 Nat.zero_lt_one [] ⟨rfl, by simp⟩ con List.mem_cons_self rfl 0 Nat.zero_lt_one).1

-- hypotheses of `C120_unused_collocation`, `C120_relax_collocation` and, but for the transcription of the model (which exists by `C11_bookkeeping`) and the solver's answer, of the others
example : (∀ op ∈ ops, Configures op) ∧ PlainCalls S1 (ops ++ []) ∧ NeverBlocks con ∧ (∀ mk, (((MpcObj.new S1).run mk ops).exec mk .setup).2 = none) ∧
    (configuredColl S1 (ops ++ []) ob0 model 1 1 tau 1 q0).Optimal pol ∧ ∃ mk : Vec ℚ dm.nx → Vec ℚ dm.nu → Vec ℚ dm.nz → Ifcn ℚ dm,
      ∀ sx su sz, setupCollocation model sx su sz 1 1 1 tau 1 = .ok (mk sx su sz) := by
  refine ⟨conf, plain, ⟨rfl, rfl, by simp [con]⟩, ready, optimal, ?_⟩
  have h := fun sx su sz => (C11_bookkeeping model sx su sz 1 1 1 tau 1 one_pos).1
  choose F hF using h
  exact ⟨F, fun sx su sz => (hF sx su sz).1⟩
end SoftRelaxCollEx

end DoMpc
