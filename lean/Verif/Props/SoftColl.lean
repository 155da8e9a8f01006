import Verif.Props.Soft

/-!
# C118: soft constraints of continuous-time models
-/
set_option linter.unusedSectionVars false
namespace DoMpc
open Spec
variable {K : Type} [Field K] [LinearOrder K] [IsStrictOrderedRing K] {d : Dims} {mk : Vec K d.nx → Vec K d.nu → Vec K d.nz → Ifcn K d}

/-- **C118 (documented problem, continuous time).**  In an optimal policy of the collocation problem every slack of a soft constraint with a positive penalty is the worst violation
of the constraint at the decision time. -/
theorem C118_optimal_slack_collocation (P : CollStage K d) (hc : 0 < P.c) (hn : (P.cons.map (·.name)).Nodup) (π : CollPolicy K d) (ho : P.Optimal π) (k : Nat) (hk : k < P.N)
    (h : List Nat) (hh : IsHistory P.c P.nR k h) (call : NlCall K d) (hcall : call ∈ P.cons) (hs : call.soft = true) (hpen : 0 < call.penalty) (i : Nat) (hi : i < call.dim) :
    WorstViolation P.toMultiStage π.atNodes k h call i (π.E k h call.name i) := by
  obtain ⟨ha, hmin⟩ := ho
  refine ⟨⟨(ha.slacks k hk h hh call hcall hs i hi).1, fun r hr => ?_⟩, fun v hv => ?_⟩
  · have := ha.constraints k hk h hh r hr call hcall i hi
    rwa [if_pos hs] at this
  · by_contra hlt
    rw [not_le] at hlt
    obtain ⟨e1, e2⟩ := setSlack_rows P.toMultiStage hn π.atNodes ha.constraints ha.slacks k h call hcall i hlt hv.1 hv.2
    exact absurd (hmin { π with E := (setSlack π.atNodes k h call.name i v).E }
      ⟨ha.start, ha.dynamics, ha.states, ha.inside, ha.terminal, ha.inputs, ha.algebraic, e1, e2, ha.oneInput⟩)
      (not_le.2 (setSlack_cost P.toMultiStage hc hn π.atNodes k hk h hh call hcall hs hpen i hi hlt))

theorem admissible_times_coll (P : CollStage K d) (t : K) (π : CollPolicy K d) : ({ P with cons := P.cons.map (timesPenalty t) } : CollStage K d).Admissible π ↔ P.Admissible π := by
  constructor
  · intro ha
    exact ⟨ha.start, ha.dynamics, ha.states, ha.inside, ha.terminal, ha.inputs, ha.algebraic,
      fun k hk h hh r hr call hcall => ha.constraints k hk h hh r hr (timesPenalty t call) (List.mem_map_of_mem hcall),
      fun k hk h hh call hcall => ha.slacks k hk h hh (timesPenalty t call) (List.mem_map_of_mem hcall), ha.oneInput⟩
  · intro ha
    refine ⟨ha.start, ha.dynamics, ha.states, ha.inside, ha.terminal, ha.inputs, ha.algebraic, ?_, ?_, ha.oneInput⟩
    · intro k hk h hh r hr call hcall
      obtain ⟨c0, hc0, rfl⟩ := List.mem_map.1 hcall
      exact ha.constraints k hk h hh r hr c0 hc0
    · intro k hk h hh call hcall
      obtain ⟨c0, hc0, rfl⟩ := List.mem_map.1 hcall
      exact ha.slacks k hk h hh c0 hc0

/-- **C118 (documented problem, larger penalties, continuous time).** -/
theorem C118_larger_penalty_collocation (P : CollStage K d) (t t' : K) (ht : 0 ≤ t) (htt : t < t') (π π' : CollPolicy K d)
    (ho : ({ P with cons := P.cons.map (timesPenalty t) } : CollStage K d).Optimal π) (ho' : ({ P with cons := P.cons.map (timesPenalty t') } : CollStage K d).Optimal π') :
    plannedViolation P.toMultiStage π'.atNodes ≤ plannedViolation P.toMultiStage π.atNodes ∧
      costWithout P.toMultiStage π.atNodes ≤ costWithout P.toMultiStage π'.atNodes := by
  have h1 := ho.2 π' ((admissible_times_coll P t π').2 ((admissible_times_coll P t' π').1 ho'.1))
  have h2 := ho'.2 π ((admissible_times_coll P t' π).2 ((admissible_times_coll P t π).1 ho.1))
  have e : ∀ t π, ({ P with cons := P.cons.map (timesPenalty t) } : CollStage K d).policyCost π = _ := fun t π => cost_times P.toMultiStage t π.atNodes
  rw [e, e] at h1 h2
  have hv : plannedViolation P.toMultiStage π'.atNodes ≤ plannedViolation P.toMultiStage π.atNodes := by
    by_contra hlt
    rw [not_le] at hlt
    nlinarith [mul_pos (sub_pos.2 htt) (sub_pos.2 hlt)]
  exact ⟨hv, by nlinarith [mul_le_mul_of_nonneg_left hv ht]⟩

theorem first_input_slacks_coll {cfg : MpcCfg K d} {m : DaeModel K d} {deg ni : Nat} {tau : Nat → K} {tStep : K} (hR : cfg.CollRegular m deg ni tau tStep) (w : OptX K d) (q : OptP K d)
    (hw : cfg.NlpOptimal w q) :
    ∃ π : CollPolicy K d, (cfg.collProblem m deg ni tau tStep q).Optimal π ∧ cfg.uPhys w 0 0 = π.U 0 [] ∧ π.E = cfg.E w := by
  obtain ⟨P, hP⟩ := C12_feasible_is_admissible_collocation hR.toCollConstraints w q hw.1
  refine ⟨⟨cfg.X w, cfg.U w, cfg.E w, P, fun k h i j => cfg.Z w (i * (deg + 1) + j) k h⟩, ⟨hP, fun π' hπ' => ?_⟩, by simp [MpcCfg.U, number], rfl⟩
  obtain ⟨h1, h2⟩ := C12_admissible_is_feasible_collocation hR q π' hπ'
  rw [← h2, ← C12_objective_collocation hR w q _ (fun _ _ _ => rfl) (fun _ _ _ _ => rfl) (fun _ _ _ => rfl)]
  exact hw.2 _ h1

/-- **C118 (what a violation costs, continuous time).**  As `C118_slack`, for a controller with a continuous-time model whose stage cost and input penalty do not depend on the
algebraic states. -/
theorem C118_slack_collocation (S : MpcSettings) (m : DaeModel K d) (deg ni : Nat) (tau : Nat → K) (tStep : K) (htau : tau 0 = 0)
    (hinj : ∀ i ≤ deg, ∀ j ≤ deg, tau i = tau j → i = j) (hmk : ∀ sx su sz, setupCollocation m sx su sz 1 deg ni tau tStep = .ok (mk sx su sz))
    (ops1 ops2 : List (MpcOp K d)) (h1 : ∀ op ∈ ops1, Configures op) (h2 : ∀ op ∈ ops2, Later op) :
    let o1 := (MpcObj.new S : MpcObj K d).run mk ops1
    let o := o1.run mk (.setup :: ops2)
    let calls := ops1 ++ ops2.filter isBound
    let s := lastOf settingsOf calls S
    (o1.exec mk .setup).2 = none → PlainCalls S calls →
    (∀ f, lastOf rtermOf calls (.factor fun _ => 0) = .user f → ∀ x u v z z' tv p, f x u v z tv p = f x u v z' tv p) →
      ∃ ob, lastOf (fun op => (objectiveOf op).map some) ops1 none = some ob ∧
        ((∀ x u z z' tv p, ob.lterm x u z tv p = ob.lterm x u z' tv p) →
          ∀ w q, SolverMinimises o w q → ∃ π, (configuredColl S calls ob m deg ni tau tStep q).Optimal π ∧ o.returnedInput w = π.U 0 [] ∧
            ∀ k < s.N, ∀ h, IsHistory s.c s.nRobust k h → ∀ call, MpcOp.setNlCons call ∈ ops1 → call.soft = true → 0 < call.penalty → ∀ i < call.dim,
              WorstViolation (configured S calls ob m q) π.atNodes k h call i (w.eps k (number s.c h) call.name i)) := by
  intro o1 o calls s hs hp hz
  obtain ⟨ob, ha⟩ := after_setup mk S ops1 h1 hs
  refine ⟨ob, ha.objective, fun hl w q hw => ?_⟩
  have hf := after_run mk S ob ops2 ops1 _ ha h2
  have hn := (after_minimises mk S calls ob o hf w q).1 hw
  have hR : (wantedCfg mk S calls ob).CollRegular m deg ni tau tStep :=
    { setup := hmk _ _ _, tau0 := htau, tauInj := hinj, cpos := hp.cpos, sx := fun j => hp.scaling (.x j), su := fun j => hp.scaling (.u j),
      sz := fun j => hp.scaling (.z j), noColl := hp.noColl, names := hp.names, noAlg := hp.noAlg, slack := hp.slack, horizon := hp.horizon,
      lterm := hl, rterm := fun f hf => ⟨hp.rterm f hf, hz f hf⟩ }
  have hP : (wantedCfg mk S calls ob).collProblem m deg ni tau tStep q = configuredColl S calls ob m deg ni tau tStep q := by
    unfold MpcCfg.collProblem configuredColl
    rw [wantedCfg_problem]
    rfl
  obtain ⟨π, e1, e3, eE⟩ := first_input_slacks_coll hR w q hn
  rw [hP] at e1
  refine ⟨π, e1, Eq.trans ?_ e3, fun k hk h hh call hcall hsoft hpen i hi => ?_⟩
  · exact congrArg (w.u 0 0 * ·) hf.su
  · have : (wantedCfg mk S calls ob).singleSlack = false := hp.slack
    have hE : π.E k h = w.eps k (number s.c h) := by
      rw [eE]
      show w.eps (if (wantedCfg mk S calls ob).singleSlack = true then 0 else k) _ = _
      rw [this, if_neg (by decide)]
      rfl
    rw [← hE]
    exact C118_optimal_slack_collocation _ hp.cpos hp.names π e1 k hk h hh call (List.mem_filterMap.2 ⟨_, List.mem_append_left _ hcall, rfl⟩) hsoft hpen i hi

/-! ## The integrator of `CollEx`, with a violated constraint -/
namespace SoftCollEx
open CollEx (dm)

/-- the state should not exceed -1 -/
def con : NlCall ℚ dm := { name := "c", dim := 1, expr := fun x _ _ _ _ _ => x 0, ub := .fin (-1), soft := true, penalty := 1, maxViolation := .pinf }

/-- one interval from the state 0; nothing is charged but the violation -/
def P : CollStage ℚ dm where
  N := 1
  nR := 0
  c := 1
  model := CollEx.model
  x0 := 0
  uLast := 0
  tvp := fun _ => 0
  p := fun _ => 0
  xlb := fun _ => .ninf
  xub := fun _ => .fin 5
  ulb := fun _ => .fin 1
  uub := fun _ => .fin 2
  zlb := fun _ => .ninf
  zub := fun _ => .pinf
  xtlb := fun _ => .ninf
  xtub := fun _ => .fin 5
  cons := [con]
  stage := fun _ _ _ _ _ => 0
  terminal := fun _ _ _ => 0
  change := fun _ _ _ _ _ _ => 0
  openLoop := false
  deg := 1
  ni := 1
  tau := CollEx.tau
  tStep := 1
  allPoints := true

/-- apply the input 1 and accept the violation 1 -/
noncomputable def pol : CollPolicy ℚ dm := { CollEx.pol with E := fun _ _ _ _ => 1 }

theorem admissible : P.Admissible pol where
  start := by funext e; simp [pol, P, CollEx.pol]
  dynamics := by
    intro k hk h hh r hr
    have hk0 : k = 0 := by have : k < 1 := hk; omega
    subst hk0
    refine ⟨?_, ?_, ?_, ?_, ?_, ?_⟩
    · intro i hi e; simp [pol, CollEx.pol, P]
    · funext e; simp [valueAt, pol, CollEx.pol]
    · intro i hi j h1 h2; funext e; simp [slopeAt, pol, CollEx.pol, P, CollEx.model]
    · intro i hi j h1; funext e; simp [valueAt, pol, CollEx.pol, P, CollEx.model, CollEx.tau]
    · intro i hi; exact absurd hi (by simp [P])
    · funext e; simp [valueAt, pol, CollEx.pol]
  states := fun k h1 h2 => by have : k < 1 := h2; omega
  inside := fun _ k hk => by have : k + 1 < 1 := hk; omega
  terminal := fun h _ j => ⟨trivial, by show (((1 : Nat) : ℚ)) ≤ 5; norm_num⟩
  inputs := fun k _ h _ j => ⟨by show (1 : ℚ) ≤ 1; norm_num, by show (1 : ℚ) ≤ 2; norm_num⟩
  algebraic := fun k _ h _ i _ j _ _ e => ⟨trivial, trivial⟩
  constraints := by
    intro k hk h hh r hr call hcall i hi
    obtain rfl : call = con := List.mem_singleton.1 hcall
    have hk0 : k = 0 := by have : k < 1 := hk; omega
    subst hk0
    rw [if_pos (show con.soft = true from rfl)]
    show (((0 : Nat) : ℚ)) - 1 ≤ -1
    norm_num
  slacks := by
    intro k hk h hh call hcall hs i hi
    obtain rfl : call = con := List.mem_singleton.1 hcall
    exact ⟨by show (0 : ℚ) ≤ 1; norm_num, trivial⟩
  oneInput := fun h => by cases h

theorem cost_eq (π : CollPolicy ℚ dm) : P.policyCost π = π.E 0 [] "c" 0 := by
  have h1 : allHistories 1 0 = [[]] := by decide
  have h2 : occurring 1 0 0 [] = [0] := by decide
  simp [CollStage.policyCost, MultiStage.cost, averageCost, scenarioCost, branchSum, P, h1, h2, slackCost, con, CollPolicy.atNodes]

theorem optimal : P.Optimal pol := by
  refine ⟨admissible, fun π' h' => ?_⟩
  rw [cost_eq, cost_eq]
  have h2 := h'.constraints 0 Nat.zero_lt_one [] ⟨rfl, by simp⟩ 0 rfl con List.mem_cons_self 0 Nat.zero_lt_one
  rw [if_pos (show con.soft = true from rfl)] at h2
  have h1 : π'.X 0 [] 0 = 0 := congrFun h'.start 0
  have h3 : π'.X 0 [] 0 - π'.E 0 [] "c" 0 ≤ -1 := h2
  rw [h1] at h3
  show (1 : ℚ) ≤ _
  linarith

-- hypotheses of `C118_optimal_slack_collocation`; the slack is the violation 1
example : 0 < P.c ∧ (P.cons.map (·.name)).Nodup ∧ P.Optimal pol ∧ IsHistory P.c P.nR 0 [] ∧ con ∈ P.cons ∧ con.soft = true ∧ 0 < con.penalty ∧
    WorstViolation P.toMultiStage pol.atNodes 0 [] con 0 1 :=
  have hn : (P.cons.map (·.name)).Nodup := List.nodup_singleton _
  ⟨Nat.zero_lt_one, hn, optimal, ⟨rfl, by simp⟩, List.mem_cons_self, rfl, by decide +kernel,
    C118_optimal_slack_collocation P Nat.zero_lt_one hn pol optimal 0 Nat.zero_lt_one [] ⟨rfl, by simp⟩ con List.mem_cons_self rfl (by decide +kernel) 0 Nat.zero_lt_one⟩
end SoftCollEx

end DoMpc
