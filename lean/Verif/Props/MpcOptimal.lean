import Verif.Props.MpcCost
import Verif.Spec.MultiStage

/-! # Property C12: optimality carries over from the solver's problem to the multi-stage problem -/
set_option linter.unusedSectionVars false
namespace DoMpc
open Spec
variable {K : Type} [Field K] [LinearOrder K] [IsStrictOrderedRing K] {d : Dims}

/-- The penalty on input changes in physical units that the user asked for: `Σ rⱼ ((uⱼ - u'ⱼ)/suⱼ)²` or the user's function. -/
def MpcCfg.changeTerm (cfg : MpcCfg K d) :
    Vec K d.nx → Vec K d.nu → Vec K d.nu → Vec K d.nz → Vec K d.ntv → Vec K d.np → K :=
  match cfg.rterm with
  | .factor r => fun _ u v _ _ _ => (List.ofFn fun j => r j * ((u j - v j) / cfg.su j) ^ 2).sum
  | .user f => f

/-- The multi-stage problem a configuration and the parameters of one step stand for. -/
def MpcCfg.problem (cfg : MpcCfg K d) (m : DaeModel K d) (q : OptP K d) : MultiStage K d where
  N := cfg.N
  nR := cfg.nRobust
  c := cfg.c
  model := m
  x0 := q.x0
  uLast := q.uPrev
  tvp := q.tvp
  p := q.p
  xlb := cfg.xlb
  xub := cfg.xub
  ulb := cfg.ulb
  uub := cfg.uub
  zlb := cfg.zlb
  zub := cfg.zub
  xtlb := cfg.xtlb
  xtub := cfg.xtub
  cons := cfg.nl
  stage := cfg.lterm
  terminal := cfg.mterm
  change := cfg.changeTerm
  openLoop := cfg.openLoop

/-- The policy a solver point stands for. -/
def MpcCfg.policy (cfg : MpcCfg K d) (w : OptX K d) : Policy K d := ⟨cfg.X w, cfg.U w, cfg.Z w 0, cfg.E w⟩

/-- global minimiser of the NLP -/
def MpcCfg.NlpOptimal (cfg : MpcCfg K d) (w : OptX K d) (q : OptP K d) : Prop :=
  cfg.Feasible w q ∧ ∀ w', cfg.Feasible w' q → cfg.obj w q ≤ cfg.obj w' q

/-- Settings for which the problem handed to the solver is the documented one (the other settings have counterexamples, see
`C07_fails_*`, `C08_fails_*`, `C09_fails_*`). -/
structure MpcCfg.Regular (cfg : MpcCfg K d) (m : DaeModel K d) : Prop where
  discrete : cfg.ifcn = discreteIfcn m cfg.sx cfg.su cfg.sz 1
  cpos : 0 < cfg.c
  sx : ∀ i, 0 < cfg.sx i
  su : ∀ i, 0 < cfg.su i
  sz : ∀ i, 0 < cfg.sz i
  noColl : cfg.nlColloc = false
  names : (cfg.nl.map (·.name)).Nodup
  horizon : cfg.nRobust < cfg.N
  noAlg : cfg.NoAlgBranching
  slack : cfg.singleSlack = false
  rterm : ∀ f, cfg.rterm = .user f → ∀ i, cfg.su i = 1

/-- The part of `Regular` that concerns the constraints: any robust horizon, any penalty on input changes. -/
structure MpcCfg.RegularConstraints (cfg : MpcCfg K d) (m : DaeModel K d) : Prop where
  discrete : cfg.ifcn = discreteIfcn m cfg.sx cfg.su cfg.sz 1
  cpos : 0 < cfg.c
  sx : ∀ i, 0 < cfg.sx i
  su : ∀ i, 0 < cfg.su i
  sz : ∀ i, 0 < cfg.sz i
  noColl : cfg.nlColloc = false
  names : (cfg.nl.map (·.name)).Nodup
  noAlg : cfg.NoAlgBranching
  slack : cfg.singleSlack = false

theorem MpcCfg.Regular.constraints {cfg : MpcCfg K d} {m : DaeModel K d} (h : cfg.Regular m) : cfg.RegularConstraints m :=
  ⟨h.discrete, h.cpos, h.sx, h.su, h.sz, h.noColl, h.names, h.noAlg, h.slack⟩

/-- history with number `s` at stage `k` (numbers that do not occur are wrapped) -/
def MpcCfg.dec (cfg : MpcCfg K d) (k s : Nat) : List Nat :=
  digitsOf cfg.c (min k cfg.nRobust) (s % cfg.c ^ min k cfg.nRobust)

/-- solver point of a policy -/
def MpcCfg.encode (cfg : MpcCfg K d) (π : Policy K d) : OptX K d where
  x := fun k s _ => π.X k (cfg.dec k s) / cfg.sx
  u := fun k s => π.U k (cfg.dec k s) / cfg.su
  z := fun k s _ => π.Z k (cfg.dec (k + 1) s) / cfg.sz
  eps := fun k s => π.E k (cfg.dec k s)

theorem dec_isHistory (cfg : MpcCfg K d) (hc : 0 < cfg.c) (k s : Nat) : IsHistory cfg.c cfg.nRobust k (cfg.dec k s) :=
  ⟨digitsOf_length _ _ _, digitsOf_lt _ _ _ hc⟩

theorem dec_number (cfg : MpcCfg K d) {k : Nat} {h : List Nat} (hh : IsHistory cfg.c cfg.nRobust k h) :
    cfg.dec k (number cfg.c h) = h := by
  unfold MpcCfg.dec
  have h1 : number cfg.c h < cfg.c ^ min k cfg.nRobust := isHistory_number_lt hh
  rw [Nat.mod_eq_of_lt h1, ← hh.1]
  exact digitsOf_number _ _ hh.2

theorem div_mul_vec {n : Nat} (a s : Vec K n) (hs : ∀ i, 0 < s i) : a / s * s = a := by
  funext j; simp only [Pi.mul_apply, Pi.div_apply]; exact div_mul_cancel₀ _ (hs j).ne'

section
variable (cfg : MpcCfg K d) (m : DaeModel K d) (hR : cfg.RegularConstraints m) (π : Policy K d)
include hR

theorem encode_xPhys (k s i : Nat) : cfg.xPhys (cfg.encode π) k s i = π.X k (cfg.dec k s) := div_mul_vec _ _ hR.sx
theorem encode_uPhys (k s : Nat) : cfg.uPhys (cfg.encode π) k s = π.U k (cfg.dec k s) := div_mul_vec _ _ hR.su
theorem encode_zPhys (k s i : Nat) : cfg.zPhys (cfg.encode π) k s i = π.Z k (cfg.dec (k + 1) s) := div_mul_vec _ _ hR.sz

theorem encode_X {k : Nat} {h : List Nat} (hh : IsHistory cfg.c cfg.nRobust k h) : cfg.X (cfg.encode π) k h = π.X k h := by
  unfold MpcCfg.X; rw [encode_xPhys cfg m hR, dec_number cfg hh]

theorem encode_Z {i k : Nat} {h : List Nat} (hh : IsHistory cfg.c cfg.nRobust (k + 1) h) :
    cfg.Z (cfg.encode π) i k h = π.Z k h := by
  unfold MpcCfg.Z; rw [encode_zPhys cfg m hR, dec_number cfg hh]

theorem encode_E {k : Nat} {h : List Nat} (hh : IsHistory cfg.c cfg.nRobust k h) : cfg.E (cfg.encode π) k h = π.E k h := by
  unfold MpcCfg.E MpcCfg.encode; simp only [hR.slack]; rw [← dec_number cfg hh]; simp [dec_number cfg hh]

theorem encode_U (q : OptP K d) (hπ : (cfg.problem m q).Admissible π) {k : Nat} (hk : k < cfg.N) {h : List Nat}
    (hh : IsHistory cfg.c cfg.nRobust k h) : cfg.U (cfg.encode π) k h = π.U k h := by
  unfold MpcCfg.U; rw [encode_uPhys cfg m hR]
  split_ifs with ho
  · exact hπ.oneInput ho k hk _ _ (dec_isHistory cfg hR.cpos k 0) hh
  · rw [dec_number cfg hh]
end

theorem changeTerm_sum (cfg : MpcCfg K d) (m : DaeModel K d) (hR : cfg.Regular m) (w : OptX K d) (q : OptP K d) :
    (cfg.loop.map fun ksb => cfg.rtermAt w q ksb.1 ksb.2.1 ksb.2.2).sum =
      branchSum cfg.c cfg.N cfg.nRobust fun k h r =>
        cfg.changeTerm (cfg.X w k h) (cfg.U w k h) (inputBefore cfg.nRobust q.uPrev (cfg.U w) k h)
          (cfg.Z w cfg.zLast k (extend cfg.nRobust k h r)) (q.tvp k) (q.p r) := by
  cases hr : cfg.rterm with
  | factor r =>
    rw [C09_default_change_penalty cfg hR.cpos hR.su r hr]
    unfold MpcCfg.changeTerm
    rw [hr]
  | user f =>
    rw [C09_user_rterm_partial cfg hR.cpos (hR.rterm f hr) hR.noAlg f hr]
    unfold MpcCfg.changeTerm
    rw [hr]

theorem zLast_discrete (cfg : MpcCfg K d) (m : DaeModel K d) (hR : cfg.Regular m) : cfg.zLast = 0 := by
  unfold MpcCfg.zLast; rw [hR.discrete]; rfl

/-- Objective of the NLP = cost of the policy. -/
theorem C12_objective_is_policy_cost (cfg : MpcCfg K d) (m : DaeModel K d) (hR : cfg.Regular m) (w : OptX K d) (q : OptP K d) :
    cfg.obj w q = (cfg.problem m q).cost (cfg.policy w) := by
  rw [C08_objective_average_partial cfg hR.cpos hR.horizon hR.noAlg, changeTerm_sum cfg m hR]
  unfold MpcCfg.stageCost MpcCfg.leafCost MultiStage.cost
  rw [zLast_discrete cfg m hR]
  rfl

/-- A feasible point of the NLP is an admissible policy. -/
theorem feasible_is_admissible (cfg : MpcCfg K d) (m : DaeModel K d) (hR : cfg.RegularConstraints m) (w : OptX K d) (q : OptP K d)
    (hw : cfg.Feasible w q) : (cfg.problem m q).Admissible (cfg.policy w) := by
  have hrow := (C04_C07_rows_iff_discrete m cfg hR.discrete hR.cpos hR.sx hR.noColl hR.names w q).mp hw.1
  have hB := (C06_bounds_iff_physical cfg hR.sx hR.su hR.sz hR.names w).mp hw.2
  have hN := C06_feasible_nodes_within_bounds cfg hR.cpos hR.sx hR.su hR.sz hR.names w q hw
  have hlt : ∀ k h, IsHistory cfg.c cfg.nRobust k h → number cfg.c h < cfg.nMax := fun k h hh =>
    lt_of_lt_of_le (isHistory_number_lt hh) (Nat.pow_le_pow_right hR.cpos (by omega))
  refine ⟨hrow.1, hN.1, hN.2.1, hN.2.2, ?_, ?_, ?_, ?_⟩
  · intro k hk h hh j
    exact hB.2.2.1 k hk _ (hlt _ h hh) 0 (Nat.zero_le _) (Or.inr rfl) j
  · intro k hk h hh r hr call hcall i hi
    have := hrow.2 k hk h hh r hr call hcall i hi
    have hz := noAlgBranching_Z cfg hR.noAlg w 0 k hh hr
    simp only [MpcCfg.policy, MpcCfg.problem] at *
    rw [hz]
    exact this
  · intro k hk h hh call hcall hs i hi
    have := hB.2.2.2.2 k (by unfold MpcCfg.nEps; rw [hR.slack]; exact hk) _ (hlt _ h hh) call hcall hs i hi
    have hE : (cfg.policy w).E k h = w.eps k (number cfg.c h) := by
      simp [MpcCfg.policy, MpcCfg.E, hR.slack]
    rw [hE]; exact this
  · intro ho k hk h h' _ _
    have ho' : cfg.openLoop = true := ho
    simp [MpcCfg.policy, MpcCfg.U, ho']

/-- A feasible point of the NLP is an admissible policy. -/
theorem C12_feasible_is_admissible (cfg : MpcCfg K d) (m : DaeModel K d) (hR : cfg.Regular m) (w : OptX K d) (q : OptP K d)
    (hw : cfg.Feasible w q) : (cfg.problem m q).Admissible (cfg.policy w) :=
  feasible_is_admissible cfg m hR.constraints w q hw

/-- Every admissible policy is a feasible point of the NLP. -/
theorem admissible_is_feasible (cfg : MpcCfg K d) (m : DaeModel K d) (hR : cfg.RegularConstraints m) (q : OptP K d) (π : Policy K d)
    (hπ : (cfg.problem m q).Admissible π) : cfg.Feasible (cfg.encode π) q := by
  have eX := fun {k h} (hh : IsHistory cfg.c cfg.nRobust k h) => encode_X cfg m hR π hh
  have eU := fun {k h} (hk : k < cfg.N) (hh : IsHistory cfg.c cfg.nRobust k h) => encode_U cfg m hR π q hπ hk hh
  have eE := fun {k h} (hh : IsHistory cfg.c cfg.nRobust k h) => encode_E cfg m hR π hh
  have eZ := fun {k h} (hh : IsHistory cfg.c cfg.nRobust (k + 1) h) => encode_Z (i := 0) cfg m hR π hh
  have e0 : IsHistory cfg.c cfg.nRobust 0 [] := ⟨by simp, by simp⟩
  refine ⟨?_, ?_⟩
  · rw [C04_C07_rows_iff_discrete m cfg hR.discrete hR.cpos hR.sx hR.noColl hR.names]
    refine ⟨⟨?_, ?_⟩, ?_⟩
    · rw [eX e0]; exact hπ.dynamics.1
    · intro k hk h hh r hr
      have h1 := isHistory_extend hh hr
      rw [eX hh, eU hk hh, eZ h1, eX h1]
      exact hπ.dynamics.2 k hk h hh r hr
    · intro k hk h hh r hr call hcall i hi
      have h1 := isHistory_extend hh hr
      rw [← noAlgBranching_Z cfg hR.noAlg _ 0 k hh hr, eX hh, eU hk hh, eZ h1, eE hh]
      exact hπ.constraints k hk h hh r hr call hcall i hi
  · rw [C06_bounds_iff_physical cfg hR.sx hR.su hR.sz hR.names]
    have hd := dec_isHistory cfg hR.cpos
    refine ⟨?_, ?_, ?_, ?_, ?_⟩
    · intro k h1 h2 s _ i _ _ j
      rw [encode_xPhys cfg m hR]; exact hπ.states k h1 h2 _ (hd k s) j
    · intro s _ j
      rw [encode_xPhys cfg m hR]; exact hπ.terminal _ (hd cfg.N s) j
    · intro k hk s _ i _ _ j
      rw [encode_zPhys cfg m hR]; exact hπ.algebraic k hk _ (hd (k+1) s) j
    · intro k hk s _ j
      rw [encode_uPhys cfg m hR]; exact hπ.inputs k hk _ (hd k s) j
    · intro k hk s _ sl hsl hs i hi
      have hk' : k < cfg.N := by unfold MpcCfg.nEps at hk; rw [hR.slack] at hk; simpa using hk
      exact hπ.slacks k hk' _ (hd k s) sl hsl hs i hi

/-- Every admissible policy is a feasible point of the NLP with the same cost: the solver's problem excludes nothing. -/
theorem C12_admissible_is_feasible (cfg : MpcCfg K d) (m : DaeModel K d) (hR : cfg.Regular m) (q : OptP K d) (π : Policy K d)
    (hπ : (cfg.problem m q).Admissible π) :
    cfg.Feasible (cfg.encode π) q ∧ cfg.obj (cfg.encode π) q = (cfg.problem m q).cost π := by
  have eX := fun {k h} (hh : IsHistory cfg.c cfg.nRobust k h) => encode_X cfg m hR.constraints π hh
  have eU := fun {k h} (hk : k < cfg.N) (hh : IsHistory cfg.c cfg.nRobust k h) => encode_U cfg m hR.constraints π q hπ hk hh
  have eE := fun {k h} (hh : IsHistory cfg.c cfg.nRobust k h) => encode_E cfg m hR.constraints π hh
  have eZ := fun {k h} (hh : IsHistory cfg.c cfg.nRobust (k + 1) h) => encode_Z (i := 0) cfg m hR.constraints π hh
  have e0 : IsHistory cfg.c cfg.nRobust 0 [] := ⟨by simp, by simp⟩
  refine ⟨admissible_is_feasible cfg m hR.constraints q π hπ, ?_⟩
  · rw [C12_objective_is_policy_cost cfg m hR]
    unfold MultiStage.cost
    have e1 : ∀ k < cfg.N, ∀ h, IsHistory cfg.c cfg.nRobust k h →
        inputBefore cfg.nRobust q.uPrev (cfg.U (cfg.encode π)) k h = inputBefore cfg.nRobust q.uPrev π.U k h := by
      intro k hk h hh
      unfold inputBefore
      split_ifs with h0
      · rfl
      · apply eU (by omega)
        unfold previous
        exact ⟨by rw [List.length_take, hh.1]; omega, fun b hb => hh.2 b (List.mem_of_mem_take hb)⟩
    have hX : ∀ k < cfg.N, ∀ h, IsHistory cfg.c cfg.nRobust k h → ∀ r, MayOccur cfg.c cfg.nRobust k h r →
        cfg.X (cfg.encode π) k h = π.X k h ∧ cfg.U (cfg.encode π) k h = π.U k h ∧
        cfg.Z (cfg.encode π) 0 k (extend cfg.nRobust k h r) = π.Z k (extend cfg.nRobust k h r) :=
      fun k hk h hh r hr => ⟨eX hh, eU hk hh, eZ (isHistory_extend hh hr)⟩
    congr 1
    · congr 1
      · unfold averageCost
        congr 1
        apply sum_map_congr
        intro σ hσ
        rw [mem_allHistories_iff] at hσ
        have hσ' := hσ
        simp only [MpcCfg.problem] at hσ
        unfold scenarioCost
        congr 1
        · apply sum_map_congr
          intro k hk
          have hk : k < cfg.N := List.mem_range.mp hk
          have hkn : IsHistory cfg.c cfg.nRobust k (known cfg.nRobust k σ) := by
            unfold known
            exact ⟨by simp [hσ.1]; omega, fun b hb => hσ.2 b (List.mem_of_mem_take hb)⟩
          have hre : MayOccur cfg.c cfg.nRobust k (known cfg.nRobust k σ) (realisation cfg.nRobust k σ) := by
            unfold MayOccur realisation known
            split_ifs with hkR
            · have hl : k < σ.length := by rw [hσ.1]; omega
              rw [List.getD_eq_getElem?_getD, List.getElem?_eq_getElem hl, Option.getD_some]
              exact hσ.2 _ (List.getElem_mem hl)
            · rw [List.take_of_length_le (by rw [hσ.1]; omega)]
          obtain ⟨a1, a2, a3⟩ := hX k hk _ hkn _ hre
          simp only [MpcCfg.problem, MpcCfg.policy] at *
          rw [a1, a2, a3]
        · simp only [MpcCfg.problem, MpcCfg.policy] at *
          rw [eX hσ]
      · apply branchSum_congr
        intro k hk h hh r hr
        simp only [MpcCfg.problem, MpcCfg.policy] at *
        rw [eE hh]
    · apply branchSum_congr
      intro k hk h hh r hr
      have := hX k hk h hh r hr
      simp only [MpcCfg.problem, MpcCfg.policy] at *
      rw [this.1, this.2.1, this.2.2, e1 k hk h hh]

/-- **C12** (partial: discrete-time models and the settings in `Regular`).  If the solver returns a global minimiser of its
problem, the policy it stands for is an optimal policy of the documented multi-stage problem for the measured state and the
input applied last, and the value `opt_x_num['_u',0,0]*scaling` that `make_step` returns is its first input. -/
theorem C12_first_input_of_optimal_policy_partial (cfg : MpcCfg K d) (m : DaeModel K d) (hR : cfg.Regular m) (w : OptX K d)
    (q : OptP K d) (hw : cfg.NlpOptimal w q) :
    (cfg.problem m q).Optimal (cfg.policy w) ∧ cfg.uPhys w 0 0 = (cfg.policy w).U 0 [] := by
  refine ⟨⟨C12_feasible_is_admissible cfg m hR w q hw.1, ?_⟩, ?_⟩
  · intro π hπ
    obtain ⟨h1, h2⟩ := C12_admissible_is_feasible cfg m hR q π hπ
    rw [← C12_objective_is_policy_cost cfg m hR, ← h2]
    exact hw.2 _ h1
  · simp [MpcCfg.policy, MpcCfg.U, number]

/-- Conversely, if the multi-stage problem has an admissible policy, the solver's problem is feasible. -/
theorem C12_solver_problem_feasible_iff (cfg : MpcCfg K d) (m : DaeModel K d) (hR : cfg.Regular m) (q : OptP K d) :
    (∃ w, cfg.Feasible w q) ↔ ∃ π, (cfg.problem m q).Admissible π :=
  ⟨fun ⟨w, hw⟩ => ⟨_, C12_feasible_is_admissible cfg m hR w q hw⟩,
   fun ⟨π, hπ⟩ => ⟨_, (C12_admissible_is_feasible cfg m hR q π hπ).1⟩⟩

/-- Non-vacuity: the robust example is regular and its problem is feasible. -/
example : exCfg.Regular exModel ∧ exCfg.Feasible exW exQ :=
  ⟨{ discrete := rfl, cpos := by decide, sx := fun _ => (by decide +kernel : (0 : ℚ) < 2), su := fun _ => (by decide +kernel : (0 : ℚ) < 3),
     sz := fun _ => (by decide +kernel : (0 : ℚ) < 1), noColl := rfl,
     names := by decide, horizon := by decide, noAlg := Or.inl rfl, slack := rfl,
     rterm := fun f h => by simp [exCfg] at h }, by decide +kernel⟩

end DoMpc
