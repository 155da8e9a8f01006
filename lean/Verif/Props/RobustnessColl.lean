import Verif.Props.Robustness
import Verif.Props.MpcOptimalColl

/-! # Property C105 for continuous-time models, and the cost -/
set_option linter.unusedSectionVars false
namespace DoMpc
open Spec
variable {K : Type} [Field K] [LinearOrder K] [IsStrictOrderedRing K] {d : Dims}

/-- **C105** (collocation): less demanding settings are feasible whenever the others are, with the same first input. -/
theorem C105_feasible_collocation (m : DaeModel K d) (deg ni : Nat) (tau : Nat → K) (tStep : K) (cfg cfg' : MpcCfg K d)
    (hR : cfg.CollConstraints m deg ni tau tStep) (hR' : cfg'.CollConstraints m deg ni tau tStep) (q q' : OptP K d)
    (h : LessDemanding cfg cfg' q q') (w : OptX K d) (hw : cfg.Feasible w q) :
    ∃ w', cfg'.Feasible w' q' ∧ ∀ j, w'.u 0 0 j * cfg'.su j = w.u 0 0 j * cfg.su j := by
  obtain ⟨Pol, hA⟩ := C12_feasible_is_admissible_collocation hR w q hw
  obtain ⟨σ, hσ, h0⟩ := h.realisations
  have hσc : ∀ r < cfg'.c, σ r < cfg.c := fun r hr => (hσ r hr).1
  set π : CollPolicy K d := ⟨cfg.X w, cfg.U w, cfg.E w, Pol, fun k h i j => cfg.Z w (i * (deg + 1) + j) k h⟩ with hπ
  set φ := embed cfg.nRobust cfg'.nRobust σ with hφ
  set π' : CollPolicy K d := ⟨fun k hh => π.X k (φ k hh), fun k hh => π.U k (φ k hh), fun k hh => easedSlack cfg.nl (π.E k (φ k hh)),
    fun k hh => π.P k (φ (k + 1) hh), fun k hh => π.ζ k (φ (k + 1) hh)⟩ with hπ'
  have hist : ∀ {k hh}, IsHistory cfg'.c cfg'.nRobust k hh → IsHistory cfg.c cfg.nRobust k (φ k hh) := fun hh => embed_isHistory hR'.cpos h.robust hσc hh
  have may : ∀ {k hh r}, IsHistory cfg'.c cfg'.nRobust k hh → MayOccur cfg'.c cfg'.nRobust k hh r → MayOccur cfg.c cfg.nRobust k (φ k hh) (σ r) :=
    fun hh hr => embed_mayOccur hR'.cpos h.robust hσc h0 hh hr
  have ext : ∀ {k hh r}, IsHistory cfg'.c cfg'.nRobust k hh → MayOccur cfg'.c cfg'.nRobust k hh r →
      φ (k + 1) (extend cfg'.nRobust k hh r) = extend cfg.nRobust k (φ k hh) (σ r) := fun hh hr => embed_extend h.robust hh hr
  have par : ∀ {k hh r}, IsHistory cfg'.c cfg'.nRobust k hh → MayOccur cfg'.c cfg'.nRobust k hh r → q'.p r = q.p (σ r) :=
    fun hh hr => (hσ _ (mayOccur_lt hR'.cpos hh hr)).2
  have hle := h.horizon.2
  have φ0 : φ 0 [] = [] := by simp [hφ, embed]
  have hA' : (cfg'.collProblem m deg ni tau tStep q').Admissible π' := by
    constructor
    · show π.X 0 (φ 0 []) = q'.x0
      rw [φ0, h.start]; exact hA.start
    · intro k hk hh hhist r hr
      have hk : k < cfg'.N := hk
      have := hA.dynamics k (lt_of_lt_of_le hk hle) (φ k hh) (hist hhist) (σ r) (may hhist hr)
      show IsCollocationSolution m deg ni tau (tStep / ni) (π.X k (φ k hh)) (π.U k (φ k hh)) (q'.tvp k) (q'.p r) 0
        (π.X (k + 1) (φ (k + 1) (extend cfg'.nRobust k hh r))) (π.P k (φ (k + 1) (extend cfg'.nRobust k hh r))) (π.ζ k (φ (k + 1) (extend cfg'.nRobust k hh r)))
      rw [ext hhist hr, par hhist hr, h.tvp]
      exact this
    · intro k h1 hk hh hhist j
      have hk : k < cfg'.N := hk
      have := hA.states k h1 (lt_of_lt_of_le hk hle) (φ k hh) (hist hhist) j
      exact h.states j _ this.1 this.2
    · intro hp k hk hh hhist i hi j hj hij e
      have hk : k + 1 < cfg'.N := hk
      have := hA.inside (h.points hp) k (lt_of_lt_of_le hk hle) (φ (k + 1) hh) (hist hhist) i hi j hj hij e
      exact h.states e _ this.1 this.2
    · intro hh hhist j
      rcases hle.eq_or_lt with e | e
      · have h2 : IsHistory cfg.c cfg.nRobust cfg.N (φ cfg'.N hh) := e ▸ hist hhist
        have := hA.terminal (φ cfg'.N hh) h2 j
        show (cfg'.xtlb j).le (π.X cfg'.N (φ cfg'.N hh) j) ∧ (cfg'.xtub j).ge (π.X cfg'.N (φ cfg'.N hh) j)
        have e2 : π.X cfg'.N (φ cfg'.N hh) = π.X cfg.N (φ cfg'.N hh) := by rw [← e]
        rw [e2]
        exact h.terminal e j _ this.1 this.2
      · have := hA.states cfg'.N h.horizon.1 e (φ cfg'.N hh) (hist hhist) j
        exact h.terminal_shorter e j _ this.1 this.2
    · intro k hk hh hhist j
      have hk : k < cfg'.N := hk
      have := hA.inputs k (lt_of_lt_of_le hk hle) (φ k hh) (hist hhist) j
      exact h.inputs j _ this.1 this.2
    · intro k hk hh hhist i hi j hj hij e
      have hk : k < cfg'.N := hk
      have := hA.algebraic k (lt_of_lt_of_le hk hle) (φ (k + 1) hh) (hist hhist) i hi j hj (hij.imp_left h.points) e
      exact h.algebraic e _ this.1 this.2
    · intro k hk hh hhist r hr call' hcall' i hi
      have hk : k < cfg'.N := hk
      obtain ⟨call, hcall, hc⟩ := h.constraints call' hcall'
      have := hA.constraints k (lt_of_lt_of_le hk hle) (φ k hh) (hist hhist) (σ r) (may hhist hr) call hcall i (hc.dim ▸ hi)
      show if call'.soft = true then
        call'.ub.ge (call'.expr (π.X k (φ k hh)) (π.U k (φ k hh)) (π.ζ k (φ (k + 1) (extend cfg'.nRobust k hh r)) 0 0) (q'.tvp k) (q'.p r) i
          - easedSlack cfg.nl (π.E k (φ k hh)) call'.name i)
        else call'.ub.ge (call'.expr (π.X k (φ k hh)) (π.U k (φ k hh)) (π.ζ k (φ (k + 1) (extend cfg'.nRobust k hh r)) 0 0) (q'.tvp k) (q'.p r) i)
      rw [ext hhist hr, par hhist hr, h.tvp, hc.expr]
      exact eased_holds hR.names hcall hc _ i _ this
    · intro k hk hh hhist call' hcall' hs i hi
      have hk : k < cfg'.N := hk
      obtain ⟨call, hcall, hc⟩ := h.constraints call' hcall'
      exact eased_slack hR.names hcall hc _ i
        (fun hs => hA.slacks k (lt_of_lt_of_le hk hle) (φ k hh) (hist hhist) call hcall hs i (hc.dim ▸ hi)) hs
    · intro ho k hk h1 h2 hh1 hh2
      have hk : k < cfg'.N := hk
      exact hA.oneInput (h.openLoop ho) k (lt_of_lt_of_le hk hle) (φ k h1) (φ k h2) (hist hh1) (hist hh2)
  obtain ⟨hf, -, hU, -⟩ := admissible_is_feasible_coll hR' q' π' hA'
  refine ⟨_, hf, fun j => ?_⟩
  have e0 : IsHistory cfg'.c cfg'.nRobust 0 [] := ⟨by simp, by simp⟩
  have e1 := congrFun (hU 0 h.horizon.1 [] e0) j
  have e2 : cfg'.U (cfg'.encodeColl deg ni tau π') 0 [] j = (cfg'.encodeColl deg ni tau π').u 0 0 j * cfg'.su j := by simp [MpcCfg.U, number, MpcCfg.uPhys]
  have e3 : π'.U 0 [] j = w.u 0 0 j * cfg.su j := by
    show π.U 0 (φ 0 []) j = _
    rw [φ0]
    simp [hπ, MpcCfg.U, number, MpcCfg.uPhys]
  rw [← e2, e1, e3]

/-! ## the cost -/

theorem relaxed_fields {cfg cfg' : MpcCfg K d} (h : Relaxed cfg cfg') : ∃ ol pt a b c e f g i j, cfg' = { cfg with openLoop := ol, consColloc := pt, xlb := a, xub := b, ulb := c, uub := e, zlb := f, zub := g, xtlb := i, xtub := j } := ⟨_, _, _, _, _, _, _, _, _, _, h.same⟩

/-- **C105** (discrete time): with wider bounds, or inputs that may depend on the scenario, the same plan costs the same, so the best cost is not larger. -/
theorem C105_cost (m : DaeModel K d) (cfg cfg' : MpcCfg K d) (hR : cfg.Regular m) (h : Relaxed cfg cfg') (q : OptP K d) (w : OptX K d) (hw : cfg.Feasible w q) :
    ∃ w', cfg'.Feasible w' q ∧ cfg'.obj w' q = cfg.obj w q ∧ ∀ j, w'.u 0 0 j * cfg'.su j = w.u 0 0 j * cfg.su j := by
  have hA := C12_feasible_is_admissible cfg m hR w q hw
  have hR' : cfg'.Regular m := by
    obtain ⟨_, _, _, _, _, _, _, _, _, _, rfl⟩ := relaxed_fields h
    exact ⟨hR.discrete, hR.cpos, hR.sx, hR.su, hR.sz, hR.noColl, hR.names, hR.horizon, hR.noAlg, hR.slack, hR.rterm⟩
  obtain ⟨h1, h2, h3, h4, h5, h6⟩ := (⟨h.openLoop, h.points, h.states, h.inputs, h.algebraic, h.terminal⟩ : _ ∧ _ ∧ _ ∧ _ ∧ _ ∧ _)
  have hA' : (cfg'.problem m q).Admissible (cfg.policy w) := by
    obtain ⟨_, _, _, _, _, _, _, _, _, _, rfl⟩ := relaxed_fields h
    exact ⟨hA.dynamics, fun k a b hh hist j => h3 j _ (hA.states k a b hh hist j).1 (hA.states k a b hh hist j).2,
      fun hh hist j => h6 j _ (hA.terminal hh hist j).1 (hA.terminal hh hist j).2, fun k hk hh hist j => h4 j _ (hA.inputs k hk hh hist j).1 (hA.inputs k hk hh hist j).2,
      fun k hk hh hist j => h5 j _ (hA.algebraic k hk hh hist j).1 (hA.algebraic k hk hh hist j).2, hA.constraints, hA.slacks, fun ho => hA.oneInput (h1 ho)⟩
  obtain ⟨hf, hc⟩ := C12_admissible_is_feasible cfg' m hR' q _ hA'
  refine ⟨_, hf, ?_, fun j => ?_⟩
  · rw [hc, C12_objective_is_policy_cost cfg m hR]
    obtain ⟨_, _, _, _, _, _, _, _, _, _, rfl⟩ := relaxed_fields h
    rfl
  · have e0 : IsHistory cfg'.c cfg'.nRobust 0 [] := ⟨by simp, by simp⟩
    have e1 := congrFun (encode_U cfg' m hR'.constraints _ q hA' (lt_of_le_of_lt (Nat.zero_le _) hR'.horizon) e0) j
    have e2 : cfg'.U (cfg'.encode (cfg.policy w)) 0 [] j = (cfg'.encode (cfg.policy w)).u 0 0 j * cfg'.su j := by simp [MpcCfg.U, number, MpcCfg.uPhys]
    rw [← e2, e1]
    simp [MpcCfg.policy, MpcCfg.U, number, MpcCfg.uPhys]

/-- **C105** (collocation): as `C105_cost`. -/
theorem C105_cost_collocation (m : DaeModel K d) (deg ni : Nat) (tau : Nat → K) (tStep : K) (cfg cfg' : MpcCfg K d) (hR : cfg.CollRegular m deg ni tau tStep)
    (h : Relaxed cfg cfg') (q : OptP K d) (w : OptX K d) (hw : cfg.Feasible w q) :
    ∃ w', cfg'.Feasible w' q ∧ cfg'.obj w' q = cfg.obj w q ∧ ∀ j, w'.u 0 0 j * cfg'.su j = w.u 0 0 j * cfg.su j := by
  obtain ⟨Pol, hA⟩ := C12_feasible_is_admissible_collocation hR.toCollConstraints w q hw
  have hR' : cfg'.CollRegular m deg ni tau tStep := by
    obtain ⟨_, _, _, _, _, _, _, _, _, _, rfl⟩ := relaxed_fields h
    exact ⟨⟨hR.setup, hR.tau0, hR.tauInj, hR.cpos, hR.sx, hR.su, hR.sz, hR.noColl, hR.names, hR.noAlg, hR.slack⟩, hR.horizon, hR.lterm, hR.rterm⟩
  obtain ⟨h1, h2, h3, h4, h5, h6⟩ := (⟨h.openLoop, h.points, h.states, h.inputs, h.algebraic, h.terminal⟩ : _ ∧ _ ∧ _ ∧ _ ∧ _ ∧ _)
  set π : CollPolicy K d := ⟨cfg.X w, cfg.U w, cfg.E w, Pol, fun k h i j => cfg.Z w (i * (deg + 1) + j) k h⟩ with hπ
  have hA' : (cfg'.collProblem m deg ni tau tStep q).Admissible π := by
    obtain ⟨_, _, _, _, _, _, _, _, _, _, rfl⟩ := relaxed_fields h
    exact ⟨hA.start, hA.dynamics, fun k a b hh hist j => h3 j _ (hA.states k a b hh hist j).1 (hA.states k a b hh hist j).2,
      fun hp k hk hh hist i hi j hj hij e => h3 e _ (hA.inside (h2 hp) k hk hh hist i hi j hj hij e).1 (hA.inside (h2 hp) k hk hh hist i hi j hj hij e).2,
      fun hh hist j => h6 j _ (hA.terminal hh hist j).1 (hA.terminal hh hist j).2, fun k hk hh hist j => h4 j _ (hA.inputs k hk hh hist j).1 (hA.inputs k hk hh hist j).2,
      fun k hk hh hist i hi j hj hij e => h5 e _ (hA.algebraic k hk hh hist i hi j hj (hij.imp_left h2) e).1 (hA.algebraic k hk hh hist i hi j hj (hij.imp_left h2) e).2,
      hA.constraints, hA.slacks, fun ho => hA.oneInput (h1 ho)⟩
  obtain ⟨hf, -, hU, -⟩ := admissible_is_feasible_coll hR'.toCollConstraints q π hA'
  have hc := (C12_admissible_is_feasible_collocation hR' q π hA').2
  refine ⟨_, hf, ?_, fun j => ?_⟩
  · rw [hc, C12_objective_collocation hR w q π (fun _ _ _ => rfl) (fun _ _ _ _ => rfl) (fun _ _ _ => rfl)]
    obtain ⟨_, _, _, _, _, _, _, _, _, _, rfl⟩ := relaxed_fields h
    rfl
  · have e0 : IsHistory cfg'.c cfg'.nRobust 0 [] := ⟨by simp, by simp⟩
    have e1 := congrFun (hU 0 (lt_of_le_of_lt (Nat.zero_le _) hR'.horizon) [] e0) j
    have e2 : cfg'.U (cfg'.encodeColl deg ni tau π) 0 [] j = (cfg'.encodeColl deg ni tau π).u 0 0 j * cfg'.su j := by simp [MpcCfg.U, number, MpcCfg.uPhys]
    rw [← e2, e1]
    simp [hπ, MpcCfg.U, number, MpcCfg.uPhys]

/-- **C105**: the minimal cost of the relaxed problem is at most that of the other. -/
theorem C105_best_cost (m : DaeModel K d) (cfg cfg' : MpcCfg K d)
    (hR : cfg.Regular m ∨ ∃ deg ni tau tStep, cfg.CollRegular m deg ni tau tStep) (h : Relaxed cfg cfg') (q : OptP K d) (w w' : OptX K d) (hw : cfg.Feasible w q)
    (hw' : ∀ v, cfg'.Feasible v q → cfg'.obj w' q ≤ cfg'.obj v q) : cfg'.obj w' q ≤ cfg.obj w q := by
  obtain ⟨v, hv, hc, -⟩ : ∃ v, cfg'.Feasible v q ∧ cfg'.obj v q = cfg.obj w q ∧ ∀ j, v.u 0 0 j * cfg'.su j = w.u 0 0 j * cfg.su j := by
    rcases hR with hR | ⟨deg, ni, tau, tStep, hR⟩
    · exact C105_cost m cfg cfg' hR h q w hw
    · exact C105_cost_collocation m deg ni tau tStep cfg cfg' hR h q w hw
  exact hc ▸ hw' v hv

/-! ## the conditions can be met -/

namespace RobustEx

/-- a nominal controller for the second realisation of the robust example: shorter horizon, the hard constraint made soft, unscaled -/
def nominal : MpcCfg ℚ exDims :=
  { exCfg with N := 1, nRobust := 0, c := 1, ifcn := discreteIfcn exModel 1 1 1 1, sx := 1, su := 1, sz := 1, xtlb := fun _ => .fin (-10), xtub := fun _ => .fin 11, nl := [{ name := "hard", dim := 1, expr := fun x _ _ _ _ _ => x ⟨0, by decide⟩, ub := .fin 20, soft := true, penalty := 7, maxViolation := .fin 1 }] }

theorem less : LessDemanding exCfg nominal exQ { exQ with p := fun _ => exQ.p 1 } where
  start := rfl
  tvp := fun _ => rfl
  horizon := by decide
  robust := by decide
  realisations := ⟨fun _ => 1, fun r _ => ⟨one_lt_two, rfl⟩, fun h => absurd h (by decide)⟩
  openLoop := by intro h; cases h
  points := fun _ => rfl
  states := fun _ _ h1 h2 => ⟨h1, h2⟩
  inputs := fun _ _ h1 h2 => ⟨h1, h2⟩
  algebraic := fun _ _ h1 h2 => ⟨h1, h2⟩
  terminal := fun h => absurd h (by decide)
  terminal_shorter := fun _ _ v h1 h2 => ⟨h1, le_trans (α := ℚ) h2 (by norm_num)⟩
  constraints := by
    intro call' hc
    obtain rfl := List.mem_singleton.1 hc
    exact ⟨_, List.mem_cons_self, ⟨rfl, rfl, rfl, fun _ h => h, (fun h => by cases h), fun _ _ => (by decide +kernel : (0 : ℚ) ≤ 1)⟩⟩

theorem nominal_regular : nominal.RegularConstraints exModel where
  discrete := rfl
  cpos := by decide
  sx := fun _ => one_pos
  su := fun _ => one_pos
  sz := fun _ => one_pos
  noColl := rfl
  names := by simp [nominal]
  noAlg := Or.inr (Or.inl rfl)
  slack := rfl

/-- the robust example with inputs that must not depend on the scenario -/
def openEx : MpcCfg ℚ exDims := { exCfg with openLoop := true }

example : Relaxed openEx exCfg where
  same := rfl
  openLoop := fun _ => rfl
  points := fun _ => rfl
  states := fun _ _ h1 h2 => ⟨h1, h2⟩
  inputs := fun _ _ h1 h2 => ⟨h1, h2⟩
  algebraic := fun _ _ h1 h2 => ⟨h1, h2⟩
  terminal := fun _ _ h1 h2 => ⟨h1, h2⟩

example : openEx.Feasible exW exQ ∧ ∃ w', nominal.Feasible w' { exQ with p := fun _ => exQ.p 1 } :=
  ⟨by decide +kernel, (C105_feasible exModel exCfg nominal
    { discrete := rfl, cpos := by decide, sx := fun _ => (by decide +kernel : (0 : ℚ) < 2), su := fun _ => (by decide +kernel : (0 : ℚ) < 3),
      sz := fun _ => (by decide +kernel : (0 : ℚ) < 1), noColl := rfl, names := by decide, noAlg := Or.inl rfl, slack := rfl }
    nominal_regular exQ _ less exW (by decide +kernel)).imp fun _ h => h.1⟩

end RobustEx

end DoMpc
