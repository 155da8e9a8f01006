import Verif.Props.OutputFeedbackColl
import Verif.Props.MheOptimalCollEx

/-! # Property C82: the hypotheses can be met -/
set_option linter.unusedSectionVars false
namespace DoMpc
open Spec Polynomial

namespace OutCollEx
open MheOptEx (dd)
open MheCollEx (model)

def sch : Scheme ℚ := ⟨1, 1, unitTau, 1⟩
/-- two intervals, states within 0 … 10, terminal set 0 … 5, inputs not negative, constraint `-x ≤ 0`, scaled -/
def cfg (F : Ifcn ℚ dd) : MpcCfg ℚ dd where
  N := 2
  nRobust := 0
  c := 1
  ifcn := F
  sx := fun _ => 2
  su := fun _ => 3
  sz := Fin.elim0
  xlb := fun _ => .fin 0
  xub := fun _ => .fin 10
  ulb := fun _ => .fin 0
  uub := fun _ => .pinf
  zlb := fun _ => .ninf
  zub := fun _ => .pinf
  xtlb := fun _ => .fin 0
  xtub := fun _ => .fin 5
  nl := [⟨"pos", 1, fun x _ _ _ _ _ => - x 0, .fin 0, false, 0, .pinf⟩]
  lterm := fun x _ _ _ _ => x 0 ^ 2
  mterm := fun x _ _ => x 0 ^ 2
  rterm := .factor fun _ => 0
def mpc (F : Ifcn ℚ dd) : MpcEnv ℚ dd where
  model := model
  cfg := cfg F
  tStep := 1
  tvpFun := fun _ _ => Fin.elim0
  pFun := fun _ _ => fun _ => -1
  nOptX := 0
  nOptP := 0
  nOptAux := 0
  nLagr := 0
  flatX := fun _ => Fin.elim0
  flatP := fun _ => Fin.elim0
  flatAux := fun _ _ => Fin.elim0
/-- the plant's parameter is -1 -/
def sim : SimEnv ℚ dd where
  model := model
  plant := .continuous fun x z u _ p w => (x + (u + p + w), z)
  tStep := 1
  tvpFun := fun _ => Fin.elim0
  pFun := fun _ => fun _ => -1
/-- the plant was in state 0 one interval ago and is in state 7 now; the estimator has the measurement `(7, 8)` -/
def start (F : Ifcn ℚ dd) (G : Ifcn ℚ dd) : OutLoop ℚ dd 1 0 where
  mpc := (mpc F).fresh 0 (fun _ => 7) (fun _ => 0) Fin.elim0
  sim := SimSt.fresh (fun _ => 7) Fin.elim0
  mhe := { (MheCollEx.env G).fresh 0 (fun _ => 0) (fun _ => 0) Fin.elim0 (fun _ => -1) with
    data := ((Data.new ((MheCollEx.env G).fields 0)).update [("_y", .arr [7, 8])]).1 }
  x := [7]
noncomputable def both (F G : Ifcn ℚ dd) : Solvers (mpc F) (MheCollEx.env G) := ⟨anySolver (mpc F), MheCollEx.solver G⟩

theorem regular {F : Ifcn ℚ dd} (hF : setupCollocation model (fun _ => 2) (fun _ => 3) Fin.elim0 1 1 1 unitTau 1 = .ok F) :
    (mpc F).cfg.OnScheme (mpc F).model sch where
  setup := hF
  tau0 := by simp [sch, unitTau]
  tauInj := by intro i _ j _ h; simpa [sch, unitTau] using h
  cpos := Nat.one_pos
  sx := fun _ => (by decide +kernel : (0 : ℚ) < 2)
  su := fun _ => (by decide +kernel : (0 : ℚ) < 3)
  sz := fun i => i.elim0
  noColl := rfl
  names := List.nodup_singleton _
  noAlg := Or.inl rfl
  slack := rfl

theorem interval_end {x x' u : Vec ℚ 1} {tv : Vec ℚ 0} {p : Vec ℚ 1} {P : Nat → Fin 1 → ℚ[X]} {ζ : Nat → Nat → Vec ℚ 0}
    (h : sch.Interval model x u tv p x' P ζ) : x' = x + (u + p + 0) := euler_step h

theorem line_interval {x x' u : Vec ℚ 1} (tv : Vec ℚ 0) {p : Vec ℚ 1} (ζ : Nat → Nat → Vec ℚ 0) (h : x' = x + (u + p + 0)) :
    sch.Interval model x u tv p x' (fun _ => line x x') ζ :=
  euler_line h (Subsingleton.elim (α := Fin 0 → ℚ) _ _) (Subsingleton.elim (α := Fin 0 → ℚ) _ _)

theorem follows (F : Ifcn ℚ dd) : ContinuousPlantFollows sch (mpc F) sim where
  model := rfl
  continuous := ⟨_, rfl, fun z0 x u tv p x' P ζ h => (interval_end h).symm⟩
  tvp := fun _ => rfl
  params := fun t => ⟨0, mayOccur_zero.mpr rfl, rfl⟩
  time := rfl

theorem within1 {a b : ℚ} {x : Vec ℚ 1} : Within (fun _ => .fin a) (fun _ => .fin b) x ↔ a ≤ x 0 ∧ x 0 ≤ b := by
  unfold Within
  constructor
  · intro h; exact h 0
  · intro h j; rw [Subsingleton.elim j 0]; exact h

theorem inside_end (lb ub : Fin 1 → Bound ℚ) {x x' u : Vec ℚ 1} {tv : Vec ℚ 0} {p : Vec ℚ 1} {P : Nat → Fin 1 → ℚ[X]} {ζ : Nat → Nat → Vec ℚ 0}
    (h : sch.Interval model x u tv p x' P ζ) (hx : Within lb ub x') : sch.Inside (d := dd) lb ub P := by
  intro i hi j hj hne
  have hi : i < 1 := hi
  have hj : j ≤ 1 := hj
  have hj1 : j = 1 := by omega
  have hi0 : i = 0 := by omega
  subst hj1 hi0
  have ht : sch.tau 1 = 1 := by simp [sch, unitTau]
  rw [ht]
  have := h.final
  rw [← this] at hx
  exact hx

theorem noOvershoot (F : Ifcn ℚ dd) (tv : Vec ℚ 0) (p : Vec ℚ 1) : NoOvershoot sch (cfg F) model tv p := by
  intro x u x' P ζ h _ _ ht
  refine inside_end _ _ h ?_
  have := within1.mp ht
  exact within1.mpr ⟨by linarith [this.1], by linarith [this.2]⟩

theorem pos_holds {x u : Vec ℚ 1} {z tv : Vec ℚ 0} {p : Vec ℚ 1} (F : Ifcn ℚ dd) (hx : 0 ≤ x 0) :
    ∀ call ∈ (cfg F).nl, ∀ i < call.dim, call.ub.ge (call.expr x u z tv p i) := by
  intro call hcall i _
  simp only [cfg, List.mem_singleton] at hcall
  subst hcall
  show - x 0 ≤ 0
  linarith

/-- input 1 keeps the state -/
theorem invariantSet (F : Ifcn ℚ dd) : InvariantTerminalSetAlong sch (mpc F) where
  inside := fun x h => by
    have := within1.mp h
    exact within1.mpr ⟨by linarith [this.1], by linarith [this.2]⟩
  noSlack := fun call hcall hs => by
    simp only [mpc, cfg, List.mem_singleton] at hcall
    subst hcall; simp at hs
  invariant := fun t x hx => by
    have h := within1.mp hx
    have hi : sch.Interval model x (fun _ => 1) Fin.elim0 (fun _ => -1) x (fun _ => line x x) (fun _ _ => Fin.elim0) :=
      line_interval _ _ (by funext e; simp)
    refine ⟨fun _ => 1, x, _, _, hi, fun j => ⟨?_, trivial⟩, fun i _ j _ _ e => e.elim0, fun _ => inside_end _ _ hi ?_, pos_holds F h.1, hx⟩
    · show (0 : ℚ) ≤ 1; norm_num
    · exact within1.mpr ⟨by linarith [h.1], by linarith [h.2]⟩

theorem fits (F G : Ifcn ℚ dd) : EstimatorFitsColl (mpc F) sim (MheCollEx.env G) (fun _ => -1) Fin.elim0 where
  model := rfl
  time := rfl
  params := fun _ => by funext j; rfl
  given := fun _ => Subsingleton.elim (α := Fin 0 → ℚ) _ _
  tvp := fun _ _ _ => rfl
  measurements := rfl
  stats := by simp [MheCollEx.env]
  states := fun x h j => by
    refine ⟨trivial, ?_⟩
    rw [Subsingleton.elim j 0]
    show x 0 ≤ 100
    linarith [(within1.mp h).2]
  terminal := fun h => by simp [mpc, cfg] at h
  algebraic := fun _ _ j => j.elim0
  inputs := fun _ h => h
  estimated := fun _ => ⟨trivial, by show (-1 : ℚ) ≤ 5; norm_num⟩
  constraints := fun x u z tv p h call hcall i hi => by
    simp only [MheCollEx.env, MheCollEx.cfg, List.mem_singleton] at hcall
    subst hcall
    exact h _ (by simp [mpc, cfg]) i hi
  between := fun h => by simp [mpc, cfg] at h
  algBetween := fun _ _ j => j.elim0

theorem synchronised (F G : Ifcn ℚ dd) : SynchronisedColl sch sim (MheCollEx.env G) (fun _ => -1) Fin.elim0 (start F G) := by
  have hfields : (start F G).mhe.data.fields = (MheCollEx.env G).fields 0 := Data.update_fields _ _
  have hd : sch.Interval model (fun _ => 0) (fun _ => 8) Fin.elim0 (fun _ => -1) (fun _ => 7) (fun _ => line (fun _ => 0) (fun _ => 7)) (fun _ _ => Fin.elim0) :=
    line_interval _ _ (by funext e; simp; norm_num)
  refine ⟨by simp [start, SimSt.fresh, List.ofFn_succ], rfl, rfl, (mhe_width_standard _ 0 _ hfields).2.1, rfl, [], fun k _ => if k = 0 then 0 else 7, fun _ _ => 8,
    fun _ _ => line (fun _ => 0) (fun _ => 7), fun _ _ _ => Fin.elim0, ?_, rfl, ?_, by simp, ?_⟩
  · refine ⟨fun k hk => ?_, fun k hk call hcall i hi => ?_, fun k hk j => ⟨trivial, ?_⟩, fun k hk => ?_, fun k _ i _ j _ e => e.elim0, fun k _ j => ⟨?_, trivial⟩,
      fun j => ⟨trivial, ?_⟩⟩
    · have hk : k = 0 := by have : k < 1 := hk; omega
      subst hk
      exact hd
    · have hk : k = 0 := by have : k < 1 := hk; omega
      subst hk
      simp only [MheCfg.collTask, MheCfg.task, MheCollEx.env, MheCollEx.cfg, List.mem_singleton] at hcall
      subst hcall
      show -(0 : ℚ) ≤ 0
      norm_num
    · show (if k = 0 then (0 : ℚ) else 7) ≤ 100
      split_ifs <;> norm_num
    · have hk : k = 0 := by have : k < 1 := hk; omega
      subst hk
      refine inside_end _ _ hd ?_
      exact fun j => ⟨trivial, by show (7 : ℚ) ≤ 100; norm_num⟩
    · show (0 : ℚ) ≤ 8; norm_num
    · show (-1 : ℚ) ≤ 5; norm_num
  · funext j
    show (0 : ℚ) * 2 = 0
    norm_num
  · have e : (start F G).mhe.data.rows "_y" = [[7, 8]] := by
      unfold start
      dsimp only
      rw [update_y _ _ rfl]
      rfl
    rw [e]
    show [[(7 : ℚ), 8]] = [] ++ (List.range 1).map _
    have h7 : List.ofFn (n := 2) (fun j => if j = 0 then (7 : ℚ) + 0 else 8) = [7, 8] := by simp [List.ofFn_succ]
    rw [List.range_one, List.map_cons, List.map_nil, List.nil_append]
    exact congrArg (· :: []) h7.symm

/-- input 0 from state 7: 6, 5 -/
noncomputable def plan : CollPolicy ℚ dd where
  X := fun k _ _ => 7 - k
  U := fun _ _ _ => 0
  E := fun _ _ _ _ => 0
  P := fun k _ _ => line (fun _ => 7 - k) (fun _ => 7 - (k + 1 : Nat))
  ζ := fun _ _ _ _ => Fin.elim0

theorem first {F : Ifcn ℚ dd} (hc : (mpc F).cfg.OnScheme (mpc F).model sch) (G : Ifcn ℚ dd) : ∃ w, (mpc F).cfg.Feasible w ((start F G).asked (mpc F)).p := by
  refine ⟨_, (admissible_is_feasible_coll hc ((start F G).asked (mpc F)).p plan ?_).1⟩
  have hd : ∀ k : Nat, sch.Interval model (fun _ => 7 - (k : ℚ)) (fun _ => 0) Fin.elim0 (fun _ => -1) (fun _ => 7 - ((k + 1 : Nat) : ℚ))
      (fun _ => line (fun _ => 7 - (k : ℚ)) (fun _ => 7 - ((k + 1 : Nat) : ℚ))) (fun _ _ => Fin.elim0) :=
    fun k => line_interval _ _ (by funext e; simp; ring)
  refine ⟨?_, ?_, ?_, ?_, ?_, fun k _ h _ j => ⟨?_, trivial⟩, fun k _ h _ i _ j _ _ e => e.elim0, ?_, ?_, fun h => ?_⟩
  · funext j
    show (7 : ℚ) - (0 : Nat) = _
    simp [start, OutLoop.asked, Loop.asked, MpcCfg.collProblem, MpcCfg.problem]
  · intro k hk h hh r hr
    exact hd k
  · intro k h1 h2 h hh
    have h2 : k < 2 := h2
    have : k = 1 := by omega
    subst this
    exact within1.mpr (by simp [plan]; norm_num)
  · intro _ k hk h hh
    have : k = 0 := by have : k + 1 < 2 := hk; omega
    subst this
    exact inside_end _ _ (hd 0) (within1.mpr (by norm_num))
  · intro h hh
    show Within (fun _ => .fin 0) (fun _ => .fin 5) (plan.X 2 h)
    exact within1.mpr (by simp [plan]; norm_num)
  · exact le_rfl
  · intro k hk h hh r hr call hcall i hi
    have hk : k < 2 := hk
    simp only [MpcCfg.collProblem, MpcCfg.problem, mpc, cfg, List.mem_singleton] at hcall
    subst hcall
    show - (7 - (k : ℚ)) ≤ 0
    have : (k : ℚ) ≤ 2 := by exact_mod_cast hk.le
    linarith
  · intro k hk h hh call hcall hs
    simp only [MpcCfg.collProblem, MpcCfg.problem, mpc, cfg, List.mem_singleton] at hcall
    subst hcall; simp at hs
  · intro k _ h1 h2 _ _
    exact rfl

end OutCollEx

open OutCollEx in
/-- Non-vacuity of C82: all hypotheses hold for the loop above; a hundred iterations succeed, with the estimate exact at the end. -/
example : ∃ F G l', (mpc F).cfg.OnScheme (mpc F).model sch ∧ ContinuousPlantFollows sch (mpc F) sim ∧ ConsistentPredictions (mpc F) ∧
    InvariantTerminalSetAlong sch (mpc F) ∧ (mpc F).cfg.consColloc = true ∧ (MheCollEx.cfg G).CollPlain 1 1 unitTau 1 ∧
    EstimatorFitsColl (mpc F) sim (MheCollEx.env G) (fun _ => -1) Fin.elim0 ∧ SynchronisedColl sch sim (MheCollEx.env G) (fun _ => -1) Fin.elim0 (start F G) ∧
    OutLoop.iterate (mpc F) sim (MheCollEx.env G) (List.replicate 100 (both F G)) (start F G) = some l' ∧
    EstimatorSolves (mpc F) sim (MheCollEx.env G) (List.replicate 100 (both F G)) (start F G) ∧
    ControllerFeasible (mpc F) sim (MheCollEx.env G) (List.replicate 100 (both F G)) (start F G) ∧ l'.x = List.ofFn l'.sim.x0 ∧ l'.mhe.pEst0 = fun _ => -1 := by
  obtain ⟨⟨F, hF, _⟩, _⟩ := C11_bookkeeping MheCollEx.model (fun _ => 2) (fun _ => 3) Fin.elim0 1 1 1 unitTau 1 one_pos
  obtain ⟨⟨G, hG, _⟩, _⟩ := C11_bookkeeping MheCollEx.model (fun _ => 2) (fun _ => 1) Fin.elim0 (fun _ => 1) 1 1 unitTau 1 one_pos
  have hc := regular hF
  have hpl := MheCollEx.plain hG
  obtain ⟨l', hl', -⟩ := C81_output_feedback_runs (EM := mpc F) (ES := sim) (EE := MheCollEx.env G) (by simp [mpc]) (by simp [MheCollEx.env])
    (List.replicate 100 (both F G))
    (by
      intro S hS
      rw [List.eq_of_mem_replicate hS]
      exact ⟨fun a s hs => absurd hs List.not_mem_nil, fun a s hs => absurd hs List.not_mem_nil⟩) (start F G)
    ⟨rfl, ⟨0, rfl⟩, rfl, rfl, rfl, ⟨0, Data.update_fields _ _⟩, rfl⟩
  have hcon : ConsistentPredictions (mpc F) := ⟨fun _ _ _ => rfl, fun _ => rfl⟩
  have hsol : EstimatorSolves (mpc F) sim (MheCollEx.env G) (List.replicate 100 (both F G)) (start F G) := by
    intro i hi l1 _ a _ h
    have e := List.eq_of_mem_replicate (List.getElem_mem hi)
    rw [e]
    exact MheCollEx.solver_finds G a h
  have hfeas := (C82_recursive_feasibility_partial hc two_pos rfl (follows F) hcon (invariantSet F) (Or.inr fun t => noOvershoot F _ _) hpl
    (MheCollEx.definite G) (MheCollEx.determined G) (fits F G) (List.replicate 100 (both F G))
    (fun S hS => by rw [List.eq_of_mem_replicate hS]; exact anySolver_finds _) (start F G) l' (synchronised F G) hl' hsol (first hc G)).1
  have := (C82_output_feedback_partial hc two_pos (follows F) hpl (MheCollEx.definite G) (MheCollEx.determined G) (fits F G) _ (start F G) l' (synchronised F G) hl'
    hfeas hsol).1 100 (by simp) l' (by rw [List.take_of_length_le (by simp)]; exact hl')
  exact ⟨F, G, l', hc, follows F, hcon, invariantSet F, rfl, hpl, fits F G, synchronised F G, hl', hsol, hfeas, this.1, this.2⟩

end DoMpc
