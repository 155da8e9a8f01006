import Verif.Props.OutputFeedbackCollEx
import Verif.Props.MheLoopRuns

/-! # Property C82: false if the measurements depend on algebraic states -/
set_option linter.unusedSectionVars false
namespace DoMpc
open Spec Polynomial

namespace OutAlgEx
open MheAlgEx (da model)

def sch : Scheme ℚ := ⟨1, 1, unitTau, 1⟩
/-- two intervals, no bounds, no inputs -/
def cfg (F : Ifcn ℚ da) : MpcCfg ℚ da where
  N := 2
  nRobust := 0
  c := 1
  ifcn := F
  sx := fun _ => 1
  su := Fin.elim0
  sz := fun _ => 1
  xlb := fun _ => .ninf
  xub := fun _ => .pinf
  ulb := fun _ => .ninf
  uub := fun _ => .pinf
  zlb := fun _ => .ninf
  zub := fun _ => .pinf
  xtlb := fun _ => .ninf
  xtub := fun _ => .pinf
  nl := []
  lterm := fun x _ _ _ _ => x 0 ^ 2
  mterm := fun x _ _ => x 0 ^ 2
  rterm := .factor fun _ => 0
def mpc (F : Ifcn ℚ da) : MpcEnv ℚ da where
  model := model
  cfg := cfg F
  tStep := 1
  tvpFun := fun _ _ => Fin.elim0
  pFun := fun _ _ => Fin.elim0
  nOptX := 0
  nOptP := 0
  nOptAux := 0
  nLagr := 0
  flatX := fun _ => Fin.elim0
  flatP := fun _ => Fin.elim0
  flatAux := fun _ _ => Fin.elim0
/-- `x' = 1`, `z = x`, integrated exactly -/
def sim : SimEnv ℚ da where
  model := model
  plant := .continuous fun x _ _ _ _ _ => (x + 1, x + 1)
  tStep := 1
  tvpFun := fun _ => Fin.elim0
  pFun := fun _ => Fin.elim0
def est (F : Ifcn ℚ da) : MheEnv ℚ da 0 0 where
  cfg := MheAlgEx.cfg F
  tStep := 1
  tvpFun := fun _ _ => Fin.elim0
  pFun := fun _ => Fin.elim0
  nOptX := 0
  nOptP := 0
  nOptAux := 0
  nLagr := 0
  flatX := fun _ => Fin.elim0
  flatP := fun _ => Fin.elim0
  flatAux := fun _ _ => Fin.elim0
/-- everything at zero -/
def start (F : Ifcn ℚ da) : OutLoop ℚ da 0 0 where
  mpc := (mpc F).fresh 0 (fun _ => 0) Fin.elim0 (fun _ => 0)
  sim := SimSt.fresh (fun _ => 0) (fun _ => 0)
  mhe := (est F).fresh 0 (fun _ => 0) Fin.elim0 (fun _ => 0) Fin.elim0
  x := [0]
open Classical in
/-- a solver that returns a global minimiser of every problem that has one -/
noncomputable def mheSolver (F : Ifcn ℚ da) (a : MheArgs ℚ da 0 0) : MheResult ℚ da 0 (est F).nLagr where
  x := if h : ∃ o, (est F).cfg.Solves o a.p then h.choose else MheAlgEx.half
  lamG := Fin.elim0
  lamX := []
  stats := []
noncomputable def both (F : Ifcn ℚ da) : Solvers (mpc F) (est F) := ⟨anySolver (mpc F), mheSolver F⟩

theorem mheSolver_finds (F : Ifcn ℚ da) (a : MheArgs ℚ da 0 0) (h : ∃ o, (est F).cfg.Solves o a.p) : (est F).cfg.Solves (mheSolver F a).x a.p := by
  unfold mheSolver
  simp only [dif_pos h]
  exact h.choose_spec

theorem regular {F : Ifcn ℚ da} (hF : setupCollocation model (fun _ => 1) Fin.elim0 (fun _ => 1) Fin.elim0 1 1 unitTau 1 = .ok F) :
    (mpc F).cfg.OnScheme (mpc F).model sch where
  setup := by
    have : (1 : Vec ℚ 0) = Fin.elim0 := Subsingleton.elim (α := Fin 0 → ℚ) _ _
    first | exact hF | (rw [← this] at hF; exact hF)
  tau0 := by simp [sch, unitTau]
  tauInj := by intro i _ j _ h; simpa [sch, unitTau] using h
  cpos := Nat.one_pos
  sx := fun _ => (one_pos : (0 : ℚ) < 1)
  su := fun i => i.elim0
  sz := fun _ => (one_pos : (0 : ℚ) < 1)
  noColl := rfl
  names := List.nodup_nil
  noAlg := by first | exact Or.inr (Or.inl rfl) | exact Or.inr (Or.inr rfl) | exact Or.inr rfl
  slack := rfl

theorem interval_end {x x' : Vec ℚ 1} {u tv p : Vec ℚ 0} {P : Nat → Fin 1 → ℚ[X]} {ζ : Nat → Nat → Vec ℚ 1}
    (h : sch.Interval model x u tv p x' P ζ) : x' = x + 1 := euler_step h

theorem follows (F : Ifcn ℚ da) : ContinuousPlantFollows sch (mpc F) sim where
  model := rfl
  continuous := ⟨_, rfl, fun z0 x u tv p x' P ζ h => (interval_end h).symm⟩
  tvp := fun _ => rfl
  params := fun t => ⟨0, mayOccur_zero.mpr rfl, rfl⟩
  time := rfl

theorem fits (F : Ifcn ℚ da) : EstimatorFitsColl (mpc F) sim (est F) Fin.elim0 Fin.elim0 where
  model := rfl
  time := rfl
  params := fun _ => Subsingleton.elim (α := Fin 0 → ℚ) _ _
  given := fun _ => rfl
  tvp := fun _ _ _ => rfl
  measurements := rfl
  stats := by simp [est]
  states := fun _ _ _ => ⟨trivial, trivial⟩
  terminal := fun _ _ _ _ => ⟨trivial, trivial⟩
  algebraic := fun _ _ _ => ⟨trivial, trivial⟩
  inputs := fun _ _ j => j.elim0
  estimated := fun j => j.elim0
  constraints := fun _ _ _ _ _ _ call hc => by simp [est, MheAlgEx.cfg] at hc
  between := fun _ _ _ => ⟨trivial, trivial⟩
  algBetween := fun _ _ _ => ⟨trivial, trivial⟩

theorem synchronised (F : Ifcn ℚ da) : SynchronisedColl sch sim (est F) Fin.elim0 Fin.elim0 (start F) := by
  refine ⟨by simp [start, SimSt.fresh, List.ofFn_succ], rfl, rfl, (mhe_width_standard _ 0 _ rfl).2.1, rfl, [], MheAlgEx.x, fun _ => Fin.elim0, MheAlgEx.P, MheAlgEx.ζ,
    MheAlgEx.run F _, ?_, ?_, by simp, ?_⟩
  · funext e; show ((0 : Nat) : ℚ) = 0; norm_num
  · funext e
    show (0 : ℚ) * 1 = ((0 : Nat) : ℚ)
    norm_num
  · rfl

theorem grow (k : Nat) (u tv p : Vec ℚ 0) : sch.Interval model (MheAlgEx.x k) u tv p (MheAlgEx.x (k + 1)) (MheAlgEx.P k) (MheAlgEx.ζ k) := by
  refine euler_line ?_ ?_ ?_
  · funext e
    show ((k + 1 : Nat) : ℚ) = k + 1
    push_cast; ring
  · funext e; show MheAlgEx.x (k + 0) e - MheAlgEx.x k e = 0; simp
  · funext e; show MheAlgEx.x (k + 1) e - MheAlgEx.x (k + 1) e = 0; simp

/-- the state grows by one per interval -/
noncomputable def plan : CollPolicy ℚ da where
  X := fun k _ _ => k
  U := fun _ _ => Fin.elim0
  E := fun _ _ _ _ => 0
  P := fun k _ => MheAlgEx.P k
  ζ := fun k _ => MheAlgEx.ζ k

theorem first {F : Ifcn ℚ da} (hc : (mpc F).cfg.OnScheme (mpc F).model sch) : ∃ w, (mpc F).cfg.Feasible w ((start F).asked (mpc F)).p := by
  refine ⟨_, (admissible_is_feasible_coll hc ((start F).asked (mpc F)).p plan ?_).1⟩
  refine ⟨?_, ?_, fun _ _ _ _ _ _ => ⟨trivial, trivial⟩, fun _ _ _ _ _ _ _ _ _ _ _ => ⟨trivial, trivial⟩, fun _ _ _ => ⟨trivial, trivial⟩,
    fun _ _ _ _ j => j.elim0, fun _ _ _ _ _ _ _ _ _ _ => ⟨trivial, trivial⟩, ?_, ?_, fun h => ?_⟩
  · funext j
    show ((0 : Nat) : ℚ) = _
    simp [start, OutLoop.asked, Loop.asked, MpcCfg.collProblem, MpcCfg.problem]
  · intro k hk h hh r hr
    exact grow k _ _ _
  · intro k _ h _ r _ call hcall
    simp [MpcCfg.collProblem, MpcCfg.problem, mpc, cfg] at hcall
  · intro k _ h _ call hcall
    simp [MpcCfg.collProblem, MpcCfg.problem, mpc, cfg] at hcall
  · simp [MpcCfg.collProblem, MpcCfg.problem, mpc, cfg] at h

end OutAlgEx

open OutAlgEx in
/-- **C82 fails** if the measurements depend on algebraic states.  `x' = 1`, `0 = z - x`, `y = z`; controller, simulator and estimator with the same model, no noise, exact
prior, definite costs; everything but "the measurements do not depend on algebraic states" holds.  Whatever the two solvers are, as long as the controller's returns a
feasible point and the estimator's a global minimiser, after one iteration the plant is at 1 and the estimate is 3/2; and there are such solvers. -/
theorem C82_fails_algebraic_measurement :
    ∃ (s : Scheme ℚ) (d : Dims) (EM : MpcEnv ℚ d) (ES : SimEnv ℚ d) (EE : MheEnv ℚ d 0 0) (pT pG : Vec ℚ 0) (l : OutLoop ℚ d 0 0),
      EM.cfg.OnScheme EM.model s ∧ 0 < EM.cfg.N ∧ ContinuousPlantFollows s EM ES ∧ EE.cfg.CollBase s.deg s.ni s.tau s.tStep ∧ EE.cfg.task.DefiniteCosts ∧
      (EE.cfg.collTask s.deg s.ni s.tau s.tStep).InputsDetermined ∧ EstimatorFitsColl EM ES EE pT pG ∧ SynchronisedColl s ES EE pT pG l ∧
      (∃ S l', OutLoop.iterate EM ES EE [S] l = some l' ∧ ControllerFeasible EM ES EE [S] l ∧ EstimatorSolves EM ES EE [S] l) ∧
      ∀ S l', OutLoop.iterate EM ES EE [S] l = some l' → EstimatorSolves EM ES EE [S] l →
        List.ofFn l'.sim.x0 = [1] ∧ l'.x = [3/2] := by
  obtain ⟨⟨F, hF, _⟩, _⟩ := C11_bookkeeping MheAlgEx.model (fun _ => 1) Fin.elim0 (fun _ => 1) Fin.elim0 1 1 unitTau 1 one_pos
  have hc := regular hF
  have hb := MheAlgEx.base hF
  refine ⟨sch, MheAlgEx.da, mpc F, sim, est F, Fin.elim0, Fin.elim0, start F, hc, two_pos, follows F, hb, MheAlgEx.definite F, MheAlgEx.determined F, fits F, synchronised F, ?_, ?_⟩
  · obtain ⟨l', hl', -⟩ := C81_output_feedback_runs (EM := mpc F) (ES := sim) (EE := est F) (by simp [mpc]) (by simp [est]) [both F]
      (by
        intro S hS
        rw [List.mem_singleton.mp hS]
        exact ⟨fun a s hs => absurd hs List.not_mem_nil, fun a s hs => absurd hs List.not_mem_nil⟩) (start F)
      ⟨rfl, ⟨0, rfl⟩, rfl, rfl, rfl, ⟨0, rfl⟩, rfl⟩
    refine ⟨both F, l', hl', ?_, ?_⟩
    · intro i hi l1 hl1
      have : i = 0 := by simpa using hi
      subst this
      simp only [List.take_zero, OutLoop.iterate, Option.some.injEq] at hl1
      subst hl1
      exact anySolver_finds (mpc F) _ (first hc)
    · intro i hi l1 _ a _ h
      have : i = 0 := by simpa using hi
      subst this
      exact mheSolver_finds F a h
  · intro S l' hl' hsol
    simp only [OutLoop.iterate, Option.bind_eq_some_iff] at hl'
    obtain ⟨l1, h1, h2⟩ := hl'
    simp only [Option.some.injEq] at h2
    subst h2
    obtain ⟨-, -, -, e4, -, -, e7, e8, -⟩ := outloop_step (follows F).time (fits F).stats (synchronised F).2.2.2.1 h1
    have hsim : (l1.sim.x0 : Vec ℚ 1) = fun _ => 1 := by
      rw [e4]
      funext e
      show (0 : ℚ) + 1 = 1
      norm_num
    refine ⟨by rw [hsim]; simp [List.ofFn_succ], ?_⟩
    have hask : ∀ v : Vec ℚ 1, ((est F).args (start F).mhe (List.ofFn v)).p.yMeas 0 = v := by
      intro v
      have h1 : ((est F).args (start F).mhe (List.ofFn v)).p.yMeas = defaultYFun 1 ([] ++ [List.ofFn v]) (start F).mhe.yTmpl := rfl
      rw [h1, defaultYFun_eq _ _ (by simp) _ _ Nat.one_pos]
      apply List.ofFn_injective
      exact ofFn_rowVec _ (by simp [Spec.measurementWindow])
    rw [e8]
    have hq := hsol 0 (by simp) (start F) rfl _ e7
    generalize hr : sim.model.meas _ _ _ _ _ _ = v at hq ⊢
    obtain ⟨g1, g2⟩ := MheAlgEx.estimates hb ((est F).args (start F).mhe (List.ofFn v)).p
      (by funext e; show (0 : ℚ) * 1 = 0; norm_num) (by rw [hask, ← hr]; funext e; show (0 : ℚ) + 1 + 0 = 1; norm_num)
    have := g2 _ (hq g1)
    show List.ofFn ((MheAlgEx.cfg F).X _ 1) = _
    refine (congrArg List.ofFn this).trans ?_
    simp [List.ofFn_succ]

end DoMpc
