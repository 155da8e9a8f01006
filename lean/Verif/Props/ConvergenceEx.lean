import Verif.Props.Convergence
import Mathlib.Algebra.Order.Archimedean.Basic
import Mathlib.Data.Rat.Floor

/-! # C102: the closed loop of `StabEx` -/
set_option linter.unusedSectionVars false
namespace DoMpc
open Spec
variable {K : Type} [Field K] [LinearOrder K] [IsStrictOrderedRing K] {d : Dims}

/-- **C102**: endless runs exist.  From a controller and a simulator that are set up, whatever numbers the solvers report. -/
theorem C102_endless_run (EM : MpcEnv K d) (ES : SimEnv K d) (hst : ∀ s ∈ EM.storeStats, s ∈ validStats) (hm : StateMeasured ES.model)
    (S : Nat → SolverArgs K d → SolverResult K d EM.nLagr) (hS : ∀ n a, NumericStats EM (S n a)) (l : Loop K d) (hl : l.Ready EM) :
    ∃ L, L 0 = l ∧ EndlessRun EM ES S L := by
  have h : ∀ n (l : {l : Loop K d // l.Ready EM}), ∃ l' : {l : Loop K d // l.Ready EM}, l.1.step EM ES (S n) = some l'.1 := by
    rintro n ⟨l, hl⟩
    obtain ⟨l', h1, h2⟩ := (step_ready hst hm (S n) hl).1 (hS n _)
    exact ⟨⟨l', h2⟩, h1⟩
  choose f hf using h
  let L : Nat → {l : Loop K d // l.Ready EM} := fun n => Nat.rec ⟨l, hl⟩ f n
  exact ⟨fun n => (L n).1, rfl, fun n => hf n (L n)⟩

namespace StabEx

theorem positive : PositiveCosts cfg 0 where
  stage := fun x _ _ _ _ => sq_nonneg (x 0)
  terminal := fun x _ _ => sq_nonneg (x 0)
  penalties := fun call hcall => by simp [cfg] at hcall
  away := by
    intro ε hε
    refine ⟨ε ^ 2, by positivity, fun x _ _ _ _ hx => ?_⟩
    have : ε ≤ |x 0| := by
      by_contra hno
      refine hx fun j => ?_
      rw [Subsingleton.elim (α := Fin 1) j 0]
      simpa using hno
    show ε ^ 2 ≤ x 0 ^ 2
    rw [← sq_abs (x 0)]
    exact pow_le_pow_left₀ hε.le this 2

theorem small : SmallTerminalCost cfg 0 := by
  intro η hη
  refine ⟨min 1 η, lt_min one_pos hη, fun x _ _ hx => ?_⟩
  have h1 : |x 0| < min 1 η := by simpa using hx 0
  have h2 := abs_lt.1 (h1.trans_le (min_le_left _ _))
  refine ⟨(within5 x).2 ⟨by linarith [h2.1], by linarith [h2.2]⟩, ?_⟩
  show x 0 ^ 2 < η
  rw [← sq_abs]
  have h3 := h1.trans_le (min_le_left _ _)
  have h4 := h1.trans_le (min_le_right _ _)
  have h5 := abs_nonneg (x 0)
  nlinarith

theorem ready : start.Ready mpc := ⟨rfl, ⟨_, rfl⟩, rfl, rfl, rfl⟩

end StabEx

open StabEx in
/-- non-vacuity of `C102_convergence` and `C102_stability`: all hypotheses hold and there is an endless run from the state 8, outside of the terminal set, which
converges to 0 -/
example : ∃ L, L 0 = start ∧ EndlessRun mpc sim (fun _ => solver) L ∧ (∀ ε > 0, ∃ n0, ∀ n ≥ n0, Near 0 (L n).sim.x0 ε) ∧
    ∀ ε > 0, ∃ δ > 0, ∀ L : Nat → Loop ℚ dm, EndlessRun mpc sim (fun _ => solver) L → InStep (L 0) → Near 0 (L 0).sim.x0 δ → ∀ n, Near 0 (L n).sim.x0 ε := by
  obtain ⟨L, h0, hL⟩ := C102_endless_run mpc sim (fun s h => by simp [mpc] at h) matches_.measured (fun _ => solver) (fun _ _ s hs => by simp [solver] at hs) start ready
  have hcon : ConsistentPredictions mpc := ⟨fun _ _ _ => rfl, fun _ => rfl⟩
  refine ⟨L, h0, hL, ?_, fun ε hε => ?_⟩
  · exact (C102_convergence regular rfl matches_ hcon terminalCost rfl 0 positive _ (fun _ => findsOptimum) L hL (by rw [h0]; exact ⟨rfl, rfl⟩)
      ⟨_, (C12_admissible_is_feasible cfg model regular _ _ (admissible _)).1⟩).2
  · obtain ⟨δ, hδ, h⟩ := C102_stability regular rfl matches_ hcon terminalCost rfl 0 positive (fun _ => solver) (fun _ => findsOptimum) small ε hε
    exact ⟨δ, hδ, fun L hL h0 hn => (h L hL h0 hn).2⟩

open StabEx in
/-- non-vacuity of `C102_terminal_plan`: the hypotheses hold for the state 3 -/
example : ∃ w, cfg.Feasible w ⟨fun _ => 3, fun _ => Fin.elim0, fun _ => Fin.elim0, fun _ => 0⟩ ∧
    cfg.obj w ⟨fun _ => 3, fun _ => Fin.elim0, fun _ => Fin.elim0, fun _ => 0⟩ ≤ 9 := by
  obtain ⟨w, h1, h2⟩ := C102_terminal_plan (EM := mpc) regular rfl ⟨fun _ _ _ => rfl, fun _ => rfl⟩ terminalCost rfl 0
    ⟨fun _ => 3, fun _ => Fin.elim0, fun _ => Fin.elim0, fun _ => 0⟩ rfl rfl ((within5 _).2 (by constructor <;> norm_num))
  refine ⟨w, h1, h2.trans (le_of_eq ?_)⟩
  show (3 : ℚ) ^ 2 = 9
  norm_num

end DoMpc
