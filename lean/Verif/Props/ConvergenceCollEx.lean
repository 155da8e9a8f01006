import Verif.Props.ConvergenceColl
import Verif.Props.ConvergenceEx
import Verif.Props.GuaranteesCollEx

/-! # Property C103: the hypotheses are satisfiable -/
namespace DoMpc
open Spec Polynomial

namespace IntegratorEx

theorem positive (F : Ifcn ℚ dm) : PositiveCosts (mpc F 1 0 false).cfg 0 where
  stage := fun x _ _ _ _ => sq_nonneg (x 0)
  terminal := fun x _ _ => sq_nonneg (x 0)
  penalties := fun call hcall => by simp [mpc, cfg] at hcall
  away := by
    intro ε hε
    refine ⟨ε ^ 2, by positivity, fun x _ _ _ _ hx => ?_⟩
    have : ε ≤ |x 0| := by
      by_contra hno
      refine hx fun j => ?_
      rw [Subsingleton.elim (α := Fin 1) j 0]
      simpa using hno
    show ε ^ 2 ≤ x 0 ^ 2
    rw [← sq_abs (x 0)]
    exact pow_le_pow_left₀ hε.le this 2

theorem small (F : Ifcn ℚ dm) : SmallTerminalCost (mpc F 1 0 false).cfg 0 := by
  intro η hη
  refine ⟨min 1 η, lt_min one_pos hη, fun x _ _ hx => ?_⟩
  have h1 : |x 0| < min 1 η := by simpa using hx 0
  have h2 := abs_lt.1 (h1.trans_le (min_le_left _ _))
  refine ⟨within1.2 ⟨by linarith [h2.1], by linarith [h2.2]⟩, ?_⟩
  show x 0 ^ 2 < η
  rw [← sq_abs]
  have h3 := h1.trans_le (min_le_left _ _)
  have h4 := h1.trans_le (min_le_right _ _)
  have h5 := abs_nonneg (x 0)
  nlinarith

theorem ready (F : Ifcn ℚ dm) : (start F 1 0 false).Ready (mpc F 1 0 false) := fresh_ready _ _ _ _ _ _ _ rfl

end IntegratorEx

open IntegratorEx in
/-- non-vacuity of `C103_convergence` and `C103_stability`: an integrator in continuous time, simulated from the state 8, outside of the terminal set and of the
state bounds, bounds checked at the collocation points; all hypotheses hold and the endless run converges to 0 -/
example : ∃ F L, L 0 = start F 1 0 false ∧ EndlessRun (mpc F 1 0 false) (sim false) (fun _ => bestSolver F) L ∧ (mpc F 1 0 false).cfg.consColloc = true ∧
    (∀ ε > 0, ∃ n0, ∀ n ≥ n0, Near 0 (L n).sim.x0 ε) ∧
    ∀ ε > 0, ∃ δ > 0, ∀ L : Nat → Loop ℚ dm, EndlessRun (mpc F 1 0 false) (sim false) (fun _ => bestSolver F) L → InStep (L 0) → Near 0 (L 0).sim.x0 δ →
      ∀ n, Near 0 (L n).sim.x0 ε := by
  obtain ⟨⟨F, hF, _⟩, _⟩ := C11_bookkeeping model (fun _ => 2) (fun _ => 3) (fun _ => 1) 1 1 1 unitTau 1 one_pos
  have hR := regularCost hF
  have hm := matches_ F 1 0 false (by simp) one_pos
  have hcon : ConsistentPredictions (mpc F 1 0 false) := ⟨fun _ _ _ => rfl, fun _ => rfl⟩
  obtain ⟨L, h0, hL⟩ := C102_endless_run (mpc F 1 0 false) (sim false) (by simp [mpc]) (fun _ _ _ _ _ => rfl) (fun _ => bestSolver F)
    (fun _ _ s hs => absurd hs List.not_mem_nil) (start F 1 0 false) (ready F)
  refine ⟨F, L, h0, hL, rfl, ?_, fun ε hε => ?_⟩
  · exact (C103_convergence hR rfl hm hcon (terminalCost F) rfl (Or.inr fun t => noOvershoot F 1 0 _ _) 0 (positive F) _ (fun _ => findsOptimum hR) L hL
      (by rw [h0]; exact ⟨rfl, rfl⟩) ⟨_, (C12_admissible_is_feasible_collocation hR _ _ (best_admissible F _)).1⟩).2
  · obtain ⟨δ, hδ, h⟩ := C103_stability hR rfl hm hcon (terminalCost F) rfl (Or.inr fun t => noOvershoot F 1 0 _ _) 0 (positive F) (fun _ => bestSolver F)
      (fun _ => findsOptimum hR) (small F) ε hε
    exact ⟨δ, hδ, fun L hL h0 hn => (h L hL h0 hn).2⟩

open IntegratorEx in
/-- non-vacuity of `C103_terminal_plan`: the hypotheses hold for the state 1/2 -/
example : ∃ F, ∃ w, (mpc F 1 0 false).cfg.Feasible w ⟨fun _ => 1/2, fun _ => Fin.elim0, par false, fun _ => 0⟩ ∧
    (mpc F 1 0 false).cfg.obj w ⟨fun _ => 1/2, fun _ => Fin.elim0, par false, fun _ => 0⟩ ≤ 1/4 := by
  obtain ⟨⟨F, hF, _⟩, _⟩ := C11_bookkeeping model (fun _ => 2) (fun _ => 3) (fun _ => 1) 1 1 1 unitTau 1 one_pos
  obtain ⟨w, h1, h2⟩ := C103_terminal_plan (EM := mpc F 1 0 false) (regularCost hF) rfl ⟨fun _ _ _ => rfl, fun _ => rfl⟩ (terminalCost F) rfl 0
    ⟨fun _ => 1/2, fun _ => Fin.elim0, par false, fun _ => 0⟩ rfl rfl (within1.2 (by constructor <;> norm_num))
  refine ⟨F, w, h1, h2.trans (le_of_eq ?_)⟩
  show (1/2 : ℚ) ^ 2 = 1/4
  norm_num

end DoMpc
