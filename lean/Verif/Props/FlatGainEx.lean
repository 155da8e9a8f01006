import Verif.Props.FlatGain
import Verif.Props.FlatSensEx

set_option linter.unusedSectionVars false
set_option linter.unusedSimpArgs false

/-!
# C59, C99: the example of `FlatSensEx` with the solutions of the MPC problem
-/
namespace DoMpc.FlatEx
open FlatSpec Diff Diff.Spec Filter Topology

/-- what the solver returns for the measured state `ξ` -/
noncomputable def W (ξ : Fin 1 → ℝ) : OptX ℝ dm := cfg.ofX names (ofFin (X ![ξ 0, 0]))

theorem catP_state (ξ : Fin 1 → ℝ) : cfg.catP names { Q with x0 := ξ } = [ξ 0, 0] := by
  show [ξ 0] ++ ([] ++ ([] ++ ([Q.uPrev 0] ++ []))) = _
  rfl

theorem W_flat (ξ : Fin 1 → ℝ) : cfg.catX names (W ξ) = [ξ 0, ξ 0 / 2, -(ξ 0) / 4] := by
  unfold W
  show [(cfg.ofX names _).x 0 0 0 0, (cfg.ofX names _).x 1 0 0 0, (cfg.ofX names _).u 0 0 0] = _
  rw [x_zero, x_one, u_zero]
  rfl

theorem feasible_flat (v : Nat → ℝ) (q : Nat → ℝ) : cfg.FlatFeasible names v q → v 0 = q 0 ∧ v 1 = v 0 + 2 * v 2 := by
  rintro ⟨h, -⟩
  rw [flatRows] at h
  have h1 := h _ (List.mem_cons_self ..)
  have h2 := h _ (List.mem_cons_of_mem _ (List.mem_cons_self ..))
  have a1 : (0 : ℝ) ≤ v 0 - q 0 ∧ v 0 - q 0 ≤ 0 := h1
  have a2 : (0 : ℝ) ≤ v 0 + 2 * v 2 - v 1 ∧ v 0 + 2 * v 2 - v 1 ≤ 0 := h2
  constructor <;> linarith [a1.1, a1.2, a2.1, a2.2]

/-- `W ξ` solves the MPC problem for the measured state `ξ` -/
theorem W_solves (ξ : Fin 1 → ℝ) : cfg.Feasible (W ξ) { Q with x0 := ξ } ∧ ∀ w', cfg.Feasible w' { Q with x0 := ξ } →
    cfg.obj (W ξ) { Q with x0 := ξ } ≤ cfg.obj w' { Q with x0 := ξ } := by
  refine (C98_minimiser cfg names (by decide) names_ok List.nodup_nil (discrete_ownPoints _ _ _ _ _) { Q with x0 := ξ } (ofFin (X ![ξ 0, 0]))).1 ?_
  rw [catP_state]
  have hq : (fun p => [ξ 0, (0 : ℝ)].getD p 0) = ofFin (![ξ 0, 0] : Fin 2 → ℝ) := by
    funext p
    rcases p with _ | _ | p <;> simp [ofFin]
  refine ⟨?_, fun v' hv' => ?_⟩
  · rw [hq]
    have hk := kkt ![ξ 0, 0]
    exact (admissible_iff cfg names N grad g isNlp (X ![ξ 0, 0]) ![ξ 0, 0]).1 ⟨hk.lowerG, hk.upperG, hk.lowerX, hk.upperX⟩
  · obtain ⟨e0, e1⟩ := feasible_flat _ _ hv'
    rw [flatObj, flatObj]
    have e0' : v' 0 = ξ 0 := e0
    rw [e1, e0']
    show (2 * (-(ξ 0) / 4)) ^ 2 + (ξ 0 / 2) ^ 2 ≤ _
    nlinarith [sq_nonneg (4 * v' 2 + ξ 0)]

/-- non-vacuity of `C99_feedback_gain`, `C99_sens_num` and `C59_solution_partial`: the solutions of the MPC problem, their gain is -1/2 -/
example : ∃ o o' st', differentiateSt N sets Checks.default exactSolver exactSolver sol (cfg.catP names Q) Status.init = (.ok o, st') ∧
    doDifferentiate N (cfg.scalingFlat names) sets exactSolver exactSolver sol (cfg.catP names Q) = .ok o' ∧ st'.licq = some true ∧ st'.sc = some true ∧
    (∀ ξ, (cfg.unscaled (W ξ)).u 0 0 = fun _ => -(ξ 0) / 2) ∧
    sensNum (cfg.optX names) (cfg.optP names) o'.dx "_u" [0, 0] "_x0" [] = some [[some (-1 / 2)]] := by
  obtain ⟨st', h', hb, hb'⟩ := status_ok
  have hWu : ∀ ξ : Fin 1 → ℝ, (cfg.unscaled (W ξ)).u 0 0 = fun _ => -(ξ 0) / 2 := by
    intro ξ
    funext j
    show (cfg.ofX names _).u 0 0 j * 2 = _
    rw [u_zero]
    show -(ξ 0) / 4 * 2 = _
    ring
  obtain ⟨D, hD, hS⟩ := C99_feedback_gain cfg names names_ok List.nodup_nil (by decide) (discrete_ownPoints _ _ _ _ _) N depends sets (by norm_num [sets])
    Checks.default exactSolver exactSolver exactSolver_solves exactSolver_complete (fun _ => exactSolver_solves) sol Q Status.init _ _ _ h' do_ok rfl rfl hb hb'
    second_order grad g isNlp (smooth _ _ _) g_sol kkt_sol (by decide) (by decide) (fun _ _ _ _ => rfl) W (Eventually.of_forall W_solves)
    (by
      intro i _
      rw [W_flat]
      change Fin 3 at i
      fin_cases i <;> simp [sol, ofFin, X, Q])
    (by
      intro i _
      simp only [W_flat]
      change Fin 3 at i
      fin_cases i
      · exact (show Continuous fun ξ : Fin 1 → ℝ => ξ 0 by fun_prop).continuousAt
      · exact (show Continuous fun ξ : Fin 1 → ℝ => ξ 0 / 2 by fun_prop).continuousAt
      · exact (show Continuous fun ξ : Fin 1 → ℝ => -(ξ 0) / 4 by fun_prop).continuousAt)
  refine ⟨_, _, _, h', do_ok, hb, hb', hWu, hS.trans ?_⟩
  have hlin : HasFDerivAt (fun (ξ : Fin 1 → ℝ) (_ : Fin 1) => -(ξ 0) / 2)
      (ContinuousLinearMap.pi fun _ : Fin 1 => (-1 / 2 : ℝ) • ContinuousLinearMap.proj (R := ℝ) (φ := fun _ : Fin 1 => ℝ) 0) Q.x0 := by
    rw [hasFDerivAt_pi]
    intro _
    have := ((hasFDerivAt_apply (𝕜 := ℝ) (0 : Fin 1) (Q.x0 : Fin 1 → ℝ)).const_mul (-1 / 2 : ℝ))
    refine this.congr_of_eventuallyEq (Eventually.of_forall fun ξ => ?_)
    show -(ξ 0) / 2 = -1 / 2 * ξ 0
    ring
  have hDe : D = ContinuousLinearMap.pi fun _ : Fin 1 => (-1 / 2 : ℝ) • ContinuousLinearMap.proj (R := ℝ) (φ := fun _ : Fin 1 => ℝ) 0 := by
    refine HasFDerivAt.unique hD ?_
    exact (congrArg (fun f => HasFDerivAt f _ Q.x0) (funext hWu)).mpr hlin
  rw [hDe]
  show some [[some ((-1 / 2 : ℝ) • (Pi.single (0 : Fin 1) (1 : ℝ) : Fin 1 → ℝ) 0)]] = _
  simp

/-- non-vacuity of `C59_solution_partial`: all hypotheses hold for the example -/
example : ∃ r > 0, ∃ Y : (Fin 2 → ℝ) → Fin 3 → ℝ, ∀ᶠ q in 𝓝 (toFin 2 fun i => (cfg.catP names Q).getD i 0),
    ∀ y : Fin 3 → ℝ, (∀ i : Fin 3, |y i - sol.x i| < r) → Admissible N g y q → (∃ i : Fin 3, y i ≠ Y q i) → nlpCost cfg names N (Y q, q) < nlpCost cfg names N (y, q) := by
  obtain ⟨st', h', hb, hb'⟩ := status_ok
  obtain ⟨r, hr, X', LG', LX', -, hloc, -⟩ := C59_solution_partial N depends sets (by norm_num [sets]) Checks.default exactSolver exactSolver exactSolver_solves exactSolver_complete
    (fun _ => exactSolver_solves) sol (cfg.catP names Q) Status.init _ _ h' rfl rfl hb hb' second_order (nlpCost cfg names N) grad g (smooth _ _ _)
    (lagrangian_of cfg names N grad g isNlp _ _ _ (smooth sol.x sol.x sol.x).gradZero) g_sol kkt_sol
  refine ⟨r, hr, X', hloc.mono fun q hq y hy ha hne => hq.2 y (fun i _ => hy i) ha ?_⟩
  obtain ⟨i, hi⟩ := hne
  exact ⟨i, rfl, hi⟩

end DoMpc.FlatEx
