import Verif.Props.LqrRun2

/-! # LQR with infinite horizon (C57) -/
set_option linter.unusedSectionVars false
namespace DoMpc
open Matrix Spec
variable {K : Type} [Field K] [LinearOrder K] [IsStrictOrderedRing K]
variable {n m : Nat}

/-- cost of the first `N` steps -/
def Spec.stageSum (A : Matrix (Fin n) (Fin n) K) (B : Matrix (Fin n) (Fin m) K) (Q : Matrix (Fin n) (Fin n) K) (R : Matrix (Fin m) (Fin m) K)
    (N : Nat) (x0 : Vec K n) (u : Nat → Vec K m) : K := ∑ k ∈ Finset.range N, (qf Q (traj A B x0 u k) + qf R (u k))

/-- the inputs of the feedback `u = G x` -/
def Spec.feedback (A : Matrix (Fin n) (Fin n) K) (B : Matrix (Fin n) (Fin m) K) (G : Matrix (Fin m) (Fin n) K) (x0 : Vec K n) : Nat → Vec K m
  | k => G *ᵥ (Nat.rec x0 (fun _ x => A *ᵥ x + B *ᵥ (G *ᵥ x)) k)

theorem traj_feedback (A : Matrix (Fin n) (Fin n) K) (B : Matrix (Fin n) (Fin m) K) (G : Matrix (Fin m) (Fin n) K) (x0 : Vec K n) (k : Nat) :
    feedback A B G x0 k = G *ᵥ traj A B x0 (feedback A B G x0) k := by
  have : traj A B x0 (feedback A B G x0) k = Nat.rec x0 (fun _ x => A *ᵥ x + B *ᵥ (G *ᵥ x)) k := by
    induction k with
    | zero => rfl
    | succ k ih => rw [traj, ih]; rfl
  rw [this, feedback]

/-- SciPy's answer to `solve_discrete_are` is a symmetric positive semidefinite solution of the algebraic Riccati equation. -/
structure SolvesDare (A : Matrix (Fin n) (Fin n) K) (B : Matrix (Fin n) (Fin m) K) (Q : Matrix (Fin n) (Fin n) K) (R : Matrix (Fin m) (Fin m) K)
    (Pi : Matrix (Fin n) (Fin n) K) : Prop where
  psd : Psd Pi
  eq : Pi = Q + Aᵀ * Pi * A - Aᵀ * Pi * B * (R + Bᵀ * Pi * B)⁻¹ * Bᵀ * Pi * A

/-- **C57.**  With `n_horizon = None`, whenever `solve_discrete_are` returns a symmetric positive semidefinite solution `Pi` of the algebraic
Riccati equation, `discrete_gain` returns a gain `G` such that for every initial state `x0`: the cost of the feedback `u = G x` over any
number of steps stays below `x0ᵀ Pi x0`, and every input sequence for which `x_Nᵀ Pi x_N` tends to 0 (in particular every one that drives
the state to 0) has, over enough steps, a cost larger than `x0ᵀ Pi x0 − ε` for every `ε > 0`.  The feedback is therefore optimal among
these. -/
theorem C57_infinite_horizon (E : LqrEnv K) (st : LqrSt K) (A Q Pi : Matrix (Fin n) (Fin n) K) (B : Matrix (Fin n) (Fin m) K)
    (R : Matrix (Fin m) (Fin m) K) (hn : 0 < n) (hm : 0 < m) (hQ : Psd Q) (hR : Pd R)
    (h1 : st.Q = some (.of Q)) (h2 : st.R = some (.of R)) (h4 : st.horizon = none)
    (hd : E.dare (.of A) (.of B) (.of Q) (.of R) = .ok (.of Pi)) (hPi : SolvesDare A B Q R Pi) :
    ∃ G : Matrix (Fin m) (Fin n) K, E.discreteGain st (.of A) (.of B) = .ok (.of G) ∧
      ∀ x0, (∀ N, stageSum A B Q R N x0 (feedback A B G x0) ≤ qf Pi x0) ∧
        ∀ u, (∀ ε > 0, ∃ N0, ∀ N ≥ N0, qf Pi (traj A B x0 u N) < ε) → ∀ ε > 0, ∃ N0, ∀ N ≥ N0, qf Pi x0 - ε < stageSum A B Q R N x0 u := by
  have hG := ricG_pd B Pi R hR hPi.psd
  have hfix : ricP A B Q R Pi = Pi := by
    conv_rhs => rw [hPi.eq]
    rw [ricP, ricG, add_comm R]
  have hs1 : n * n ≠ 0 := by positivity
  have hs2 : m * m ≠ 0 := by positivity
  have hi : (NpMat.of (Bᵀ * Pi * B + R)).inv = .ok (NpMat.of (ricG B R Pi)⁻¹) := NpMat.inv_of _ hG.det_ne
  -- one step of the value function
  have hstep : ∀ (x0 : Vec K n) (u : Nat → Vec K m) (N : Nat), stageSum A B Q R N x0 u + qf Pi (traj A B x0 u N)
      = qf Pi x0 + ∑ k ∈ Finset.range N, qf (ricG B R Pi) (u k - ricK A B R Pi *ᵥ traj A B x0 u k) := by
    intro x0 u N
    induction N with
    | zero => simp [stageSum, traj]
    | succ N ih =>
      have := complete_square A B Q Pi R hPi.psd.1 hG.1 hG.det_ne (traj A B x0 u N) (u N)
      rw [hfix] at this
      simp only [stageSum, Finset.sum_range_succ, traj] at ih ⊢
      linarith
  refine ⟨ricK A B R Pi, ?_, fun x0 => ⟨fun N => ?_, fun u hu ε hε => ?_⟩⟩
  · simp only [LqrEnv.discreteGain, h1, h2, h4, NpMat.size, ne_eq, hs1, hs2, not_false_eq_true, and_self, if_true, hd, bind, Except.bind, areGain,
      NpMat.T_of, NpMat.mul_of, NpMat.add_of, NpMat.neg_of, hi]
    rfl
  · have := hstep x0 (feedback A B (ricK A B R Pi) x0) N
    have h0 : ∑ k ∈ Finset.range N, qf (ricG B R Pi) (feedback A B (ricK A B R Pi) x0 k - ricK A B R Pi *ᵥ traj A B x0 (feedback A B (ricK A B R Pi) x0) k) = 0 := by
      apply Finset.sum_eq_zero
      intro k _
      rw [← traj_feedback, sub_self, qf_zero]
    have h3 := hPi.psd.2 (traj A B x0 (feedback A B (ricK A B R Pi) x0) N)
    linarith
  · obtain ⟨N0, hN⟩ := hu ε hε
    refine ⟨N0, fun N hge => ?_⟩
    have := hstep x0 u N
    have h3 : 0 ≤ ∑ k ∈ Finset.range N, qf (ricG B R Pi) (u k - ricK A B R Pi *ᵥ traj A B x0 u k) :=
      Finset.sum_nonneg fun k _ => hG.psd.2 _
    have := hN N hge
    linarith

/-- **Wrong Riccati solution.**  The gain is computed from whatever `solve_discrete_are` returns; an error it raises ends `setup`. -/
theorem C57_error_propagates (E : LqrEnv K) (st : LqrSt K) (A Q R B : NpMat K) (h1 : st.Q = some Q) (h2 : st.R = some R) (h4 : st.horizon = none)
    (hQ : Q.size ≠ 0) (hR : R.size ≠ 0) (e : String) (hd : E.dare A B Q R = .error e) : E.discreteGain st A B = .error e := by
  simp [LqrEnv.discreteGain, h1, h2, h4, hQ, hR, hd, bind, Except.bind]

/-- `x⁺ = u` with `Q = R = 1` has `Pi = 1`. -/
example : SolvesDare (K := ℚ) (n := 1) (m := 1) 0 1 1 1 1 := ⟨one_pd.psd, by simp⟩

/-- an unstable system, `x⁺ = 2x + u` with `Q = 0`, `R = 1`: `Pi = 3` -/
example : SolvesDare (K := ℚ) (n := 1) (m := 1) !![2] !![1] !![0] !![1] !![3] := by
  refine ⟨⟨by ext i j; fin_cases i; fin_cases j; rfl, fun x => ?_⟩, ?_⟩
  · simp only [qf, dotProduct, mulVec, Fin.sum_univ_one]
    simp
    nlinarith [mul_self_nonneg (x 0)]
  · have : ((!![1] : Matrix (Fin 1) (Fin 1) ℚ) + !![1]ᵀ * !![3] * !![1]) = !![4] := by
      ext i j; fin_cases i; fin_cases j; norm_num [Matrix.mul_apply]
    rw [this]
    ext i j; fin_cases i; fin_cases j
    simp [Matrix.inv_def, Ring.inverse_eq_inv', Matrix.mul_apply]
    norm_num

end DoMpc
