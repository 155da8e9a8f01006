import Verif.Props.MheRun
import Verif.Props.MpcRun

set_option linter.unusedSectionVars false

/-! # C56: the initial guess is made of the initial values -/
namespace DoMpc
variable {K : Type} [Field K] [LinearOrder K] {d : Dims} {ne ns : Nat}

theorem guess_div_mul_vec {n : Nat} (v s : Vec K n) (hs : ∀ i, s i ≠ 0) : v / s * s = v := by
  funext i
  simp [hs i]

/-- **C56 (MPC).**  After `set_initial_guess` the guess for every state, input and algebraic state of the whole horizon and of every
scenario is, in physical units, the current `x0`, `u0`, `z0`; the call is refused before `setup` and changes nothing else; the solver
of the next `make_step` starts from that guess. -/
theorem C56_mpc_initial_guess (E : MpcEnv K d) (st : MpcSt K d) (hx : ∀ i, E.cfg.sx i ≠ 0) (hu : ∀ i, E.cfg.su i ≠ 0)
    (hz : ∀ i, E.cfg.sz i ≠ 0) :
    ((E.setInitialGuess st).2 = none ↔ st.setup = true) ∧
    (st.setup = false → (E.setInitialGuess st).1 = st) ∧
    (st.setup = true →
      (∀ k s i, E.cfg.xPhys (E.setInitialGuess st).1.optX k s i = st.x0) ∧
      (∀ k s, E.cfg.uPhys (E.setInitialGuess st).1.optX k s = st.u0) ∧
      (∀ k s i, E.cfg.zPhys (E.setInitialGuess st).1.optX k s i = st.z0) ∧
      (E.setInitialGuess st).1.optX.eps = st.optX.eps ∧
      (E.setInitialGuess st).1.x0 = st.x0 ∧ (E.setInitialGuess st).1.u0 = st.u0 ∧ (E.setInitialGuess st).1.z0 = st.z0 ∧
      (E.setInitialGuess st).1.t0 = st.t0 ∧ (E.setInitialGuess st).1.data = st.data ∧
      (∀ S S' : SolverArgs K d → SolverResult K d E.nLagr,
        (∀ a, a.x0 = (E.setInitialGuess st).1.optX → S a = S' a) →
        ∀ x, E.makeStep S (E.setInitialGuess st).1 x = E.makeStep S' (E.setInitialGuess st).1 x)) := by
  refine ⟨?_, ?_, ?_⟩
  · cases h : st.setup <;> simp [MpcEnv.setInitialGuess, h]
  · intro h; simp [MpcEnv.setInitialGuess, h]
  · intro h
    have he : (E.setInitialGuess st).1 = { st with
      optX := { st.optX with x := fun _ _ _ => st.x0 / E.cfg.sx, u := fun _ _ => st.u0 / E.cfg.su, z := fun _ _ _ => st.z0 / E.cfg.sz }
      guessSet := true } := by simp [MpcEnv.setInitialGuess, h]
    rw [he]
    refine ⟨fun _ _ _ => guess_div_mul_vec _ _ hx, fun _ _ => guess_div_mul_vec _ _ hu, fun _ _ _ => guess_div_mul_vec _ _ hz, rfl, rfl, rfl, rfl, rfl, rfl, ?_⟩
    intro S S' hS x
    unfold MpcEnv.makeStep
    simp only [h]
    by_cases hl : x.length = d.nx
    · simp only [hl, dite_true, MpcSt.solve, MpcSt.solverArgs]
      rw [hS _ rfl]
    · simp [hl]

/-- **C56 (MHE).**  The same for the estimator, where the guess also covers the estimated parameters and makes `x0` the prior of the
next call. -/
theorem C56_mhe_initial_guess (E : MheEnv K d ne ns) (st : MheSt K d ne ns) (hx : ∀ i, E.cfg.sx i ≠ 0) (hu : ∀ i, E.cfg.su i ≠ 0)
    (hz : ∀ i, E.cfg.sz i ≠ 0) (hp : ∀ i, E.cfg.sp i ≠ 0) :
    ((E.setInitialGuess st).2 = none ↔ st.setup = true) ∧
    (st.setup = false → (E.setInitialGuess st).1 = st) ∧
    (st.setup = true →
      (∀ k i, E.cfg.xPhys (E.setInitialGuess st).1.optX k i = st.x0) ∧
      (∀ k, E.cfg.uPhys (E.setInitialGuess st).1.optX k = st.u0) ∧
      (∀ k i, E.cfg.zPhys (E.setInitialGuess st).1.optX k i = st.z0) ∧
      E.cfg.pEstPhys (E.setInitialGuess st).1.optX = st.pEst0 ∧
      (∀ y0, (E.args (E.setInitialGuess st).1 y0).p.xPrev = st.x0 ∧ (E.args (E.setInitialGuess st).1 y0).p.pEstPrev = st.pEst0 ∧
        (E.args (E.setInitialGuess st).1 y0).x0 = (E.setInitialGuess st).1.optX) ∧
      (E.setInitialGuess st).1.x0 = st.x0 ∧ (E.setInitialGuess st).1.t0 = st.t0 ∧ (E.setInitialGuess st).1.data = st.data) := by
  refine ⟨?_, ?_, ?_⟩
  · cases h : st.setup <;> simp [MheEnv.setInitialGuess, h]
  · intro h; simp [MheEnv.setInitialGuess, h]
  · intro h
    have he : (E.setInitialGuess st).1 = { st with
      optX := { st.optX with x := fun _ _ => st.x0 / E.cfg.sx, u := fun _ => st.u0 / E.cfg.su, z := fun _ _ => st.z0 / E.cfg.sz
                             pEst := st.pEst0 / E.cfg.sp }
      guessSet := true } := by simp [MheEnv.setInitialGuess, h]
    rw [he]
    refine ⟨fun _ _ => guess_div_mul_vec _ _ hx, fun _ => guess_div_mul_vec _ _ hu, fun _ _ => guess_div_mul_vec _ _ hz, guess_div_mul_vec _ _ hp, ?_, rfl, rfl, rfl⟩
    intro y0
    exact ⟨guess_div_mul_vec _ _ hx, rfl, rfl⟩

/-- **C56: the first call of a controller.**  The only problem that the first `make_step` after `setup` and `set_initial_guess` hands to the solver has
the measured state, the parameters of time 0, the initial input as the previous one, the initial values as guess, and no multipliers: solvers that agree
on it give the same step. -/
theorem C56_mpc_first_call (E : MpcEnv K d) (hx : ∀ i, E.cfg.sx i ≠ 0) (hu : ∀ i, E.cfg.su i ≠ 0) (hz : ∀ i, E.cfg.sz i ≠ 0) (nEps : Nat)
    (x0 : Vec K d.nx) (u0 : Vec K d.nu) (z0 : Vec K d.nz) (S S' : SolverArgs K d → SolverResult K d E.nLagr) (x : List K)
    (h : ∀ a : SolverArgs K d, a.lam = none → List.ofFn a.p.x0 = x → a.p.uPrev = u0 → a.p.tvp = E.tvpFun 0 → a.p.p = E.pFun 0 →
      (∀ k s i, a.x0.x k s i * E.cfg.sx = x0) → (∀ k s, a.x0.u k s * E.cfg.su = u0) → (∀ k s i, a.x0.z k s i * E.cfg.sz = z0) →
      (∀ k s i j, a.x0.eps k s i j = 0) → S a = S' a) :
    E.makeStep S (E.setInitialGuess (E.fresh nEps x0 u0 z0)).1 x = E.makeStep S' (E.setInitialGuess (E.fresh nEps x0 u0 z0)).1 x := by
  by_cases hl : x.length = d.nx
  · have key := h ⟨(E.setInitialGuess (E.fresh nEps x0 u0 z0)).1.optX, ⟨fun i => x.get (i.cast hl.symm), E.tvpFun 0, E.pFun 0, u0⟩, none⟩ rfl (by
        apply List.ext_getElem
        · simp [hl]
        · intro i h1 h2; simp) rfl rfl rfl
      (fun _ _ _ => guess_div_mul_vec _ _ hx) (fun _ _ => guess_div_mul_vec _ _ hu) (fun _ _ _ => guess_div_mul_vec _ _ hz) (fun _ _ _ _ => rfl)
    unfold MpcEnv.makeStep
    simp only [hl, dite_true, MpcSt.solve, MpcSt.solverArgs, MpcEnv.setInitialGuess, MpcEnv.fresh, Bool.not_true, Bool.false_eq_true, if_false] at key ⊢
    rw [key]
  · unfold MpcEnv.makeStep; simp [hl]

/-- **C56: the first call of an estimator**, likewise; the prior is the initial state and parameter. -/
theorem C56_mhe_first_call (E : MheEnv K d ne ns) (hx : ∀ i, E.cfg.sx i ≠ 0) (hu : ∀ i, E.cfg.su i ≠ 0) (hz : ∀ i, E.cfg.sz i ≠ 0) (hp : ∀ i, E.cfg.sp i ≠ 0)
    (nEps : Nat) (x0 : Vec K d.nx) (u0 : Vec K d.nu) (z0 : Vec K d.nz) (p0 : Vec K ne) (S S' : MheArgs K d ne ns → MheResult K d ne E.nLagr) (y : List K)
    (h : ∀ a : MheArgs K d ne ns, a.lam = none → a.p.xPrev = x0 → a.p.pEstPrev = p0 → a.p.tvp = E.tvpFun 0 → a.p.pSet = E.pFun 0 →
      (∀ k i, a.x0.x k i * E.cfg.sx = x0) → (∀ k, a.x0.u k * E.cfg.su = u0) → (∀ k i, a.x0.z k i * E.cfg.sz = z0) → a.x0.pEst * E.cfg.sp = p0 →
      S a = S' a) :
    E.makeStep S (E.setInitialGuess (E.fresh nEps x0 u0 z0 p0)).1 y = E.makeStep S' (E.setInitialGuess (E.fresh nEps x0 u0 z0 p0)).1 y := by
  unfold MheEnv.makeStep
  simp only [MheEnv.setInitialGuess, MheEnv.fresh, Bool.not_true, Bool.false_eq_true, if_false]
  split
  · rfl
  · split
    · rfl
    · rw [h _ rfl (guess_div_mul_vec _ _ hx) rfl rfl rfl (fun _ _ => guess_div_mul_vec _ _ hx) (fun _ => guess_div_mul_vec _ _ hu)
        (fun _ _ => guess_div_mul_vec _ _ hz) (guess_div_mul_vec _ _ hp)]

/-- **The prior without `set_initial_guess`**: an estimator whose initial state was set but which did not get an initial guess starts
with the prior 0, whatever `x0` is (only a warning is printed); the prior of the parameters is `p_est0`. -/
theorem C56_fails_mhe_prior_without_guess (E : MheEnv K d ne ns) (nEps : Nat) (x0 : Vec K d.nx) (u0 : Vec K d.nu) (z0 : Vec K d.nz)
    (p0 : Vec K ne) (y0 : List K) :
    (E.args (E.fresh nEps x0 u0 z0 p0) y0).p.xPrev = 0 ∧ (E.args (E.fresh nEps x0 u0 z0 p0) y0).p.pEstPrev = p0 := by
  refine ⟨?_, rfl⟩
  funext i
  simp [MheEnv.args, MheEnv.fresh, MheCfg.xPhys]

/-- Non-vacuity: an estimator with scaling, a nonzero initial state. -/
example : (MheRunExample.E.setInitialGuess (MheRunExample.E.fresh 0 (fun _ => 3) 0 0 0)).2 = none :=
  ((C56_mhe_initial_guess MheRunExample.E _ (by intro i; simp [MheRunExample.E]) (by intro i; exact i.elim0)
    (by intro i; exact i.elim0) (by intro i; exact i.elim0)).1).2 rfl

end DoMpc
