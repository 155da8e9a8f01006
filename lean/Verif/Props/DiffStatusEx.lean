import Verif.Props.DiffStatus
import Verif.Props.DifferentiatorDeriv

/-!
# Status of the differentiator: histories, derivatives, examples (C91, C59)
-/
set_option linter.unusedSectionVars false
namespace DoMpc.Diff

open scoped BigOperators Topology
open Spec Filter

variable {K : Type} [Field K] [LinearOrder K] [IsStrictOrderedRing K]

/-! ### Histories of calls -/

/-- the call returns sensitivities (it does not raise) -/
def Returns (N : Nlp K) (lin lstsq : LinSolver K) (c : Call K) : Prop := ∃ o, differentiate N c.set lin lstsq c.sol c.p = .ok o

theorem statusAfter_append (N : Nlp K) (lin lstsq : LinSolver K) (st : Status K) (cs1 cs2 : List (Call K)) :
    statusAfter N lin lstsq st (cs1 ++ cs2) = statusAfter N lin lstsq (statusAfter N lin lstsq st cs1) cs2 := by
  induction cs1 generalizing st with
  | nil => rfl
  | cons c cs ih => exact ih _

theorem step_not_returns (N : Nlp K) (lin lstsq : LinSolver K) (st : Status K) (c : Call K) (h : ¬ Returns N lin lstsq c) :
    (differentiateSt N c.set c.checks lin lstsq c.sol c.p st).2 = st := by
  unfold differentiateSt
  cases hd : differentiate N c.set lin lstsq c.sol c.p with
  | error e => rfl
  | ok o => exact absurd ⟨o, hd⟩ h

theorem step_returns (N : Nlp K) (lin lstsq : LinSolver K) (st : Status K) (c : Call K) (h : Returns N lin lstsq c) :
    (differentiateSt N c.set c.checks lin lstsq c.sol c.p st).2 =
      if N.isReduced then coreStatus N.reduce c.set c.checks lin lstsq (reduceSol N c.sol) (takeIdx 0 (detIdx N.np N.depP) fun i => c.p.getD i 0) st
      else coreStatus N c.set c.checks lin lstsq c.sol (fun i => c.p.getD i 0) st := by
  obtain ⟨o, ho⟩ := h
  unfold differentiateSt
  rw [ho]

/-- a quantity that no later call changes -/
theorem after_unchanged {α : Type} (f : Status K → α) (N : Nlp K) (lin lstsq : LinSolver K) (cs : List (Call K)) (st : Status K)
    (h : ∀ c ∈ cs, ∀ st, f (differentiateSt N c.set c.checks lin lstsq c.sol c.p st).2 = f st) : f (statusAfter N lin lstsq st cs) = f st := by
  induction cs generalizing st with
  | nil => rfl
  | cons c cs ih =>
    exact (ih _ fun c' hc' => h c' (List.mem_cons_of_mem _ hc')).trans (h c List.mem_cons_self st)

/-- a call that does not return, or that returns with the check disabled, leaves a quantity unchanged -/
theorem off_unchanged (N : Nlp K) (lin lstsq : LinSolver K) (c : Call K) (st : Status K) :
    ((Returns N lin lstsq c → c.checks.licq = false) → (differentiateSt N c.set c.checks lin lstsq c.sol c.p st).2.licq = st.licq) ∧
    ((Returns N lin lstsq c → c.checks.sc = false) → (differentiateSt N c.set c.checks lin lstsq c.sol c.p st).2.sc = st.sc) ∧
    ((Returns N lin lstsq c → c.checks.residuals = false) → (differentiateSt N c.set c.checks lin lstsq c.sol c.p st).2.residual = st.residual) ∧
    ((Returns N lin lstsq c → c.checks.rank = false) → (differentiateSt N c.set c.checks lin lstsq c.sol c.p st).2.fullRank = st.fullRank) ∧
    (¬ Returns N lin lstsq c → (differentiateSt N c.set c.checks lin lstsq c.sol c.p st).2.lseSolved = st.lseSolved) := by
  by_cases hr : Returns N lin lstsq c
  · rw [step_returns N lin lstsq st c hr]
    refine ⟨fun h => ?_, fun h => ?_, fun h => ?_, fun h => ?_, fun h => absurd hr h⟩
    all_goals split <;> simp only [coreStatus, h hr] <;> rfl
  · rw [step_not_returns N lin lstsq st c hr]
    exact ⟨fun _ => rfl, fun _ => rfl, fun _ => rfl, fun _ => rfl, fun _ => rfl⟩

/-- a call that returns with the check enabled sets it, whatever the status was -/
theorem on_set (N : Nlp K) (lin lstsq : LinSolver K) (c : Call K) (hr : Returns N lin lstsq c) (st st' : Status K) :
    (c.checks.licq = true → (differentiateSt N c.set c.checks lin lstsq c.sol c.p st).2.licq = (differentiateSt N c.set c.checks lin lstsq c.sol c.p st').2.licq) ∧
    (c.checks.sc = true → (differentiateSt N c.set c.checks lin lstsq c.sol c.p st).2.sc = (differentiateSt N c.set c.checks lin lstsq c.sol c.p st').2.sc) ∧
    (c.checks.residuals = true →
      (differentiateSt N c.set c.checks lin lstsq c.sol c.p st).2.residual = (differentiateSt N c.set c.checks lin lstsq c.sol c.p st').2.residual) ∧
    (c.checks.rank = true →
      (differentiateSt N c.set c.checks lin lstsq c.sol c.p st).2.fullRank = (differentiateSt N c.set c.checks lin lstsq c.sol c.p st').2.fullRank) ∧
    (differentiateSt N c.set c.checks lin lstsq c.sol c.p st).2.lseSolved = (differentiateSt N c.set c.checks lin lstsq c.sol c.p st').2.lseSolved := by
  rw [step_returns N lin lstsq st c hr, step_returns N lin lstsq st' c hr]
  refine ⟨fun h => ?_, fun h => ?_, fun h => ?_, fun h => ?_, ?_⟩
  · split <;> simp only [coreStatus, h] <;> rfl
  · split <;> simp only [coreStatus, h] <;> rfl
  · split <;> simp only [coreStatus, h] <;> rfl
  · split <;> simp only [coreStatus, h] <;> rfl
  · split <;> rfl

/-- **C91** (partial): what the status shows after any history of calls.  A field shows the result of the last call that returned with the check enabled, as
if that had been the first call of a new differentiator; `lse_solved` that of the last call that returned.  Missing: `None` if the last call did not
check the condition - false (`C91_fails_stale`). -/
theorem C91_history_partial (N : Nlp K) (lin lstsq : LinSolver K) (cs1 cs2 : List (Call K)) (c : Call K) (hr : Returns N lin lstsq c) :
    let st := statusAfter N lin lstsq Status.init (cs1 ++ c :: cs2)
    let own := (differentiateSt N c.set c.checks lin lstsq c.sol c.p Status.init).2
    (c.checks.licq = true → (∀ c' ∈ cs2, Returns N lin lstsq c' → c'.checks.licq = false) → st.licq = own.licq) ∧
    (c.checks.sc = true → (∀ c' ∈ cs2, Returns N lin lstsq c' → c'.checks.sc = false) → st.sc = own.sc) ∧
    (c.checks.residuals = true → (∀ c' ∈ cs2, Returns N lin lstsq c' → c'.checks.residuals = false) → st.residual = own.residual) ∧
    (c.checks.rank = true → (∀ c' ∈ cs2, Returns N lin lstsq c' → c'.checks.rank = false) → st.fullRank = own.fullRank) ∧
    ((∀ c' ∈ cs2, ¬ Returns N lin lstsq c') → st.lseSolved = own.lseSolved) := by
  dsimp only
  rw [statusAfter_append]
  obtain ⟨s1, s2, s3, s4, s5⟩ := on_set N lin lstsq c hr (statusAfter N lin lstsq Status.init cs1) Status.init
  refine ⟨fun h hl => ?_, fun h hl => ?_, fun h hl => ?_, fun h hl => ?_, fun hl => ?_⟩
  · exact (after_unchanged Status.licq N lin lstsq cs2 _ fun c' hc' st => (off_unchanged N lin lstsq c' st).1 (hl c' hc')).trans (s1 h)
  · exact (after_unchanged Status.sc N lin lstsq cs2 _ fun c' hc' st => (off_unchanged N lin lstsq c' st).2.1 (hl c' hc')).trans (s2 h)
  · exact (after_unchanged Status.residual N lin lstsq cs2 _ fun c' hc' st => (off_unchanged N lin lstsq c' st).2.2.1 (hl c' hc')).trans (s3 h)
  · exact (after_unchanged Status.fullRank N lin lstsq cs2 _ fun c' hc' st => (off_unchanged N lin lstsq c' st).2.2.2.1 (hl c' hc')).trans (s4 h)
  · exact (after_unchanged Status.lseSolved N lin lstsq cs2 _ fun c' hc' st => (off_unchanged N lin lstsq c' st).2.2.2.2 (hl c' hc')).trans s5

/-- **C91**: a condition that no call checked is `None`. -/
theorem C91_never_checked (N : Nlp K) (lin lstsq : LinSolver K) (cs : List (Call K)) :
    let st := statusAfter N lin lstsq Status.init cs
    ((∀ c ∈ cs, Returns N lin lstsq c → c.checks.licq = false) → st.licq = none) ∧
    ((∀ c ∈ cs, Returns N lin lstsq c → c.checks.sc = false) → st.sc = none) ∧
    ((∀ c ∈ cs, Returns N lin lstsq c → c.checks.residuals = false) → st.residual = none) ∧
    ((∀ c ∈ cs, Returns N lin lstsq c → c.checks.rank = false) → st.fullRank = none) ∧
    ((∀ c ∈ cs, ¬ Returns N lin lstsq c) → st.lseSolved = false) := by
  refine ⟨fun h => ?_, fun h => ?_, fun h => ?_, fun h => ?_, fun h => ?_⟩
  · exact after_unchanged Status.licq N lin lstsq cs _ fun c hc st => (off_unchanged N lin lstsq c st).1 (h c hc)
  · exact after_unchanged Status.sc N lin lstsq cs _ fun c hc st => (off_unchanged N lin lstsq c st).2.1 (h c hc)
  · exact after_unchanged Status.residual N lin lstsq cs _ fun c hc st => (off_unchanged N lin lstsq c st).2.2.1 (h c hc)
  · exact after_unchanged Status.fullRank N lin lstsq cs _ fun c hc st => (off_unchanged N lin lstsq c st).2.2.2.1 (h c hc)
  · exact after_unchanged Status.lseSolved N lin lstsq cs _ fun c hc st => (off_unchanged N lin lstsq c st).2.2.2.2 (h c hc)

/-! ### The exact solver is complete -/

theorem exactSolver_complete : Complete (exactSolver (K := K)) := by
  intro n m A R hinj
  unfold exactSolver
  have hM : Function.Injective (Matrix.toLin' (Matrix.of fun (i : Fin n) (j : Fin n) => A i j)) := by
    rw [← LinearMap.ker_eq_bot, LinearMap.ker_eq_bot']
    intro v hv
    have h0 := hinj (fun b => if h : b < n then v ⟨b, h⟩ else 0) (by
      intro a ha
      have := congrFun hv ⟨a, ha⟩
      simp only [Matrix.toLin'_apply, Matrix.mulVec, dotProduct, Matrix.of_apply, Pi.zero_apply] at this
      rw [Finset.sum_range]
      simpa using this)
    funext b
    have := h0 b b.2
    simpa using this
  have hS := LinearMap.injective_iff_surjective.1 hM
  choose f hf using fun k : Nat => hS (fun a : Fin n => R a k)
  rw [dif_pos]
  · rfl
  · refine ⟨fun b k => if h : b < n then f k ⟨b, h⟩ else 0, fun a ha k hk => ?_⟩
    have := congrFun (hf k) ⟨a, ha⟩
    simp only [Matrix.toLin'_apply, Matrix.mulVec, dotProduct, Matrix.of_apply] at this
    rw [Finset.sum_range]
    simpa using this

/-! ### Derivatives under conditions that are reported -/

/-- **C59** (partial), with the reported constraint qualification: if `status.LICQ` is true after the call and the condition of second order holds, the
returned entries are the derivatives of a differentiable path of solutions with the active set found by the tolerance.  Nothing is assumed about the
regularity of the linear system or about `status.lse_solved`. -/
theorem C59_derivative_checked_partial (N : Nlp ℝ) (hdep : DependsCorrect N) (S : Settings ℝ) (C : Checks) (lin lstsq : LinSolver ℝ) (hlin : Solves lin)
    (hcomp : Complete lin) (hls : S.lstsqFallback = true → Solves lstsq) (s : Sol ℝ) (p : List ℝ) (st st' : Status ℝ) (o : Out ℝ)
    (h : differentiateSt N S C lin lstsq s p st = (.ok o, st')) (hC : C.licq = true) (hlicq : st'.licq = some true)
    (h2 : SecondOrder N s.x s.lamG (fun i => p.getD i 0) (fun c => AtBound S.tol (s.g c) (N.lbg c) (N.ubg c))
      (fun i => AtBound S.tol (s.x i) (N.lbx i) (N.ubx i)))
    (grad) (g) (hD : Derivatives N grad g s.x s.lamG (fun i => p.getD i 0)) (k : Fin N.np)
    (X : ℝ → Fin N.nx → ℝ) (LG : ℝ → Fin N.ng → ℝ) (LX : ℝ → Fin N.nx → ℝ)
    (hP : SolutionPath N grad g s (fun i => p.getD i 0) k (fun c => AtBound S.tol (s.g c) (N.lbg c) (N.ubg c))
      (fun i => AtBound S.tol (s.x i) (N.lbx i) (N.ubx i)) X LG LX)
    (X' : Fin N.nx → ℝ) (LG' : Fin N.ng → ℝ) (LX' : Fin N.nx → ℝ) (hX : HasDerivAt X X' 0) (hG : HasDerivAt LG LG' 0) (hLX : HasDerivAt LX LX' 0) :
    (∀ i : Fin N.nx, N.depX i = true → o.dx i k = some (X' i)) ∧
    (∀ c : Fin N.ng, o.dlam c k = some (LG' c)) ∧
    (∀ i : Fin N.nx, o.dlam (N.ng + i) k = some (LX' i)) := by
  obtain ⟨c1, -, -, hR⟩ := C91_certificate N hdep S C lin lstsq hlin hcomp s p st st' o h hC hlicq h2
  obtain ⟨hd, hst⟩ := differentiateSt_ok N S C lin lstsq s p st st' o h
  have hs : o.solved = true := by
    have h' : differentiateSt N S { C with residuals := true } lin lstsq s p st =
        (.ok o, (differentiateSt N S { C with residuals := true } lin lstsq s p st).2) := by simp only [differentiateSt, hd]
    have e := (C91_residual N hdep S _ lin lstsq s p st _ o h' rfl).1
    rw [← e, ← c1, hst]
    simp only [differentiateSt, hd]
    split <;> rfl
  exact C59_derivative_partial N hdep S lin lstsq hlin hls s p o hd hs grad g hD k hR X LG LX hP X' LG' LX' hX hG hLX

theorem st_of_ok (N : Nlp K) (S : Settings K) (C : Checks) (lin lstsq : LinSolver K) (s : Sol K) (p : List K) (st : Status K) (o : Out K)
    (h : differentiate N S lin lstsq s p = .ok o) :
    differentiateSt N S C lin lstsq s p st = (.ok o, (differentiateSt N S C lin lstsq s p st).2) := by simp only [differentiateSt, h]

/-! ### Counterexamples -/

/-- one variable, one constraint `g = x²/2 ≥ 0` with the gradient `x` -/
def stN : Nlp ℚ where
  nx := 1
  ng := 1
  np := 1
  depX := fun _ => true
  depP := fun _ => true
  lbx := fun _ => none
  ubx := fun _ => none
  lbg := fun _ => some 0
  ubg := fun _ => none
  hxx := fun _ l _ _ _ => 1 + l 0
  hxp := fun _ _ _ _ _ => -1
  jac := fun x _ _ _ => x 0
  jacP := fun _ _ _ _ => 0

theorem stN_depends : DependsCorrect stN := by
  constructor
  · intro x l p i j _ h; cases h
  · intro x l p i j _ h; cases h
  · intro x l p i j _ h; cases h
  · intro x l p i j _ h; cases h
  · intro x p i j _ h; cases h
  · intro x p i j _ h; cases h
  · intro x x' l p p' hx hp
    refine ⟨rfl, rfl, ?_, rfl⟩
    funext c j
    exact hx 0 (by decide) rfl

/-- all checks off -/
def noChecks : Checks := ⟨false, false, false, false⟩
/-- two calls: at `x = 1` where no constraint is active, with the checks of the default settings; at `x = 0`, without -/
def stCall (x g : ℚ) (C : Checks) : Call ℚ := ⟨⟨1 / 1000000, false, false⟩, C, ⟨fun _ => x, fun _ => g, fun _ => 0, fun _ => 0⟩, [x]⟩

theorem stN_returns (lin lstsq : LinSolver ℚ) (x g : ℚ) (C : Checks) : Returns stN lin lstsq (stCall x g C) := by
  refine ⟨core stN (stCall x g C).set lin lstsq (stCall x g C).sol fun i => (stCall x g C).p.getD i 0, ?_⟩
  unfold differentiate
  dsimp only
  rw [if_neg (by decide), if_neg (by simp [stCall, stN]), if_neg (by simp [stCall])]

/-- **C91 is false** ("`None` if condition is not checked"): after a call that checked the constraint qualification, a call without the check leaves the
old result in place - here true, although at the point of the last call the gradient of the active constraint vanishes. -/
theorem C91_fails_stale (lin lstsq : LinSolver ℚ) :
    let last := stCall 0 0 noChecks
    Returns stN lin lstsq last ∧ last.checks.licq = false ∧
    (statusAfter stN lin lstsq Status.init [stCall 1 (1 / 2) Checks.default, last]).licq = some true ∧
    ¬ LICQ stN last.sol.x (fun i => last.p.getD i 0) (fun c => AtBound last.set.tol (last.sol.g c) (stN.lbg c) (stN.ubg c))
      (fun i => AtBound last.set.tol (last.sol.x i) (stN.lbx i) (stN.ubx i)) := by
  dsimp only
  refine ⟨stN_returns .., rfl, ?_, ?_⟩
  · have hh := (C91_history_partial stN lin lstsq [] [stCall 0 0 noChecks] (stCall 1 (1 / 2) Checks.default) (stN_returns ..)).1 rfl
      (fun c' hc' _ => by rw [List.mem_singleton.1 hc']; rfl)
    refine hh.trans ?_
    obtain ⟨o, ho⟩ := stN_returns lin lstsq 1 (1 / 2) Checks.default
    have hst : differentiateSt stN (stCall 1 (1 / 2) Checks.default).set (stCall 1 (1 / 2) Checks.default).checks lin lstsq (stCall 1 (1 / 2) Checks.default).sol
        (stCall 1 (1 / 2) Checks.default).p Status.init = (.ok o, (differentiateSt stN (stCall 1 (1 / 2) Checks.default).set
          (stCall 1 (1 / 2) Checks.default).checks lin lstsq (stCall 1 (1 / 2) Checks.default).sol (stCall 1 (1 / 2) Checks.default).p Status.init).2) := by
      simp only [differentiateSt, ho]
    obtain ⟨b, hb, hbi⟩ := C91_licq stN stN_depends _ _ lin lstsq _ _ _ _ o hst rfl
    rw [hb, hbi.2]
    intro muG muX h1 h2 h3
    refine ⟨fun c hc => h2 c hc ?_, fun i hi => h3 i hi ?_⟩
    · rintro ⟨b, hb, ht⟩
      have : b = 0 := by
        rcases hb with hb | hb
        · exact (Option.some.inj hb).symm
        · cases hb
      subst this
      have ht' : |(1 / 2 : ℚ) - 0| ≤ 1 / 1000000 := ht
      exact absurd ht' (by decide +kernel)
    · rintro ⟨b, hb | hb, -⟩ <;> cases hb
  · intro hL
    have := (hL (fun _ => 1) (fun _ => 0) (fun i _ => by simp [stN, stCall]) (fun c _ hn => absurd (⟨0, Or.inl rfl, (by decide +kernel : |(0 : ℚ) - 0| ≤ 1 / 1000000)⟩ : AtBound _ _ _ _) hn)
      (fun _ _ _ => rfl)).1 0 (by decide)
    exact absurd this (by norm_num)

/-- a variable `x1` that does not occur in the problem, at its bound -/
def scN : Nlp ℚ := { stN with nx := 2, depX := fun i => decide (i = 0), lbx := fun i => if i = 1 then some 0 else none, lbg := fun _ => none, hxx := fun _ _ _ i j => if i = 0 ∧ j = 0 then 1 else 0, hxp := fun _ _ _ i _ => if i = 0 then -1 else 0, jac := fun _ _ _ _ => 0 }

/-- **C91 is false** for strict complementarity of variables that do not occur in the problem: the bound of `x1` is active, its multiplier is zero, and
`status.SC` is true. -/
theorem C91_fails_sc_removed (lin lstsq : LinSolver ℚ) :
    let S : Settings ℚ := ⟨1 / 1000000, false, false⟩
    let s : Sol ℚ := ⟨fun i => if i = 0 then 1 else 0, fun _ => 0, fun _ => 0, fun _ => 0⟩
    ∃ o st', differentiateSt scN S Checks.default lin lstsq s [1] Status.init = (.ok o, st') ∧ st'.sc = some true ∧
      ¬ StrictCompl scN S.tol s (fun c => AtBound S.tol (s.g c) (scN.lbg c) (scN.ubg c)) (fun i => AtBound S.tol (s.x i) (scN.lbx i) (scN.ubx i)) := by
  dsimp only
  have hd : ∃ o, differentiate scN ⟨1 / 1000000, false, false⟩ lin lstsq ⟨fun i => if i = 0 then 1 else 0, fun _ => 0, fun _ => 0, fun _ => 0⟩ [1] = .ok o := by
    refine ⟨mapFull scN (core scN.reduce ⟨1 / 1000000, false, false⟩ lin lstsq
      (reduceSol scN ⟨fun i => if i = 0 then 1 else 0, fun _ => 0, fun _ => 0, fun _ => 0⟩) (takeIdx 0 (detIdx scN.np scN.depP) fun i => [(1 : ℚ)].getD i 0)), ?_⟩
    unfold differentiate
    dsimp only
    rw [if_pos (by decide +kernel), if_neg (by decide +kernel), if_neg (by decide)]
  obtain ⟨o, ho⟩ := hd
  have hst : differentiateSt scN ⟨1 / 1000000, false, false⟩ Checks.default lin lstsq ⟨fun i => if i = 0 then 1 else 0, fun _ => 0, fun _ => 0, fun _ => 0⟩ [1] Status.init =
      (.ok o, (differentiateSt scN ⟨1 / 1000000, false, false⟩ Checks.default lin lstsq ⟨fun i => if i = 0 then 1 else 0, fun _ => 0, fun _ => 0, fun _ => 0⟩ [1] Status.init).2) := by
    simp only [differentiateSt, ho]
  obtain ⟨b, hb, hbi⟩ := C91_sc_partial scN _ _ lin lstsq _ _ _ _ o hst rfl
  refine ⟨o, _, hst, ?_, ?_⟩
  · rw [hb, hbi.2]
    refine ⟨fun c _ => ?_, fun i hi => ?_⟩
    · rintro ⟨b, hb | hb, -⟩ <;> cases hb
    · rintro ⟨hd, b, hb, -⟩
      have h0 : i = 0 := of_decide_eq_true hd
      subst h0
      rcases hb with hb | hb <;> simp [scN, stN] at hb
  · rintro ⟨-, hx⟩
    have := hx 1 (by decide) ⟨0, Or.inl rfl, by decide +kernel⟩
    revert this
    decide +kernel

/-- `min p x` over `x` without constraints: no sensitivity exists -/
def unN : Nlp ℚ := { stN with ng := 0, hxx := fun _ _ _ _ _ => 0, hxp := fun _ _ _ _ _ => 1, jac := fun _ _ _ _ => 0 }

/-- **C91 is false** ("`True` if the system is solved successfully"): with a solver that always returns, such as least squares, `status.lse_solved` is true
although the linear system has no solution - and then the residual is not zero. -/
theorem C91_fails_lse (lin lstsq : LinSolver ℚ) (hret : ∀ n m A R, (lin n m A R).isSome = true) :
    let S : Settings ℚ := ⟨1 / 1000000, false, false⟩
    let s : Sol ℚ := ⟨fun _ => 0, fun _ => 0, fun _ => 0, fun _ => 0⟩
    ∃ o st', differentiateSt unN S Checks.default lin lstsq s [0] Status.init = (.ok o, st') ∧ st'.lseSolved = true ∧ st'.residual ≠ some (some 0) ∧
      ¬ ∃ dx dG dX, LinearizedKkt unN s.x s.lamG (fun i => [(0 : ℚ)].getD i 0) (fun c => AtBound S.tol (s.g c) (unN.lbg c) (unN.ubg c))
        (fun i => AtBound S.tol (s.x i) (unN.lbx i) (unN.ubx i)) dx dG dX 0 := by
  dsimp only
  have hno : ¬ ∃ dx dG dX, LinearizedKkt unN (fun _ => 0) (fun _ => 0) (fun i => [(0 : ℚ)].getD i 0) (fun c => AtBound (1 / 1000000) 0 (unN.lbg c) (unN.ubg c))
        (fun i => AtBound (1 / 1000000) 0 (unN.lbx i) (unN.ubx i)) dx dG dX 0 := by
    rintro ⟨dx, dG, dX, hK⟩
    have h1 := hK.stationarity 0 (by decide)
    have h2 := hK.inactiveX 0 (by decide) (by rintro ⟨b, hb | hb, -⟩ <;> cases hb)
    simp [unN, stN, h2] at h1
  have hdep : DependsCorrect unN := by
    constructor
    · intro x l p i j _ h; cases h
    · intro x l p i j _ h; cases h
    · intro x l p i j _ h; cases h
    · intro x l p i j _ h; cases h
    · intro x p i j _ h; cases h
    · intro x p i j _ h; cases h
    · intro x x' l p p' hx hp
      exact ⟨rfl, rfl, rfl, rfl⟩
  have ho : differentiate unN ⟨1 / 1000000, false, false⟩ lin lstsq ⟨fun _ => 0, fun _ => 0, fun _ => 0, fun _ => 0⟩ [0] =
      .ok (core unN ⟨1 / 1000000, false, false⟩ lin lstsq ⟨fun _ => 0, fun _ => 0, fun _ => 0, fun _ => 0⟩ fun i => [(0 : ℚ)].getD i 0) := by
    unfold differentiate
    dsimp only
    rw [if_neg (by decide), if_neg (by simp [unN, stN]), if_neg (by simp)]
  refine ⟨_, _, by rw [differentiateSt, ho], ?_, ?_, hno⟩
  · rw [if_neg (by decide)]
    show (solveSystem ..).isSome = true
    unfold solveSystem
    dsimp only
    obtain ⟨sv, hsv⟩ := Option.isSome_iff_exists.1 (hret (keepIdx unN (consActive unN (1 / 1000000) ⟨fun _ => 0, fun _ => 0, fun _ => 0, fun _ => 0⟩)).length unN.np
      (takeMat (keepIdx unN (consActive unN (1 / 1000000) ⟨fun _ => 0, fun _ => 0, fun _ => 0, fun _ => 0⟩))
        (keepIdx unN (consActive unN (1 / 1000000) ⟨fun _ => 0, fun _ => 0, fun _ => 0, fun _ => 0⟩))
        (kktA unN (fun _ => 0) (fun _ => 0) fun i => [(0 : ℚ)].getD i 0))
      fun a k => - kktB unN (fun _ => 0) (fun _ => 0) (fun i => [(0 : ℚ)].getD i 0)
        ((keepIdx unN (consActive unN (1 / 1000000) ⟨fun _ => 0, fun _ => 0, fun _ => 0, fun _ => 0⟩)).getD a 0) k)
    rw [hsv]
    rfl
  · intro hres
    have h' := st_of_ok unN _ Checks.default lin lstsq _ _ Status.init _ ho
    have hres : (differentiateSt unN ⟨1 / 1000000, false, false⟩ Checks.default lin lstsq ⟨fun _ => 0, fun _ => 0, fun _ => 0, fun _ => 0⟩ [0]
      Status.init).2.residual = some (some 0) := by
      rw [differentiateSt, ho]; exact hres
    obtain ⟨dx, dlam, -, -, hK⟩ := (((C91_residual unN hdep _ _ lin lstsq _ _ _ _ _ h' rfl).2).1 hres).2 0 (by decide)
    exact hno ⟨_, _, _, hK⟩

/-! ### Non-vacuity -/

/-- a call of `stN` at `x = 1`, constraint active up to a large tolerance: the qualification and the condition of second order hold, so that the
certificate applies -/
example : ∃ o st', differentiateSt stN ⟨1, false, false⟩ ⟨true, true, true, true⟩ exactSolver exactSolver ⟨fun _ => 1, fun _ => 1 / 2, fun _ => 2, fun _ => 0⟩ [1]
      Status.init = (.ok o, st') ∧ st'.licq = some true ∧ st'.sc = some true ∧ st'.lseSolved = true ∧ st'.fullRank = some true ∧ st'.residual = some (some 0) := by
  have ho : differentiate stN ⟨1, false, false⟩ exactSolver exactSolver ⟨fun _ => 1, fun _ => 1 / 2, fun _ => 2, fun _ => 0⟩ [1] =
      .ok (core stN ⟨1, false, false⟩ exactSolver exactSolver ⟨fun _ => 1, fun _ => 1 / 2, fun _ => 2, fun _ => 0⟩ fun i => [(1 : ℚ)].getD i 0) := by
    unfold differentiate
    dsimp only
    rw [if_neg (by decide), if_neg (by simp [stN]), if_neg (by simp)]
  have h' := st_of_ok stN _ ⟨true, true, true, true⟩ exactSolver exactSolver _ _ Status.init _ ho
  have hact : AtBound (1 : ℚ) (1 / 2) (some 0) none := ⟨0, Or.inl rfl, by decide +kernel⟩
  have hina : ¬ AtBound (1 : ℚ) 1 none none := by rintro ⟨b, hb | hb, -⟩ <;> cases hb
  obtain ⟨b, hb, hbi⟩ := C91_licq stN stN_depends _ _ exactSolver exactSolver _ _ _ _ _ h' rfl
  obtain ⟨b', hb', hbi'⟩ := C91_sc_partial stN _ _ exactSolver exactSolver _ _ _ _ _ h' rfl
  have hbt : b = true := by
    refine hbi.2 fun muG muX h1 _ h3 => ?_
    have hx : ∀ i < stN.nx, muX i = 0 := fun i hi => h3 i hi hina
    refine ⟨fun c hc => ?_, hx⟩
    have hc0 : c = 0 := by simpa [stN] using hc
    have e := h1 0 (by decide)
    rw [hx 0 (by decide)] at e
    subst hc0
    simpa [stN] using e
  have hbt' : b' = true := by
    refine hbi'.2 ⟨fun c _ _ => (by decide +kernel : (1 : ℚ) ≤ |2|), fun i _ h => absurd h.2 hina⟩
  subst hbt
  subst hbt'
  obtain ⟨c1, c2, c3, -⟩ := C91_certificate stN stN_depends _ _ exactSolver exactSolver exactSolver_solves exactSolver_complete _ _ _ _ _ h' rfl hb (by
    intro d h1 _ h3
    obtain ⟨i, hi, -, hne⟩ := h3
    have hi0 : i = 0 := by simpa [stN] using hi
    subst hi0
    have e := h1 0 (by decide) hact
    simp [stN] at e
    exact absurd e hne)
  exact ⟨_, _, h', hb, hb', c1, c2 rfl, c3 rfl⟩

end DoMpc.Diff
