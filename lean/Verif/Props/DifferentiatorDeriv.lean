import Verif.Props.Differentiator
import Mathlib.Analysis.Calculus.Deriv.Prod
import Mathlib.Analysis.Calculus.Deriv.Pi
import Mathlib.Analysis.Calculus.Deriv.Comp
import Mathlib.Analysis.Calculus.Deriv.Add
import Mathlib.Analysis.Calculus.Deriv.Mul
import Mathlib.Tactic.LinearCombination
import Mathlib.Tactic.Positivity
import Mathlib.Tactic.NormNum
import Mathlib.Analysis.Calculus.FDeriv.Prod

/-!
# Sensitivities are derivatives of the solution (C59)
-/
set_option linter.unusedSectionVars false
namespace DoMpc.Diff

open scoped BigOperators Topology
open Spec Filter

/-- the first entries of a vector -/
def toFin (n : Nat) (v : Nat → ℝ) : Fin n → ℝ := fun i => v i

/-- The matrices of the NLP are the derivatives of `grad` (the gradient of `f + lam_g' g` with respect to `x`) and of `g` at a point: the contract of
CasADi's differentiation. -/
structure Derivatives (N : Nlp ℝ) (grad : (Fin N.nx → ℝ) × (Fin N.ng → ℝ) × (Fin N.np → ℝ) → Fin N.nx → ℝ)
    (g : (Fin N.nx → ℝ) × (Fin N.np → ℝ) → Fin N.ng → ℝ) (x l p : Nat → ℝ) : Prop where
  grad : ∀ i : Fin N.nx, ∃ D : (Fin N.nx → ℝ) × (Fin N.ng → ℝ) × (Fin N.np → ℝ) →L[ℝ] ℝ,
    HasFDerivAt (fun z => grad z i) D (toFin _ x, toFin _ l, toFin _ p) ∧
    ∀ dx dl dp, D (dx, dl, dp) = ∑ j : Fin N.nx, N.hxx x l p i j * dx j + ∑ c : Fin N.ng, N.jac x p c i * dl c + ∑ k : Fin N.np, N.hxp x l p i k * dp k
  g : ∀ c : Fin N.ng, ∃ D : (Fin N.nx → ℝ) × (Fin N.np → ℝ) →L[ℝ] ℝ,
    HasFDerivAt (fun z => g z c) D (toFin _ x, toFin _ p) ∧
    ∀ dx dp, D (dx, dp) = ∑ j : Fin N.nx, N.jac x p c j * dx j + ∑ k : Fin N.np, N.jacP x p c k * dp k

/-- the parameters moved in direction `k` -/
def move (n : Nat) (p : Nat → ℝ) (k : Fin n) (t : ℝ) : Fin n → ℝ := fun i => p i + t * if i = k then 1 else 0

/-- A path of solutions through `s`: for parameters close to `p` the conditions of first order hold with the same active set. -/
structure SolutionPath (N : Nlp ℝ) (grad : (Fin N.nx → ℝ) × (Fin N.ng → ℝ) × (Fin N.np → ℝ) → Fin N.nx → ℝ)
    (g : (Fin N.nx → ℝ) × (Fin N.np → ℝ) → Fin N.ng → ℝ) (s : Sol ℝ) (p : Nat → ℝ) (k : Fin N.np) (actG actX : Nat → Prop)
    (X : ℝ → Fin N.nx → ℝ) (LG : ℝ → Fin N.ng → ℝ) (LX : ℝ → Fin N.nx → ℝ) : Prop where
  startX : X 0 = toFin _ s.x
  startG : LG 0 = toFin _ s.lamG
  stationarity : ∀ᶠ t in 𝓝 (0 : ℝ), ∀ i, grad (X t, LG t, move _ p k t) i + LX t i = 0
  activeG : ∀ c : Fin N.ng, actG c → ∃ b, ∀ᶠ t in 𝓝 (0 : ℝ), g (X t, move _ p k t) c = b
  activeX : ∀ i : Fin N.nx, actX i → ∃ b, ∀ᶠ t in 𝓝 (0 : ℝ), X t i = b
  inactiveG : ∀ c : Fin N.ng, ¬ actG c → ∀ᶠ t in 𝓝 (0 : ℝ), LG t c = 0
  inactiveX : ∀ i : Fin N.nx, ¬ actX i → ∀ᶠ t in 𝓝 (0 : ℝ), LX t i = 0

/-- a vector of `Fin n` as one on the natural numbers -/
def ofFin {n : Nat} (v : Fin n → ℝ) : Nat → ℝ := fun i => if h : i < n then v ⟨i, h⟩ else 0

theorem ofFin_val {n : Nat} (v : Fin n → ℝ) (i : Nat) (h : i < n) : ofFin v i = v ⟨i, h⟩ := by simp [ofFin, h]

theorem deriv_const_of_eventually {f : ℝ → ℝ} {d b : ℝ} (h : HasDerivAt f d 0) (hb : ∀ᶠ t in 𝓝 (0 : ℝ), f t = b) : d = 0 := by
  have h1 : HasDerivAt f 0 0 := (hasDerivAt_const (0 : ℝ) b).congr_of_eventuallyEq hb
  exact h.unique h1

theorem hasDerivAt_move (n : Nat) (p : Nat → ℝ) (k : Fin n) : HasDerivAt (move n p k) (fun i => if i = k then 1 else 0) 0 := by
  rw [hasDerivAt_pi]
  intro i
  have h := ((hasDerivAt_id (0 : ℝ)).mul_const (if i = k then (1 : ℝ) else 0)).const_add (p i)
  simpa [move] using h

/-- The derivative of a path of solutions satisfies the linearised conditions. -/
theorem path_kkt (N : Nlp ℝ) (grad) (g) (s : Sol ℝ) (p : Nat → ℝ) (hD : Derivatives N grad g s.x s.lamG p) (k : Fin N.np) (actG actX : Nat → Prop)
    (X : ℝ → Fin N.nx → ℝ) (LG : ℝ → Fin N.ng → ℝ) (LX : ℝ → Fin N.nx → ℝ) (hP : SolutionPath N grad g s p k actG actX X LG LX)
    (X' : Fin N.nx → ℝ) (LG' : Fin N.ng → ℝ) (LX' : Fin N.nx → ℝ) (hX : HasDerivAt X X' 0) (hG : HasDerivAt LG LG' 0) (hLX : HasDerivAt LX LX' 0) :
    LinearizedKkt N s.x s.lamG p actG actX (ofFin X') (ofFin LG') (ofFin LX') k := by
  have hm := hasDerivAt_move N.np p k
  have hX0 : X 0 = toFin _ s.x := hP.startX
  have hG0 : LG 0 = toFin _ s.lamG := hP.startG
  have hm0 : move N.np p k 0 = toFin _ p := by funext i; simp [move, toFin]
  have sumX : ∀ F : Nat → ℝ, ∑ j ∈ Finset.range N.nx, F j * ofFin X' j = ∑ j : Fin N.nx, F j * X' j := by
    intro F
    rw [Finset.sum_range]
    apply Finset.sum_congr rfl
    intro j _
    rw [ofFin_val _ _ j.2]
  have sumG : ∀ F : Nat → ℝ, ∑ c ∈ Finset.range N.ng, F c * ofFin LG' c = ∑ c : Fin N.ng, F c * LG' c := by
    intro F
    rw [Finset.sum_range]
    apply Finset.sum_congr rfl
    intro j _
    rw [ofFin_val _ _ j.2]
  have sumP : ∀ F : Nat → ℝ, ∑ i : Fin N.np, F i * (if i = k then 1 else 0) = F k := by
    intro F
    simp
  refine ⟨?_, ?_, ?_, ?_, ?_⟩
  · intro i hi
    obtain ⟨D, hd, hDe⟩ := hD.grad ⟨i, hi⟩
    have hcurve : HasDerivAt (fun t => (X t, LG t, move N.np p k t)) (X', LG', fun j => if j = k then (1 : ℝ) else 0) 0 :=
      hX.prodMk (hG.prodMk hm)
    have h1 : HasDerivAt (fun t => grad (X t, LG t, move N.np p k t) ⟨i, hi⟩) (D (X', LG', fun j => if j = k then (1 : ℝ) else 0)) 0 := by
      have hd' : HasFDerivAt (fun z => grad z ⟨i, hi⟩) D ((fun t => (X t, LG t, move N.np p k t)) 0) := by
        simp only [hX0, hG0, hm0]; exact hd
      exact hd'.comp_hasDerivAt 0 hcurve
    have h2 : HasDerivAt (fun t => LX t ⟨i, hi⟩) (LX' ⟨i, hi⟩) 0 := (hasDerivAt_pi.1 hLX) ⟨i, hi⟩
    have h3 := deriv_const_of_eventually (h1.add h2) (hP.stationarity.mono fun t ht => ht ⟨i, hi⟩)
    rw [hDe] at h3
    rw [sumX (fun j => N.hxx s.x s.lamG p i j), sumG (fun c => N.jac s.x p c i), ofFin_val _ _ hi]
    have h4 := sumP (fun j => N.hxp s.x s.lamG p i j)
    rw [h4] at h3
    linarith [h3]
  · intro c hc hac
    obtain ⟨b, hb⟩ := hP.activeG ⟨c, hc⟩ hac
    obtain ⟨D, hd, hDe⟩ := hD.g ⟨c, hc⟩
    have hcurve : HasDerivAt (fun t => (X t, move N.np p k t)) (X', fun j => if j = k then (1 : ℝ) else 0) 0 := hX.prodMk hm
    have h1 : HasDerivAt (fun t => g (X t, move N.np p k t) ⟨c, hc⟩) (D (X', fun j => if j = k then (1 : ℝ) else 0)) 0 := by
      have hd' : HasFDerivAt (fun z => g z ⟨c, hc⟩) D ((fun t => (X t, move N.np p k t)) 0) := by
        simp only [hX0, hm0]; exact hd
      exact hd'.comp_hasDerivAt 0 hcurve
    have h3 := deriv_const_of_eventually h1 hb
    rw [hDe] at h3
    rw [sumX (fun j => N.jac s.x p c j)]
    have h4 := sumP (fun j => N.jacP s.x p c j)
    rw [h4] at h3
    exact h3
  · intro i hi hai
    obtain ⟨b, hb⟩ := hP.activeX ⟨i, hi⟩ hai
    rw [ofFin_val _ _ hi]
    exact deriv_const_of_eventually ((hasDerivAt_pi.1 hX) ⟨i, hi⟩) hb
  · intro c hc hac
    rw [ofFin_val _ _ hc]
    exact deriv_const_of_eventually ((hasDerivAt_pi.1 hG) ⟨c, hc⟩) (hP.inactiveG ⟨c, hc⟩ hac)
  · intro i hi hai
    rw [ofFin_val _ _ hi]
    exact deriv_const_of_eventually ((hasDerivAt_pi.1 hLX) ⟨i, hi⟩) (hP.inactiveX ⟨i, hi⟩ hai)

/-- Two solutions of the linearised conditions of a regular problem agree. -/
theorem kkt_unique {K : Type} [Field K] [LinearOrder K] [IsStrictOrderedRing K] (N : Nlp K) (x l p : Nat → K) (aG aX : Nat → Prop)
    (hr : Regular N x l p aG aX) (k : Nat) (dx dG dX dx' dG' dX' : Nat → K)
    (h : LinearizedKkt N x l p aG aX dx dG dX k) (h' : LinearizedKkt N x l p aG aX dx' dG' dX' k) :
    (∀ i < N.nx, N.depX i = true → dx i = dx' i) ∧ (∀ c < N.ng, dG c = dG' c) ∧ ∀ i < N.nx, dX i = dX' i := by
  have hs : ∀ (n : Nat) (F a b : Nat → K), ∑ j ∈ Finset.range n, F j * (a j - b j) = ∑ j ∈ Finset.range n, F j * a j - ∑ j ∈ Finset.range n, F j * b j := by
    intro n F a b
    rw [← Finset.sum_sub_distrib]
    apply Finset.sum_congr rfl
    intro j _
    ring
  obtain ⟨r1, r2, r3⟩ := hr (fun i => dx i - dx' i) (fun c => dG c - dG' c) (fun i => dX i - dX' i)
    (by
      intro i hi
      rw [hs, hs]
      have e1 := h.stationarity i hi
      have e2 := h'.stationarity i hi
      linear_combination e1 - e2)
    (by
      intro c hc ha
      rw [hs]
      have e1 := h.activeG c hc ha
      have e2 := h'.activeG c hc ha
      linear_combination e1 - e2)
    (by intro i hi ha; simp [h.activeX i hi ha, h'.activeX i hi ha])
    (by intro i hi ha; simp [h.inactiveG i hi ha, h'.inactiveG i hi ha])
    (by intro i hi ha; simp [h.inactiveX i hi ha, h'.inactiveX i hi ha])
  exact ⟨fun i hi hd => sub_eq_zero.1 (r1 i hi hd), fun c hc => sub_eq_zero.1 (r2 c hc), fun i hi => sub_eq_zero.1 (r3 i hi)⟩

/-- **C59** (partial).  Let the solution depend differentiably on parameter `k`, with the same active set close to `p` and that active set found by the
tolerance, and let the linearised conditions be regular.  Then the returned entries are the derivatives of the solution and of the multipliers
(for variables that occur in the problem).  Missing: without these premises the claim is false (`C59_fails_tolerance`, `C59_fails_stale_bounds`). -/
theorem C59_derivative_partial (N : Nlp ℝ) (hdep : DependsCorrect N) (S : Settings ℝ) (lin lstsq : LinSolver ℝ) (hlin : Solves lin)
    (hls : S.lstsqFallback = true → Solves lstsq) (s : Sol ℝ) (p : List ℝ) (o : Out ℝ) (h : differentiate N S lin lstsq s p = .ok o)
    (hsolved : o.solved = true) (grad) (g) (hD : Derivatives N grad g s.x s.lamG (fun i => p.getD i 0)) (k : Fin N.np)
    (hR : Regular N s.x s.lamG (fun i => p.getD i 0) (fun c => AtBound S.tol (s.g c) (N.lbg c) (N.ubg c))
      (fun i => AtBound S.tol (s.x i) (N.lbx i) (N.ubx i)))
    (X : ℝ → Fin N.nx → ℝ) (LG : ℝ → Fin N.ng → ℝ) (LX : ℝ → Fin N.nx → ℝ)
    (hP : SolutionPath N grad g s (fun i => p.getD i 0) k (fun c => AtBound S.tol (s.g c) (N.lbg c) (N.ubg c))
      (fun i => AtBound S.tol (s.x i) (N.lbx i) (N.ubx i)) X LG LX)
    (X' : Fin N.nx → ℝ) (LG' : Fin N.ng → ℝ) (LX' : Fin N.nx → ℝ) (hX : HasDerivAt X X' 0) (hG : HasDerivAt LG LG' 0) (hLX : HasDerivAt LX LX' 0) :
    (∀ i : Fin N.nx, N.depX i = true → o.dx i k = some (X' i)) ∧
    (∀ c : Fin N.ng, o.dlam c k = some (LG' c)) ∧
    (∀ i : Fin N.nx, o.dlam (N.ng + i) k = some (LX' i)) := by
  obtain ⟨dx, dlam, e1, e2, hK⟩ := C58_linearized_kkt N hdep S lin lstsq hlin hls s p o h hsolved k k.2
  have hK' := path_kkt N grad g s _ hD k _ _ X LG LX hP X' LG' LX' hX hG hLX
  obtain ⟨u1, u2, u3⟩ := kkt_unique N _ _ _ _ _ hR k _ _ _ _ _ _ hK hK'
  refine ⟨?_, ?_, ?_⟩
  · intro i hd
    rw [e1 i i.2, u1 i i.2 hd, ofFin_val _ _ i.2]
  · intro c
    rw [e2 c (by omega), u2 c c.2, ofFin_val _ _ c.2]
  · intro i
    rw [e2 _ (by omega), u3 i i.2, ofFin_val _ _ i.2]

/-- **C59** for `do_mpc` objects (partial): the rows returned by `DoMPCDifferentiator.differentiate` are the derivatives of the unscaled variables. -/
theorem C59_do_mpc_partial (N : Nlp ℝ) (c : Nat → ℝ) (hdep : DependsCorrect N) (S : Settings ℝ) (lin lstsq : LinSolver ℝ) (hlin : Solves lin)
    (hls : S.lstsqFallback = true → Solves lstsq) (s : Sol ℝ) (p : List ℝ) (o : Out ℝ) (h : doDifferentiate N c S lin lstsq s p = .ok o)
    (hsolved : o.solved = true) (grad) (g) (hD : Derivatives N grad g s.x s.lamG (fun i => p.getD i 0)) (k : Fin N.np)
    (hR : Regular N s.x s.lamG (fun i => p.getD i 0) (fun c => AtBound S.tol (s.g c) (N.lbg c) (N.ubg c))
      (fun i => AtBound S.tol (s.x i) (N.lbx i) (N.ubx i)))
    (X : ℝ → Fin N.nx → ℝ) (LG : ℝ → Fin N.ng → ℝ) (LX : ℝ → Fin N.nx → ℝ)
    (hP : SolutionPath N grad g s (fun i => p.getD i 0) k (fun c => AtBound S.tol (s.g c) (N.lbg c) (N.ubg c))
      (fun i => AtBound S.tol (s.x i) (N.lbx i) (N.ubx i)) X LG LX)
    (X' : Fin N.nx → ℝ) (LG' : Fin N.ng → ℝ) (LX' : Fin N.nx → ℝ) (hX : HasDerivAt X X' 0) (hG : HasDerivAt LG LG' 0) (hLX : HasDerivAt LX LX' 0)
    (i : Fin N.nx) (hd : N.depX i = true) :
    ∃ d, o.dx i k = some d ∧ HasDerivAt (fun t => c i * X t i) d 0 := by
  unfold doDifferentiate at h
  cases hq : differentiate N S lin lstsq s p with
  | error e => rw [hq] at h; cases h
  | ok o' =>
    rw [hq] at h
    obtain rfl := Except.ok.inj h
    have := (C59_derivative_partial N hdep S lin lstsq hlin hls s p o' hq hsolved grad g hD k hR X LG LX hP X' LG' LX' hX hG hLX).1 i hd
    refine ⟨c i * X' i, by simp [rescale, this], ?_⟩
    exact ((hasDerivAt_pi.1 hX) i).const_mul (c i)

/-! ### A linear solver that satisfies the contract, and examples -/

/-- An exact solver: a solution if there is one. -/
noncomputable def exactSolver {K : Type} [Field K] : LinSolver K := fun n m A R =>
  open Classical in
  if h : ∃ s : Nat → Nat → K, ∀ a < n, ∀ k < m, ∑ b ∈ Finset.range n, A a b * s b k = R a k then some h.choose else none

theorem exactSolver_solves {K : Type} [Field K] [LinearOrder K] [IsStrictOrderedRing K] : Solves (exactSolver (K := K)) := by
  intro n m A R s h
  unfold exactSolver at h
  split at h
  · rename_i hx
    obtain rfl := Option.some.inj h
    exact hx.choose_spec
  · cases h

theorem exactSolver_solved {K : Type} [Field K] [LinearOrder K] [IsStrictOrderedRing K] (N : Nlp K) (S : Settings K) (lstsq : LinSolver K) (s : Sol K)
    (p : Nat → K) (dx dlam : Nat → Nat → K)
    (h : ∀ k < N.np, LinearizedKkt N s.x s.lamG p (fun c => AtBound S.tol (s.g c) (N.lbg c) (N.ubg c))
      (fun i => AtBound S.tol (s.x i) (N.lbx i) (N.ubx i)) (fun i => dx i k) (fun m => dlam m k) (fun i => dlam (N.ng + i) k) k) :
    (core N S exactSolver lstsq s p).solved = true := by
  have hn := nodup_consActive N S.tol s
  set act := consActive N S.tol s with hact
  have hMem : ∀ m, m ∈ act ↔ m < N.ng + N.nx ∧ ActiveCons N S.tol s m := mem_consActive N S.tol s
  let sv : Nat → Nat → K := fun a k => if a < N.nx then dx a k else dlam (act.getD (a - N.nx) 0) k
  have hsol : ∀ a < (keepIdx N act).length, ∀ k < N.np, ∑ b ∈ Finset.range (keepIdx N act).length,
      takeMat (keepIdx N act) (keepIdx N act) (kktA N s.x s.lamG p) a b * sv b k = - kktB N s.x s.lamG p ((keepIdx N act).getD a 0) k := by
    intro a ha k hk
    refine (system_kkt N s.x s.lamG p act hn (fun m hm => ((hMem m).1 hm).1) (fun a => sv a k) k).2 ?_ a ha
    have hK := h k hk
    have hdl : ∀ m, m ∈ act → sv (N.nx + act.idxOf m) k = dlam m k := by
      intro m hm
      have hl := List.idxOf_lt_length_of_mem hm
      simp [sv, List.getD_eq_getElem?_getD, hl]
    have hG : ∀ c < N.ng, (c ∈ act ↔ AtBound S.tol (s.g c) (N.lbg c) (N.ubg c)) := by
      intro c hc
      rw [hMem]; simp [ActiveCons, hc]; omega
    have hX : ∀ i < N.nx, (N.ng + i ∈ act ↔ AtBound S.tol (s.x i) (N.lbx i) (N.ubx i)) := by
      intro i hi
      rw [hMem]; simp [ActiveCons, hi]
    have hsvx : ∀ j < N.nx, sv j k = dx j k := by intro j hj; simp [sv, hj]
    have eG : ∀ c < N.ng, (if c ∈ act then sv (N.nx + act.idxOf c) k else 0) = dlam c k := by
      intro c hc
      split
      · rename_i hm; exact hdl c hm
      · rename_i hm; exact (hK.inactiveG c hc (fun h' => hm ((hG c hc).2 h'))).symm
    have eX : ∀ i < N.nx, (if N.ng + i ∈ act then sv (N.nx + act.idxOf (N.ng + i)) k else 0) = dlam (N.ng + i) k := by
      intro i hi
      split
      · rename_i hm; exact hdl _ hm
      · rename_i hm; exact (hK.inactiveX i hi (fun h' => hm ((hX i hi).2 h'))).symm
    have sx : ∀ F : Nat → K, ∑ j ∈ Finset.range N.nx, F j * sv j k = ∑ j ∈ Finset.range N.nx, F j * dx j k := by
      intro F
      apply Finset.sum_congr rfl
      intro j hj
      rw [hsvx j (Finset.mem_range.1 hj)]
    refine ⟨?_, ?_, ?_, ?_, ?_⟩
    · intro i hi
      have e : ∑ c ∈ Finset.range N.ng, N.jac s.x p c i * (if c ∈ act then sv (N.nx + act.idxOf c) k else 0) =
          ∑ c ∈ Finset.range N.ng, N.jac s.x p c i * dlam c k := by
        apply Finset.sum_congr rfl
        intro c hc
        rw [eG c (Finset.mem_range.1 hc)]
      rw [sx, e, eX i hi]
      exact hK.stationarity i hi
    · intro c hc hm
      rw [sx]
      exact hK.activeG c hc ((hG c hc).1 hm)
    · intro i hi hm
      rw [hsvx i hi]
      exact hK.activeX i hi ((hX i hi).1 hm)
    · intro c hc hm; simp [hm]
    · intro i hi hm; simp [hm]
  show (solveSystem N S exactSolver lstsq s.x s.lamG p act).isSome = true
  unfold solveSystem
  dsimp only
  have hex : ∃ s' : Nat → Nat → K, ∀ a < (keepIdx N act).length, ∀ k < N.np, ∑ b ∈ Finset.range (keepIdx N act).length,
      takeMat (keepIdx N act) (keepIdx N act) (kktA N s.x s.lamG p) a b * s' b k = - kktB N s.x s.lamG p ((keepIdx N act).getD a 0) k := ⟨sv, hsol⟩
  have : exactSolver (keepIdx N act).length N.np (takeMat (keepIdx N act) (keepIdx N act) (kktA N s.x s.lamG p))
      (fun a k => - kktB N s.x s.lamG p ((keepIdx N act).getD a 0) k) = some hex.choose := by
    unfold exactSolver
    rw [dif_pos hex]
  rw [this]
  rfl

/-- `min (x - p)² / 2` subject to `x ≤ ub`; the solution is `min(p, ub)` -/
def exN (ub : ℝ) : Nlp ℝ where
  nx := 1
  ng := 0
  np := 1
  depX := fun _ => true
  depP := fun _ => true
  lbx := fun _ => none
  ubx := fun _ => some ub
  lbg := fun _ => none
  ubg := fun _ => none
  hxx := fun _ _ _ _ _ => 1
  hxp := fun _ _ _ _ _ => -1
  jac := fun _ _ _ _ => 0
  jacP := fun _ _ _ _ => 0

theorem exN_depends (ub : ℝ) : DependsCorrect (exN ub) := by
  constructor <;> simp [exN]

theorem exN_not_reduced (ub : ℝ) : (exN ub).isReduced = false := by simp [Nlp.isReduced, undetIdx, exN]

theorem exN_minimizer (ub p x : ℝ) (hx : x ≤ ub) : (min p ub - p) ^ 2 / 2 ≤ (x - p) ^ 2 / 2 := by
  rcases le_total p ub with h | h
  · rw [min_eq_left h]; simp; positivity
  · rw [min_eq_right h]
    nlinarith

def exSettings (tol : ℝ) : Settings ℝ := ⟨tol, false, false⟩
def exSol (x lam : ℝ) : Sol ℝ := ⟨fun _ => x, fun _ => 0, fun _ => 0, fun _ => lam⟩

theorem exN_differentiate (ub tol x lam p : ℝ) : differentiate (exN ub) (exSettings tol) exactSolver exactSolver (exSol x lam) [p] =
    .ok (core (exN ub) (exSettings tol) exactSolver exactSolver (exSol x lam) fun i => [p].getD i 0) := by
  unfold differentiate
  rw [exN_not_reduced]
  simp [exN, exSettings]

/-- the sensitivity: 0 if the solution is within the tolerance of the bound, else 1 -/
theorem exN_result (ub tol x lam p : ℝ) :
    ∃ o, differentiate (exN ub) (exSettings tol) exactSolver exactSolver (exSol x lam) [p] = .ok o ∧ o.solved = true ∧
      (|x - ub| ≤ tol → o.dx 0 0 = some 0) ∧ (¬ |x - ub| ≤ tol → o.dx 0 0 = some 1) := by
  have hat : AtBound tol x none (some ub) ↔ |x - ub| ≤ tol := by simp [AtBound]
  have hsol : (core (exN ub) (exSettings tol) exactSolver exactSolver (exSol x lam) fun i => [p].getD i 0).solved = true := by
    by_cases ha : |x - ub| ≤ tol
    · refine exactSolver_solved (exN ub) (exSettings tol) exactSolver (exSol x lam) _ (fun _ _ => 0) (fun _ _ => 1) ?_
      intro k hk
      refine ⟨?_, ?_, ?_, ?_, ?_⟩
      · intro i _; simp [exN]
      · intro c hc; exact absurd hc (by simp [exN])
      · intros; rfl
      · intro c hc; exact absurd hc (by simp [exN])
      · intro i _ hi
        exact absurd (hat.2 ha) hi
    · refine exactSolver_solved (exN ub) (exSettings tol) exactSolver (exSol x lam) _ (fun _ _ => 1) (fun _ _ => 0) ?_
      intro k hk
      refine ⟨?_, ?_, ?_, ?_, ?_⟩
      · intro i _; simp [exN]
      · intro c hc; exact absurd hc (by simp [exN])
      · intro i _ hi
        exact absurd (hat.1 hi) ha
      · intro c hc; exact absurd hc (by simp [exN])
      · intros; rfl
  refine ⟨_, exN_differentiate ub tol x lam p, hsol, ?_, ?_⟩
  all_goals
    intro ha
    obtain ⟨dx, dlam, e1, e2, hK⟩ := C58_linearized_kkt (exN ub) (exN_depends ub) (exSettings tol) exactSolver exactSolver exactSolver_solves
      (fun _ => exactSolver_solves) (exSol x lam) [p] _ (exN_differentiate ub tol x lam p) hsol 0 (by simp [exN])
    rw [e1 0 (by simp [exN])]
    congr 1
  · exact hK.activeX 0 (by simp [exN]) (hat.2 ha)
  · have h1 := hK.stationarity 0 (by simp [exN])
    have h2 := hK.inactiveX 0 (by simp [exN]) (fun h' => ha (hat.1 h'))
    simp only [exN, Finset.sum_range_one, Finset.range_zero, Finset.sum_empty] at h1 h2
    rw [h2] at h1
    linarith

/-- **C59 is false** for solutions close to a bound: within the tolerance of a bound that is not active the returned sensitivity is 0, although the
solution `min(p, 1)` moves with the parameter. -/
theorem C59_fails_tolerance (tol : ℝ) (ht : 0 < tol) :
    ∃ p o, differentiate (exN 1) (exSettings tol) exactSolver exactSolver (exSol (min p 1) 0) [p] = .ok o ∧ o.solved = true ∧
      o.dx 0 0 = some 0 ∧ HasDerivAt (fun p => min p (1 : ℝ)) 1 p := by
  obtain ⟨o, h1, h2, h3, -⟩ := exN_result 1 tol (min (1 - tol / 2) 1) 0 (1 - tol / 2)
  refine ⟨1 - tol / 2, o, h1, h2, h3 ?_, ?_⟩
  · rw [min_eq_left (by linarith), abs_le]
    constructor <;> linarith
  · have : (fun p : ℝ => min p 1) =ᶠ[𝓝 (1 - tol / 2)] fun p => p := by
      filter_upwards [Iio_mem_nhds (show 1 - tol / 2 < 1 by linarith)] with q hq
      exact min_eq_left (le_of_lt hq)
    exact (hasDerivAt_id _).congr_of_eventuallyEq this

/-- **C59 is false** after the bounds of the optimizer were changed: `DoMPCDifferentiator` keeps the bounds it read when it was created (5); with the
bound 1 that the optimizer uses now the solution for `p = 3` is 1 and does not move, and the returned sensitivity is 1. -/
theorem C59_fails_stale_bounds :
    ∃ o, doDifferentiate (exN 5) (fun _ => 1) (exSettings (1 / 10)) exactSolver exactSolver (exSol (min 3 1) 2) [3] = .ok o ∧ o.solved = true ∧
      o.dx 0 0 = some 1 ∧ HasDerivAt (fun p => min p (1 : ℝ)) 0 3 := by
  obtain ⟨o, h1, h2, -, h4⟩ := exN_result 5 (1 / 10) (min 3 1) 2 3
  refine ⟨rescale (fun _ => 1) o, by rw [doDifferentiate, h1]; rfl, h2, ?_, ?_⟩
  · have := h4 (by norm_num [abs_le])
    simp [rescale, this]
  · have : (fun p : ℝ => min p 1) =ᶠ[𝓝 3] fun _ => 1 := by
      filter_upwards [Ioi_mem_nhds (show (1 : ℝ) < 3 by norm_num)] with q hq
      exact min_eq_right (le_of_lt hq)
    exact (hasDerivAt_const _ _).congr_of_eventuallyEq this

/-- non-vacuity of `C59_derivative_partial`: all premises hold for `exN 1` at `p = 0`, where the solution is `p` -/
example : ∃ o, differentiate (exN 1) (exSettings (1 / 10)) exactSolver exactSolver (exSol 0 0) [0] = .ok o ∧ o.dx 0 0 = some 1 := by
  obtain ⟨o, h1, h2, -, -⟩ := exN_result 1 (1 / 10) 0 0 0
  refine ⟨o, h1, ?_⟩
  have hnb : ¬ AtBound (1 / 10 : ℝ) 0 none (some 1) := by simp [AtBound]; norm_num
  have := (C59_derivative_partial (exN 1) (exN_depends 1) (exSettings (1 / 10)) exactSolver exactSolver exactSolver_solves
    (fun _ => exactSolver_solves) (exSol 0 0) [0] o h1 h2 (fun z i => z.1 i - z.2.2 ⟨0, by simp [exN]⟩) (fun _ _ => 0)
    ⟨?_, fun c => absurd c.2 (by simp [exN])⟩ ⟨0, by simp [exN]⟩ ?_ (fun t _ => t) (fun _ _ => 0) (fun _ _ => 0) ?_ (fun _ => 1) (fun _ => 0) (fun _ => 0)
    ?_ ?_ ?_).1 ⟨0, by simp [exN]⟩ rfl
  · exact this
  · intro i
    let D : (Fin (exN 1).nx → ℝ) × (Fin (exN 1).ng → ℝ) × (Fin (exN 1).np → ℝ) →L[ℝ] ℝ :=
      (ContinuousLinearMap.proj (R := ℝ) (φ := fun _ => ℝ) i).comp (ContinuousLinearMap.fst ℝ _ _) -
      (ContinuousLinearMap.proj (R := ℝ) (φ := fun _ => ℝ) (⟨0, by simp [exN]⟩ : Fin (exN 1).np)).comp
        ((ContinuousLinearMap.snd ℝ _ _).comp (ContinuousLinearMap.snd ℝ _ _))
    have hDv : ∀ z, D z = z.1 i - z.2.2 ⟨0, by simp [exN]⟩ := fun _ => rfl
    refine ⟨D, D.hasFDerivAt, ?_⟩
    intro dx dl dp
    rw [hDv]
    obtain ⟨i, hi⟩ := i
    have hi0 : i = 0 := by simpa [exN] using hi
    subst hi0
    simp only [exN] at dx dl dp ⊢
    simp only [one_mul, neg_one_mul, sub_eq_add_neg, Finset.sum_neg_distrib]
    show dx 0 + -dp 0 = (∑ x : Fin 1, dx x) + (∑ c : Fin 0, 0 * dl c) + -(∑ x : Fin 1, dp x)
    simp
  · intro dx dG dX h1 h2 h3 h4 h5
    have hX0 := h5 0 (by simp [exN]) hnb
    have h10 := h1 0 (by simp [exN])
    simp only [exN, Finset.sum_range_one, Finset.range_zero, Finset.sum_empty] at h10
    rw [hX0] at h10
    refine ⟨?_, fun c hc => absurd hc (by simp [exN]), ?_⟩
    · intro i hi _
      have : i = 0 := by simpa [exN] using hi
      subst this
      linarith
    · intro i hi
      exact h5 i hi hnb
  · refine ⟨by funext i; simp [toFin, exSol], by funext c; simp [toFin, exSol], ?_, fun c => absurd c.2 (by simp [exN]), fun i hi => absurd hi hnb,
      fun c => absurd c.2 (by simp [exN]), fun i _ => Eventually.of_forall fun _ => rfl⟩
    refine Eventually.of_forall fun t i => ?_
    simp [move]
  · rw [hasDerivAt_pi]; exact fun i => hasDerivAt_id _
  · exact hasDerivAt_const _ _
  · exact hasDerivAt_const _ _

/-- **C49**: the documented setting `set_lam_zero` makes every call raise (the name `lam_num` is used before it is assigned). -/
theorem C49_fails_set_lam_zero {K : Type} [Field K] [LinearOrder K] [IsStrictOrderedRing K] (N : Nlp K) (S : Settings K) (lin lstsq : LinSolver K)
    (s : Sol K) (p : List K) (h : S.setLamZero = true) : ∃ e, differentiate N S lin lstsq s p = .error e := by
  unfold differentiate
  dsimp only
  split
  · split
    · exact ⟨_, rfl⟩
    · exact ⟨_, rfl⟩
  · split
    · exact ⟨_, rfl⟩
    · exact ⟨_, rfl⟩

example : (Settings.mk (0 : ℚ) true false).setLamZero = true := rfl

/-- **C50**: a parameter vector of the wrong length is refused if nothing was removed from the NLP. -/
theorem C50_wrong_length_refused {K : Type} [Field K] [LinearOrder K] [IsStrictOrderedRing K] (N : Nlp K) (S : Settings K) (lin lstsq : LinSolver K)
    (s : Sol K) (p : List K) (hr : N.isReduced = false) (hl : p.length ≠ N.np) : differentiate N S lin lstsq s p = .error "ValueError" := by
  simp [differentiate, hr, hl]

/-- **C50**: if something was removed, a vector that is too long (or too short, if only removed parameters are missing) is accepted. -/
theorem C50_fails_wrong_length_accepted :
    ∃ (N : Nlp ℝ) (S : Settings ℝ) (s : Sol ℝ) (p : List ℝ), p.length ≠ N.np ∧ ∃ o, differentiate N S exactSolver exactSolver s p = .ok o := by
  refine ⟨{ exN 1 with np := 2, depP := fun i => decide (i = 0) }, exSettings 0, exSol 0 0, [1, 2, 3, 4], by simp, ?_⟩
  unfold differentiate
  have h1 : Nlp.isReduced { exN 1 with np := 2, depP := fun i => decide (i = 0) } = true := by
    simp only [Nlp.isReduced, undetIdx, exN]
    decide
  rw [h1]
  simp only [if_true]
  have h2 : detIdx 2 (fun i => decide (i = 0)) = [0] := by decide
  rw [h2]
  simp [exSettings]

end DoMpc.Diff
