import Verif.Spec.Kkt
import Verif.Props.DiffStatusEx
import Mathlib.Analysis.Calculus.ImplicitFunction.ProdDomain
import Mathlib.Analysis.Calculus.ContDiff.RCLike
import Mathlib.LinearAlgebra.FiniteDimensional.Basic
import Mathlib.Topology.Algebra.Module.FiniteDimension

/-!
# The solution is differentiable, and `differentiate` returns its derivatives (C59)
-/
set_option linter.unusedSectionVars false
namespace DoMpc.Diff

open scoped BigOperators Topology
open Spec Filter

/-! ### One constraint -/

section one
variable {P : Type} [TopologicalSpace P] {q0 : P} {v lam : P → ℝ} {lb ub : Option ℝ} {tol : ℝ}

theorem one_inactive (ht : 0 ≤ tol) (hv : ContinuousAt v q0) (hna : ¬ AtBound tol (v q0) lb ub) : ∀ᶠ q in 𝓝 q0, lb ≠ some (v q) ∧ ub ≠ some (v q) := by
  have key : ∀ b, (lb = some b ∨ ub = some b) → ∀ᶠ q in 𝓝 q0, v q ≠ b := by
    intro b hb
    have h1 : tol < |v q0 - b| := by
      by_contra h
      exact hna ⟨b, hb, not_lt.1 h⟩
    have h2 : v q0 ≠ b := by
      intro e
      rw [e, sub_self, abs_zero] at h1
      exact absurd h1 (not_lt.2 ht)
    exact hv.eventually_ne h2
  have hl : ∀ᶠ q in 𝓝 q0, lb ≠ some (v q) := by
    cases hb : lb with
    | none => exact Eventually.of_forall fun q h => by cases h
    | some b => exact (key b (Or.inl hb)).mono fun q hq h => hq (Option.some.inj h).symm
  have hu : ∀ᶠ q in 𝓝 q0, ub ≠ some (v q) := by
    cases hb : ub with
    | none => exact Eventually.of_forall fun q h => by cases h
    | some b => exact (key b (Or.inr hb)).mono fun q hq h => hq (Option.some.inj h).symm
  exact hl.and hu

theorem one_inside (ht : 0 ≤ tol) (hv : ContinuousAt v q0) (hna : ¬ AtBound tol (v q0) lb ub) (hl : ∀ b, lb = some b → b ≤ v q0)
    (hu : ∀ b, ub = some b → v q0 ≤ b) : ∀ᶠ q in 𝓝 q0, (∀ b, lb = some b → b ≤ v q) ∧ ∀ b, ub = some b → v q ≤ b := by
  have hne := (one_inactive ht hv hna).self_of_nhds
  have h1 : ∀ᶠ q in 𝓝 q0, ∀ b, lb = some b → b ≤ v q := by
    cases hb : lb with
    | none => exact Eventually.of_forall fun q b h => by cases h
    | some b =>
      have hlt : b < v q0 := lt_of_le_of_ne (hl b hb) fun e => hne.1 (by rw [hb, e])
      exact (hv.eventually (lt_mem_nhds hlt)).mono fun q hq b' hb' => by rw [← Option.some.inj hb']; exact le_of_lt hq
  have h2 : ∀ᶠ q in 𝓝 q0, ∀ b, ub = some b → v q ≤ b := by
    cases hb : ub with
    | none => exact Eventually.of_forall fun q b h => by cases h
    | some b =>
      have hlt : v q0 < b := lt_of_le_of_ne (hu b hb) fun e => hne.2 (by rw [hb, e])
      exact (hv.eventually (gt_mem_nhds hlt)).mono fun q hq b' hb' => by rw [← Option.some.inj hb']; exact le_of_lt hq
  exact h1.and h2

/-- a nonzero multiplier keeps the constraint at its bound -/
theorem one_active (hlam : ContinuousAt lam q0) (h0 : lam q0 ≠ 0)
    (hk : ∀ᶠ q in 𝓝 q0, (0 < lam q → ub = some (v q)) ∧ (lam q < 0 → lb = some (v q))) : ∀ᶠ q in 𝓝 q0, v q = v q0 := by
  have hk0 := hk.self_of_nhds
  rcases lt_or_gt_of_ne h0 with hn | hp
  · filter_upwards [hk, hlam.eventually (gt_mem_nhds hn)] with q h1 h2
    have := h1.2 h2
    rw [hk0.2 hn] at this
    exact (Option.some.inj this).symm
  · filter_upwards [hk, hlam.eventually (lt_mem_nhds hp)] with q h1 h2
    have := h1.1 h2
    rw [hk0.1 hp] at this
    exact (Option.some.inj this).symm

/-- the sign of a nonzero multiplier is kept -/
theorem one_sign (hlam : ContinuousAt lam q0) (h0 : lam q0 ≠ 0) (hp : 0 < lam q0 → ub = some (v q0)) (hn : lam q0 < 0 → lb = some (v q0))
    (hv : ∀ᶠ q in 𝓝 q0, v q = v q0) : ∀ᶠ q in 𝓝 q0, (0 < lam q → ub = some (v q)) ∧ (lam q < 0 → lb = some (v q)) := by
  rcases lt_or_gt_of_ne h0 with hneg | hpos
  · filter_upwards [hv, hlam.eventually (gt_mem_nhds hneg)] with q h1 h2
    rw [h1]
    exact ⟨fun h => absurd h (not_lt.2 (le_of_lt h2)), fun _ => hn hneg⟩
  · filter_upwards [hv, hlam.eventually (lt_mem_nhds hpos)] with q h1 h2
    rw [h1]
    exact ⟨fun _ => hp hpos, fun h => absurd h (not_lt.2 (le_of_lt h2))⟩

end one

/-! ### The system -/

/-- the unknowns: variables, multipliers of the constraints, multipliers of the bounds -/
abbrev Unk (N : Nlp ℝ) := (Fin N.nx → ℝ) × (Fin N.ng → ℝ) × (Fin N.nx → ℝ)

open Classical in
/-- stationarity; active constraints keep their value, other multipliers vanish -/
noncomputable def sysF (N : Nlp ℝ) (grad : (Fin N.nx → ℝ) × (Fin N.ng → ℝ) × (Fin N.np → ℝ) → Fin N.nx → ℝ)
    (g : (Fin N.nx → ℝ) × (Fin N.np → ℝ) → Fin N.ng → ℝ) (aG aX : Nat → Prop) (x0 : Fin N.nx → ℝ) (g0 : Fin N.ng → ℝ) :
    (Fin N.np → ℝ) × Unk N → Unk N := fun u =>
  (fun i => grad (u.2.1, u.2.2.1, u.1) i + u.2.2.2 i,
   fun c => if aG c then g (u.2.1, u.1) c - g0 c else u.2.2.1 c,
   fun i => if aX i ∨ N.depX i = false then u.2.1 i - x0 i else u.2.2.2 i)

open Classical in
/-- its derivative -/
theorem sysF_deriv (N : Nlp ℝ) (grad) (g) (x l lX p : Nat → ℝ) (hS : Smooth N grad g x l p) (aG aX : Nat → Prop) (x0 : Fin N.nx → ℝ) (g0 : Fin N.ng → ℝ) :
    ∃ D : (Fin N.np → ℝ) × Unk N →L[ℝ] Unk N,
      HasStrictFDerivAt (sysF N grad g aG aX x0 g0) D (toFin _ p, toFin _ x, toFin _ l, toFin _ lX) ∧
      ∀ dp dx dG dX, D (dp, dx, dG, dX) =
        (fun i : Fin N.nx => ∑ j : Fin N.nx, N.hxx x l p i j * dx j + ∑ c : Fin N.ng, N.jac x p c i * dG c + ∑ k : Fin N.np, N.hxp x l p i k * dp k + dX i,
         fun c : Fin N.ng => if aG c then ∑ j : Fin N.nx, N.jac x p c j * dx j + ∑ k : Fin N.np, N.jacP x p c k * dp k else dG c,
         fun i : Fin N.nx => if aX i ∨ N.depX i = false then dx i else dX i) := by
  have hg1 := (hS.contGrad.hasStrictFDerivAt (by norm_num))
  have hg2 := (hS.contG.hasStrictFDerivAt (by norm_num))
  set Dg := fderiv ℝ grad (toFin _ x, toFin _ l, toFin _ p)
  set Dc := fderiv ℝ g (toFin _ x, toFin _ p)
  have e1 : ∀ i dx dl dp, Dg (dx, dl, dp) i = ∑ j : Fin N.nx, N.hxx x l p i j * dx j + ∑ c : Fin N.ng, N.jac x p c i * dl c +
      ∑ k : Fin N.np, N.hxp x l p i k * dp k := by
    intro i dx dl dp
    obtain ⟨D, hD, hf⟩ := hS.derivatives.grad i
    have hD' : HasFDerivAt (fun z => grad z i) ((ContinuousLinearMap.proj (R := ℝ) (φ := fun _ : Fin N.nx => ℝ) i).comp Dg) _ :=
      (hasFDerivAt_pi'.1 hg1.hasFDerivAt) i
    rw [← hf, hD.unique hD']
    rfl
  have e2 : ∀ c dx dp, Dc (dx, dp) c = ∑ j : Fin N.nx, N.jac x p c j * dx j + ∑ k : Fin N.np, N.jacP x p c k * dp k := by
    intro c dx dp
    obtain ⟨D, hD, hf⟩ := hS.derivatives.g c
    have hD' : HasFDerivAt (fun z => g z c) ((ContinuousLinearMap.proj (R := ℝ) (φ := fun _ : Fin N.ng => ℝ) c).comp Dc) _ :=
      (hasFDerivAt_pi'.1 hg2.hasFDerivAt) c
    rw [← hf, hD.unique hD']
    rfl
  let pP : (Fin N.np → ℝ) × Unk N →L[ℝ] (Fin N.np → ℝ) := ContinuousLinearMap.fst ℝ _ _
  let pU : (Fin N.np → ℝ) × Unk N →L[ℝ] Unk N := ContinuousLinearMap.snd ℝ _ _
  let pX : (Fin N.np → ℝ) × Unk N →L[ℝ] (Fin N.nx → ℝ) := (ContinuousLinearMap.fst ℝ _ _).comp pU
  let pG : (Fin N.np → ℝ) × Unk N →L[ℝ] (Fin N.ng → ℝ) := (ContinuousLinearMap.fst ℝ _ _).comp ((ContinuousLinearMap.snd ℝ _ _).comp pU)
  let pL : (Fin N.np → ℝ) × Unk N →L[ℝ] (Fin N.nx → ℝ) := (ContinuousLinearMap.snd ℝ _ _).comp ((ContinuousLinearMap.snd ℝ _ _).comp pU)
  let prN : ∀ i : Fin N.nx, (Fin N.nx → ℝ) →L[ℝ] ℝ := fun i => ContinuousLinearMap.proj (R := ℝ) (φ := fun _ : Fin N.nx => ℝ) i
  let prG : ∀ i : Fin N.ng, (Fin N.ng → ℝ) →L[ℝ] ℝ := fun i => ContinuousLinearMap.proj (R := ℝ) (φ := fun _ : Fin N.ng => ℝ) i
  let D1 : (Fin N.np → ℝ) × Unk N →L[ℝ] (Fin N.nx → ℝ) := Dg.comp (pX.prod (pG.prod pP)) + pL
  let D2 : (Fin N.np → ℝ) × Unk N →L[ℝ] (Fin N.ng → ℝ) :=
    ContinuousLinearMap.pi fun c => if aG c then (prG c).comp (Dc.comp (pX.prod pP)) else (prG c).comp pG
  let D3 : (Fin N.np → ℝ) × Unk N →L[ℝ] (Fin N.nx → ℝ) :=
    ContinuousLinearMap.pi fun i => if aX i ∨ N.depX i = false then (prN i).comp pX else (prN i).comp pL
  refine ⟨D1.prod (D2.prod D3), ?_, ?_⟩
  · have h1 : HasStrictFDerivAt (fun u : (Fin N.np → ℝ) × Unk N => fun i => grad (u.2.1, u.2.2.1, u.1) i + u.2.2.2 i) D1
        (toFin _ p, toFin _ x, toFin _ l, toFin _ lX) := by
      have ha : HasStrictFDerivAt (fun u : (Fin N.np → ℝ) × Unk N => grad ((pX.prod (pG.prod pP)) u)) (Dg.comp (pX.prod (pG.prod pP)))
          (toFin _ p, toFin _ x, toFin _ l, toFin _ lX) :=
        HasStrictFDerivAt.comp (toFin _ p, toFin _ x, toFin _ l, toFin _ lX) (g := grad) hg1 (pX.prod (pG.prod pP)).hasStrictFDerivAt
      exact ha.add pL.hasStrictFDerivAt
    have hc : HasStrictFDerivAt (fun u : (Fin N.np → ℝ) × Unk N => g ((pX.prod pP) u)) (Dc.comp (pX.prod pP))
          (toFin _ p, toFin _ x, toFin _ l, toFin _ lX) :=
        HasStrictFDerivAt.comp (toFin _ p, toFin _ x, toFin _ l, toFin _ lX) (g := g) hg2 (pX.prod pP).hasStrictFDerivAt
    have h2 : HasStrictFDerivAt (fun u : (Fin N.np → ℝ) × Unk N => fun c : Fin N.ng => if aG c then g (u.2.1, u.1) c - g0 c else u.2.2.1 c) D2
        (toFin _ p, toFin _ x, toFin _ l, toFin _ lX) := by
      rw [hasStrictFDerivAt_pi']
      intro c
      show HasStrictFDerivAt (fun u : (Fin N.np → ℝ) × Unk N => if aG c then g (u.2.1, u.1) c - g0 c else u.2.2.1 c)
        (if aG c then (prG c).comp (Dc.comp (pX.prod pP)) else (prG c).comp pG) _
      by_cases ha : aG c
      · simp only [if_pos ha]
        exact ((hasStrictFDerivAt_pi'.1 hc) c).sub_const (g0 c)
      · simp only [if_neg ha]
        exact ((prG c).comp pG).hasStrictFDerivAt
    have h3 : HasStrictFDerivAt (fun u : (Fin N.np → ℝ) × Unk N => fun i : Fin N.nx => if aX i ∨ N.depX i = false then u.2.1 i - x0 i else u.2.2.2 i) D3
        (toFin _ p, toFin _ x, toFin _ l, toFin _ lX) := by
      rw [hasStrictFDerivAt_pi']
      intro i
      show HasStrictFDerivAt (fun u : (Fin N.np → ℝ) × Unk N => if aX i ∨ N.depX i = false then u.2.1 i - x0 i else u.2.2.2 i)
        (if aX i ∨ N.depX i = false then (prN i).comp pX else (prN i).comp pL) _
      by_cases ha : aX i ∨ N.depX i = false
      · simp only [if_pos ha]
        exact ((prN i).comp pX).hasStrictFDerivAt.sub_const (x0 i)
      · simp only [if_neg ha]
        exact ((prN i).comp pL).hasStrictFDerivAt
    exact h1.prodMk (h2.prodMk h3)
  · intro dp dx dG dX
    refine Prod.ext ?_ (Prod.ext ?_ ?_)
    · funext i
      show Dg (dx, dG, dp) i + dX i = _
      rw [e1]
    · funext c
      show (if aG c then (prG c).comp (Dc.comp (pX.prod pP)) else (prG c).comp pG) (dp, dx, dG, dX) = _
      by_cases ha : aG c
      · simp only [if_pos ha]
        exact e2 c dx dp
      · simp only [if_neg ha]
        rfl
    · funext i
      show (if aX i ∨ N.depX i = false then (prN i).comp pX else (prN i).comp pL) (dp, dx, dG, dX) = _
      by_cases ha : aX i ∨ N.depX i = false
      · simp only [if_pos ha]; rfl
      · simp only [if_neg ha]; rfl

theorem sum_ofFin {n : Nat} (F : Nat → ℝ) (v : Fin n → ℝ) : ∑ j ∈ Finset.range n, F j * ofFin v j = ∑ j : Fin n, F j * v j := by
  rw [Finset.sum_range]
  exact Finset.sum_congr rfl fun j _ => by rw [ofFin_val _ _ j.2]

open Classical in
/-- the partial derivative with respect to the unknowns is invertible -/
theorem sysF_invertible (N : Nlp ℝ) (hdep : DependsCorrect N) (x l p : Nat → ℝ) (aG aX : Nat → Prop) (hR : Regular N x l p aG aX)
    (D : (Fin N.np → ℝ) × Unk N →L[ℝ] Unk N)
    (hD : ∀ dp dx dG dX, D (dp, dx, dG, dX) =
        (fun i : Fin N.nx => ∑ j : Fin N.nx, N.hxx x l p i j * dx j + ∑ c : Fin N.ng, N.jac x p c i * dG c + ∑ k : Fin N.np, N.hxp x l p i k * dp k + dX i,
         fun c : Fin N.ng => if aG c then ∑ j : Fin N.nx, N.jac x p c j * dx j + ∑ k : Fin N.np, N.jacP x p c k * dp k else dG c,
         fun i : Fin N.nx => if aX i ∨ N.depX i = false then dx i else dX i)) :
    (D ∘L .inr ℝ (Fin N.np → ℝ) (Unk N)).IsInvertible := by
  have hinj : Function.Injective (D ∘L .inr ℝ (Fin N.np → ℝ) (Unk N)).toLinearMap := by
    rw [← LinearMap.ker_eq_bot, LinearMap.ker_eq_bot']
    rintro ⟨dx, dG, dX⟩ h0
    have h1 : D (0, dx, dG, dX) = 0 := h0
    rw [hD] at h1
    have s1 : ∀ i : Fin N.nx, ∑ j : Fin N.nx, N.hxx x l p i j * dx j + ∑ c : Fin N.ng, N.jac x p c i * dG c + dX i = 0 := by
      intro i
      have := congrFun (congrArg Prod.fst h1) i
      simpa using this
    have s2 : ∀ c : Fin N.ng, (if aG c then ∑ j : Fin N.nx, N.jac x p c j * dx j else dG c) = 0 := by
      intro c
      have := congrFun (congrArg (fun z => z.2.1) h1) c
      simpa using this
    have s3 : ∀ i : Fin N.nx, (if aX i ∨ N.depX i = false then dx i else dX i) = 0 := by
      intro i
      exact congrFun (congrArg (fun z => z.2.2) h1) i
    obtain ⟨r1, r2, r3⟩ := hR (ofFin dx) (ofFin dG) (ofFin dX)
      (by
        intro i hi
        rw [sum_ofFin, sum_ofFin, ofFin_val _ _ hi]
        exact s1 ⟨i, hi⟩)
      (by
        intro c hc ha
        rw [sum_ofFin]
        have := s2 ⟨c, hc⟩
        rwa [if_pos ha] at this)
      (by
        intro i hi ha
        rw [ofFin_val _ _ hi]
        have := s3 ⟨i, hi⟩
        rwa [if_pos (Or.inl ha)] at this)
      (by
        intro c hc ha
        rw [ofFin_val _ _ hc]
        have := s2 ⟨c, hc⟩
        rwa [if_neg ha] at this)
      (by
        intro i hi ha
        rw [ofFin_val _ _ hi]
        by_cases hd : N.depX i = false
        · have e := s1 ⟨i, hi⟩
          rw [Finset.sum_eq_zero (fun j _ => by rw [hdep.hxx_left x l p i j hi hd, zero_mul]),
            Finset.sum_eq_zero (fun c _ => by rw [hdep.jac x p c i hi hd, zero_mul])] at e
          simpa using e
        · have := s3 ⟨i, hi⟩
          rwa [if_neg (by rintro (h | h); exacts [ha h, hd h])] at this)
    refine Prod.ext ?_ (Prod.ext ?_ ?_)
    · funext i
      by_cases hd : N.depX i = true
      · have := r1 i i.2 hd
        rwa [ofFin_val _ _ i.2] at this
      · have := s3 i
        rwa [if_pos (Or.inr (by simpa using hd))] at this
    · funext c
      have := r2 c c.2
      rwa [ofFin_val _ _ c.2] at this
    · funext i
      have := r3 i i.2
      rwa [ofFin_val _ _ i.2] at this
  refine ⟨(LinearEquiv.ofInjectiveEndo _ hinj).toContinuousLinearEquiv, ?_⟩
  refine ContinuousLinearMap.ext fun z => ?_
  rfl

open Classical in
/-- a direction that solves the linearised system satisfies the linearised conditions -/
theorem sysF_kkt (N : Nlp ℝ) (hdep : DependsCorrect N) (x l p : Nat → ℝ) (aG aX : Nat → Prop) (k : Fin N.np) (dx : Fin N.nx → ℝ) (dG : Fin N.ng → ℝ)
    (dX : Fin N.nx → ℝ)
    (s1 : ∀ i : Fin N.nx, ∑ j : Fin N.nx, N.hxx x l p i j * dx j + ∑ c : Fin N.ng, N.jac x p c i * dG c + N.hxp x l p i k + dX i = 0)
    (s2 : ∀ c : Fin N.ng, (if aG c then ∑ j : Fin N.nx, N.jac x p c j * dx j + N.jacP x p c k else dG c) = 0)
    (s3 : ∀ i : Fin N.nx, (if aX i ∨ N.depX i = false then dx i else dX i) = 0) :
    LinearizedKkt N x l p aG aX (ofFin dx) (ofFin dG) (ofFin dX) k := by
  refine ⟨?_, ?_, ?_, ?_, ?_⟩
  · intro i hi
    rw [sum_ofFin, sum_ofFin, ofFin_val _ _ hi]
    have := s1 ⟨i, hi⟩
    linear_combination this
  · intro c hc ha
    rw [sum_ofFin]
    have := s2 ⟨c, hc⟩
    rwa [if_pos ha] at this
  · intro i hi ha
    rw [ofFin_val _ _ hi]
    have := s3 ⟨i, hi⟩
    rwa [if_pos (Or.inl ha)] at this
  · intro c hc ha
    rw [ofFin_val _ _ hc]
    have := s2 ⟨c, hc⟩
    rwa [if_neg ha] at this
  · intro i hi ha
    rw [ofFin_val _ _ hi]
    by_cases hd : N.depX i = false
    · have e := s1 ⟨i, hi⟩
      rw [Finset.sum_eq_zero (fun j _ => by rw [hdep.hxx_left x l p i j hi hd, zero_mul]),
        Finset.sum_eq_zero (fun c _ => by rw [hdep.jac x p c i hi hd, zero_mul]), hdep.hxp_left x l p i k hi hd] at e
      simpa using e
    · have := s3 ⟨i, hi⟩
      rwa [if_neg (by rintro (h | h); exacts [ha h, hd h])] at this

/-! ### Points that satisfy the conditions solve the system, and conversely -/

section nearby
variable (N : Nlp ℝ) (grad : (Fin N.nx → ℝ) × (Fin N.ng → ℝ) × (Fin N.np → ℝ) → Fin N.nx → ℝ)
  (g : (Fin N.nx → ℝ) × (Fin N.np → ℝ) → Fin N.ng → ℝ) (x sg l lX p : Nat → ℝ) (tol : ℝ)

/-- the solution with the variables that do not occur held at their values -/
noncomputable def held (x : Nat → ℝ) (X : Fin N.nx → ℝ) : Fin N.nx → ℝ := fun i => if N.depX i = true then X i else x i

/-- multipliers of active constraints, and of active bounds of variables that occur, do not vanish -/
def Strict (x sg l lX : Nat → ℝ) (tol : ℝ) : Prop := (∀ c : Fin N.ng, AtBound tol (sg c) (N.lbg c) (N.ubg c) → l c ≠ 0) ∧
  ∀ i : Fin N.nx, N.depX i = true → AtBound tol (x i) (N.lbx i) (N.ubx i) → lX i ≠ 0

open Classical in
theorem system_of_kkt (ht : 0 ≤ tol) (hS : Smooth N grad g x l p) (hg0 : g (toFin _ x, toFin _ p) = toFin _ sg) (hstr : Strict N x sg l lX tol)
    (X : (Fin N.np → ℝ) → Fin N.nx → ℝ) (LG : (Fin N.np → ℝ) → Fin N.ng → ℝ) (LX : (Fin N.np → ℝ) → Fin N.nx → ℝ)
    (hX0 : ∀ i : Fin N.nx, N.depX i = true → X (toFin _ p) i = x i) (hG0 : LG (toFin _ p) = toFin _ l) (hL0 : LX (toFin _ p) = toFin _ lX)
    (hXc : ∀ i : Fin N.nx, N.depX i = true → ContinuousAt (fun q => X q i) (toFin _ p)) (hGc : ContinuousAt LG (toFin _ p)) (hLc : ContinuousAt LX (toFin _ p))
    (hk : ∀ᶠ q in 𝓝 (toFin N.np p), KktPoint N grad g (X q) (LG q) (LX q) q) :
    ContinuousAt (fun q => held N x (X q)) (toFin _ p) ∧ held N x (X (toFin _ p)) = toFin _ x ∧
    ∀ᶠ q in 𝓝 (toFin N.np p), sysF N grad g (fun c => AtBound tol (sg c) (N.lbg c) (N.ubg c))
      (fun i => AtBound tol (x i) (N.lbx i) (N.ubx i)) (toFin _ x) (toFin _ sg) (q, held N x (X q), LG q, LX q) = 0 := by
  have hcH : ContinuousAt (fun q => held N x (X q)) (toFin _ p) := by
    rw [continuousAt_pi]
    intro i
    by_cases hd : N.depX i = true
    · refine (hXc i hd).congr (Eventually.of_forall fun q => ?_)
      simp [held, hd]
    · refine (continuousAt_const (y := x i)).congr (Eventually.of_forall fun q => ?_)
      simp [held, hd]
  have hH0 : held N x (X (toFin _ p)) = toFin _ x := by
    funext i
    by_cases hd : N.depX i = true
    · simp [held, hd, hX0 i hd, toFin]
    · simp [held, hd, toFin]
  have hgH : ∀ q, g (held N x (X q), q) = g (X q, q) := fun q => hS.gX _ _ _ fun i hd => by simp [held, hd]
  have hgc : ContinuousAt (fun q => g (held N x (X q), q)) (toFin _ p) := by
    have h1 : ContinuousAt g (held N x (X (toFin _ p)), toFin _ p) := by rw [hH0]; exact hS.contG.continuousAt
    exact ContinuousAt.comp (f := fun q => (held N x (X q), q)) (g := g) h1 (hcH.prodMk continuousAt_id)
  refine ⟨hcH, hH0, ?_⟩
  have h2 : ∀ c : Fin N.ng, ∀ᶠ q in 𝓝 (toFin N.np p), (if AtBound tol (sg c) (N.lbg c) (N.ubg c) then
      g (held N x (X q), q) c - toFin _ sg c else LG q c) = 0 := by
    intro c
    have hvc : ContinuousAt (fun q => g (held N x (X q), q) c) (toFin _ p) := (continuousAt_pi.1 hgc) c
    have hv0 : g (held N x (X (toFin _ p)), toFin _ p) c = sg c := by rw [hH0, hg0]; rfl
    by_cases ha : AtBound tol (sg c) (N.lbg c) (N.ubg c)
    · have := one_active (lam := fun q => LG q c) (v := fun q => g (held N x (X q), q) c) (lb := N.lbg c) (ub := N.ubg c) ((continuousAt_pi.1 hGc) c)
        (by rw [hG0]; exact hstr.1 c ha)
        (hk.mono fun q hq => ⟨fun hp => by rw [hgH]; exact hq.posG c hp, fun hp => by rw [hgH]; exact hq.negG c hp⟩)
      refine this.mono fun q hq => ?_
      rw [if_pos ha, hq, hv0]; exact sub_self _
    · have := one_inactive (v := fun q => g (held N x (X q), q) c) (lb := N.lbg c) (ub := N.ubg c) ht hvc (by rw [hv0]; exact ha)
      filter_upwards [this, hk] with q h1 h3
      rw [if_neg ha]
      rw [hgH] at h1
      rcases lt_trichotomy (LG q c) 0 with h | h | h
      · exact absurd (h3.negG c h) h1.1
      · exact h
      · exact absurd (h3.posG c h) h1.2
  have h3 : ∀ i : Fin N.nx, ∀ᶠ q in 𝓝 (toFin N.np p), (if AtBound tol (x i) (N.lbx i) (N.ubx i) ∨ N.depX i = false then
      held N x (X q) i - toFin _ x i else LX q i) = 0 := by
    intro i
    by_cases hd : N.depX i = true
    · by_cases ha : AtBound tol (x i) (N.lbx i) (N.ubx i)
      · have := one_active (lam := fun q => LX q i) (v := fun q => X q i) (lb := N.lbx i) (ub := N.ubx i) ((continuousAt_pi.1 hLc) i)
          (by rw [hL0]; exact hstr.2 i hd ha) (hk.mono fun q hq => ⟨hq.posX i, hq.negX i⟩)
        refine this.mono fun q hq => ?_
        have e : X q i = x i := hq.trans (hX0 i hd)
        rw [if_pos (Or.inl ha)]
        simp [held, hd, e, toFin]
      · have := one_inactive (v := fun q => X q i) (lb := N.lbx i) (ub := N.ubx i) ht (hXc i hd) (by rw [hX0 i hd]; exact ha)
        filter_upwards [this, hk] with q h1 h3
        rw [if_neg (by rintro (h | h); exacts [ha h, by rw [hd] at h; cases h])]
        rcases lt_trichotomy (LX q i) 0 with h | h | h
        · exact absurd (h3.negX i h) h1.1
        · exact h
        · exact absurd (h3.posX i h) h1.2
    · refine Eventually.of_forall fun q => ?_
      rw [if_pos (Or.inr (by simpa using hd))]
      simp [held, hd, toFin]
  filter_upwards [hk, eventually_all.2 h2, eventually_all.2 h3] with q q1 q2 q3
  refine Prod.ext ?_ (Prod.ext ?_ ?_)
  · funext i
    show grad (held N x (X q), LG q, q) i + LX q i = 0
    rw [hS.gradX _ (X q) _ _ (fun i hd => by simp [held, hd])]
    exact q1.stationarity i
  · funext c
    exact q2 c
  · funext i
    exact q3 i

open Classical in
theorem kkt_of_system (ht : 0 ≤ tol) (hS : Smooth N grad g x l p) (hg0 : g (toFin _ x, toFin _ p) = toFin _ sg) (hstr : Strict N x sg l lX tol)
    (hk0 : KktPoint N grad g (toFin _ x) (toFin _ l) (toFin _ lX) (toFin _ p)) (Z : (Fin N.np → ℝ) → Unk N) (hZc : ContinuousAt Z (toFin _ p))
    (hZ0 : Z (toFin _ p) = (toFin _ x, toFin _ l, toFin _ lX))
    (hsys : ∀ᶠ q in 𝓝 (toFin N.np p), sysF N grad g (fun c => AtBound tol (sg c) (N.lbg c) (N.ubg c))
      (fun i => AtBound tol (x i) (N.lbx i) (N.ubx i)) (toFin _ x) (toFin _ sg) (q, Z q) = 0) :
    ∀ᶠ q in 𝓝 (toFin N.np p), KktPoint N grad g (Z q).1 (Z q).2.1 (Z q).2.2 q := by
  have hXc : ContinuousAt (fun q => (Z q).1) (toFin _ p) := hZc.fst
  have hGc : ContinuousAt (fun q => (Z q).2.1) (toFin _ p) := hZc.snd.fst
  have hLc : ContinuousAt (fun q => (Z q).2.2) (toFin _ p) := hZc.snd.snd
  have hgc : ContinuousAt (fun q => g ((Z q).1, q)) (toFin _ p) := by
    have h1 : ContinuousAt g ((Z (toFin _ p)).1, toFin _ p) := by rw [hZ0]; exact hS.contG.continuousAt
    exact ContinuousAt.comp (f := fun q => ((Z q).1, q)) (g := g) h1 (hXc.prodMk continuousAt_id)
  have s1 : ∀ᶠ q in 𝓝 (toFin N.np p), ∀ i, grad ((Z q).1, (Z q).2.1, q) i + (Z q).2.2 i = 0 :=
    hsys.mono fun q hq i => congrFun (congrArg Prod.fst hq) i
  have s2 : ∀ c : Fin N.ng, ∀ᶠ q in 𝓝 (toFin N.np p), (if AtBound tol (sg c) (N.lbg c) (N.ubg c) then g ((Z q).1, q) c - toFin _ sg c else (Z q).2.1 c) = 0 :=
    fun c => hsys.mono fun q hq => congrFun (congrArg (fun z => z.2.1) hq) c
  have s3 : ∀ i : Fin N.nx, ∀ᶠ q in 𝓝 (toFin N.np p), (if AtBound tol (x i) (N.lbx i) (N.ubx i) ∨ N.depX i = false then
      (Z q).1 i - toFin _ x i else (Z q).2.2 i) = 0 :=
    fun i => hsys.mono fun q hq => congrFun (congrArg (fun z => z.2.2) hq) i
  have hv0 : ∀ c : Fin N.ng, g ((Z (toFin _ p)).1, toFin _ p) c = sg c := fun c => by rw [hZ0]; exact congrFun hg0 c
  have kG : ∀ c : Fin N.ng, ∀ᶠ q in 𝓝 (toFin N.np p), ((∀ b, N.lbg c = some b → b ≤ g ((Z q).1, q) c) ∧ ∀ b, N.ubg c = some b → g ((Z q).1, q) c ≤ b) ∧
      (0 < (Z q).2.1 c → N.ubg c = some (g ((Z q).1, q) c)) ∧ ((Z q).2.1 c < 0 → N.lbg c = some (g ((Z q).1, q) c)) := by
    intro c
    have f1 : ∀ b, N.lbg c = some b → b ≤ sg c := fun b hb => by
      have := hk0.lowerG c b hb
      rwa [hg0] at this
    have f2 : ∀ b, N.ubg c = some b → sg c ≤ b := fun b hb => by
      have := hk0.upperG c b hb
      rwa [hg0] at this
    by_cases ha : AtBound tol (sg c) (N.lbg c) (N.ubg c)
    · have hval : ∀ᶠ q in 𝓝 (toFin N.np p), g ((Z q).1, q) c = sg c := (s2 c).mono fun q hq => by
        rw [if_pos ha] at hq
        exact sub_eq_zero.1 hq
      have hsign := one_sign (lam := fun q => (Z q).2.1 c) (v := fun q => g ((Z q).1, q) c) (lb := N.lbg c) (ub := N.ubg c) ((continuousAt_pi.1 hGc) c)
        (by rw [hZ0]; exact hstr.1 c ha)
        (fun h => by rw [hZ0] at h; have := hk0.posG c h; rw [hZ0]; exact this)
        (fun h => by rw [hZ0] at h; have := hk0.negG c h; rw [hZ0]; exact this)
        (hval.mono fun q hq => hq.trans (hv0 c).symm)
      filter_upwards [hval, hsign] with q h1 h2
      refine ⟨?_, h2⟩
      rw [h1]
      exact ⟨f1, f2⟩
    · have hin := one_inside (v := fun q => g ((Z q).1, q) c) (lb := N.lbg c) (ub := N.ubg c) ht ((continuousAt_pi.1 hgc) c) (by rw [hv0]; exact ha)
        (fun b hb => by rw [hv0]; exact f1 b hb) (fun b hb => by rw [hv0]; exact f2 b hb)
      filter_upwards [hin, s2 c] with q h1 h2
      rw [if_neg ha] at h2
      rw [h2]
      exact ⟨h1, fun h => absurd h (lt_irrefl _), fun h => absurd h (lt_irrefl _)⟩
  have kX : ∀ i : Fin N.nx, ∀ᶠ q in 𝓝 (toFin N.np p), ((∀ b, N.lbx i = some b → b ≤ (Z q).1 i) ∧ ∀ b, N.ubx i = some b → (Z q).1 i ≤ b) ∧
      (0 < (Z q).2.2 i → N.ubx i = some ((Z q).1 i)) ∧ ((Z q).2.2 i < 0 → N.lbx i = some ((Z q).1 i)) := by
    intro i
    have hx0 : (Z (toFin _ p)).1 i = x i := by rw [hZ0]; rfl
    by_cases hd : N.depX i = false
    · filter_upwards [s1, s3 i] with q h1 h3
      rw [if_pos (Or.inr hd)] at h3
      have e : (Z q).1 i = x i := sub_eq_zero.1 h3
      have e2 : (Z q).2.2 i = 0 := by
        have := h1 i
        rwa [hS.gradZero _ i hd, zero_add] at this
      rw [e, e2]
      exact ⟨⟨hk0.lowerX i, hk0.upperX i⟩, fun h => absurd h (lt_irrefl _), fun h => absurd h (lt_irrefl _)⟩
    · have hd' : N.depX i = true := by simpa using hd
      by_cases ha : AtBound tol (x i) (N.lbx i) (N.ubx i)
      · have hval : ∀ᶠ q in 𝓝 (toFin N.np p), (Z q).1 i = x i := (s3 i).mono fun q hq => by
          rw [if_pos (Or.inl ha)] at hq
          exact sub_eq_zero.1 hq
        have hsign := one_sign (lam := fun q => (Z q).2.2 i) (v := fun q => (Z q).1 i) (lb := N.lbx i) (ub := N.ubx i) ((continuousAt_pi.1 hLc) i)
          (by rw [hZ0]; exact hstr.2 i hd' ha)
          (fun h => by rw [hZ0] at h; have := hk0.posX i h; rw [hZ0]; exact this)
          (fun h => by rw [hZ0] at h; have := hk0.negX i h; rw [hZ0]; exact this)
          (hval.mono fun q hq => hq.trans hx0.symm)
        filter_upwards [hval, hsign] with q h1 h2
        refine ⟨?_, h2⟩
        rw [h1]
        exact ⟨hk0.lowerX i, hk0.upperX i⟩
      · have hin := one_inside (v := fun q => (Z q).1 i) (lb := N.lbx i) (ub := N.ubx i) ht ((continuousAt_pi.1 hXc) i) (by rw [hx0]; exact ha)
          (fun b hb => by rw [hx0]; exact hk0.lowerX i b hb) (fun b hb => by rw [hx0]; exact hk0.upperX i b hb)
        filter_upwards [hin, s3 i] with q h1 h2
        rw [if_neg (by rintro (h | h); exacts [ha h, hd h])] at h2
        rw [h2]
        exact ⟨h1, fun h => absurd h (lt_irrefl _), fun h => absurd h (lt_irrefl _)⟩
  filter_upwards [s1, eventually_all.2 kG, eventually_all.2 kX] with q q1 q2 q3
  exact ⟨q1, fun c => (q2 c).1.1, fun c => (q2 c).1.2, fun i => (q3 i).1.1, fun i => (q3 i).1.2, fun c => (q2 c).2.1, fun c => (q2 c).2.2,
    fun i => (q3 i).2.1, fun i => (q3 i).2.2⟩

end nearby

/-- strict complementarity as reported -/
theorem strict_of_reported (N : Nlp ℝ) (S : Settings ℝ) (ht : 0 < S.tol) (s : Sol ℝ)
    (h : StrictCompl N S.tol s (fun c => AtBound S.tol (s.g c) (N.lbg c) (N.ubg c)) (fun i => N.depX i = true ∧ AtBound S.tol (s.x i) (N.lbx i) (N.ubx i))) :
    Strict N s.x s.g s.lamG s.lamX S.tol := by
  refine ⟨fun c ha e => ?_, fun i hd ha e => ?_⟩
  · have := h.1 c c.2 ha
    rw [e, abs_zero] at this
    exact absurd this (not_le.2 ht)
  · have := h.2 i i.2 ⟨hd, ha⟩
    rw [e, abs_zero] at this
    exact absurd this (not_le.2 ht)

/-- `lse_solved` is what the result says -/
theorem solved_of_status (N : Nlp ℝ) (hdep : DependsCorrect N) (S : Settings ℝ) (C : Checks) (lin lstsq : LinSolver ℝ) (s : Sol ℝ) (p : List ℝ)
    (st st' : Status ℝ) (o : Out ℝ) (h : differentiateSt N S C lin lstsq s p st = (.ok o, st')) : st'.lseSolved = o.solved := by
  obtain ⟨hd, hst⟩ := differentiateSt_ok N S C lin lstsq s p st st' o h
  have e := (C91_residual N hdep S { C with residuals := true } lin lstsq s p st _ o (st_of_ok N S _ lin lstsq s p st o hd) rfl).1
  rw [← e, hst]
  simp only [differentiateSt, hd]
  split <;> rfl

/-- **C59** (sensitivity theorem, partial).  Let a solution satisfy the conditions of first order, and let the differentiator report the constraint qualification
and strict complementarity (`status.LICQ`, `status.SC`); let the condition of second order hold and the functions be continuously differentiable.  Then
* for all parameters close to `p` there are points that satisfy the conditions of first order and depend continuously on the parameters, and
* any such points - the solutions of the perturbed problems, if they depend continuously on the parameters - are differentiable at `p`, and the
  matrices returned by `differentiate` are their derivatives (of variables that occur in the problem and of all multipliers).
No differentiability of the solution, no knowledge of the active set and no regularity of the linear system is assumed.  Missing: without a positive tolerance,
the reported conditions or the condition of second order the claim is false (`C59_fails_tolerance`, `C59_fails_stale_bounds`). -/
theorem C59_sensitivity_partial (N : Nlp ℝ) (hdep : DependsCorrect N) (S : Settings ℝ) (ht : 0 < S.tol) (C : Checks) (lin lstsq : LinSolver ℝ)
    (hlin : Solves lin) (hcomp : Complete lin) (hls : S.lstsqFallback = true → Solves lstsq) (s : Sol ℝ) (p : List ℝ) (st st' : Status ℝ) (o : Out ℝ)
    (h : differentiateSt N S C lin lstsq s p st = (.ok o, st')) (hCl : C.licq = true) (hCs : C.sc = true)
    (hlicq : st'.licq = some true) (hsc : st'.sc = some true)
    (h2 : SecondOrder N s.x s.lamG (fun i => p.getD i 0) (fun c => AtBound S.tol (s.g c) (N.lbg c) (N.ubg c))
      (fun i => AtBound S.tol (s.x i) (N.lbx i) (N.ubx i)))
    (grad) (g) (hS : Smooth N grad g s.x s.lamG (fun i => p.getD i 0)) (hg0 : g (toFin _ s.x, toFin _ fun i => p.getD i 0) = toFin _ s.g)
    (hk0 : KktPoint N grad g (toFin _ s.x) (toFin _ s.lamG) (toFin _ s.lamX) (toFin _ fun i => p.getD i 0)) :
    let p0 := toFin N.np fun i => p.getD i 0
    (∃ (X : (Fin N.np → ℝ) → Fin N.nx → ℝ) (LG : (Fin N.np → ℝ) → Fin N.ng → ℝ) (LX : (Fin N.np → ℝ) → Fin N.nx → ℝ),
      X p0 = toFin _ s.x ∧ LG p0 = toFin _ s.lamG ∧ LX p0 = toFin _ s.lamX ∧ ContinuousAt X p0 ∧ ContinuousAt LG p0 ∧ ContinuousAt LX p0 ∧
      ∀ᶠ q in 𝓝 p0, KktPoint N grad g (X q) (LG q) (LX q) q) ∧
    ∀ (X : (Fin N.np → ℝ) → Fin N.nx → ℝ) (LG : (Fin N.np → ℝ) → Fin N.ng → ℝ) (LX : (Fin N.np → ℝ) → Fin N.nx → ℝ),
      (∀ i : Fin N.nx, N.depX i = true → X p0 i = s.x i) → LG p0 = toFin _ s.lamG → LX p0 = toFin _ s.lamX →
      (∀ i : Fin N.nx, N.depX i = true → ContinuousAt (fun q => X q i) p0) → ContinuousAt LG p0 → ContinuousAt LX p0 →
      (∀ᶠ q in 𝓝 p0, KktPoint N grad g (X q) (LG q) (LX q) q) →
      (∀ i : Fin N.nx, N.depX i = true → ∃ D : (Fin N.np → ℝ) →L[ℝ] ℝ, HasFDerivAt (fun q => X q i) D p0 ∧ ∀ k : Fin N.np, o.dx i k = some (D (Pi.single k 1))) ∧
      (∀ c : Fin N.ng, ∃ D : (Fin N.np → ℝ) →L[ℝ] ℝ, HasFDerivAt (fun q => LG q c) D p0 ∧ ∀ k : Fin N.np, o.dlam c k = some (D (Pi.single k 1))) ∧
      (∀ i : Fin N.nx, ∃ D : (Fin N.np → ℝ) →L[ℝ] ℝ, HasFDerivAt (fun q => LX q i) D p0 ∧ ∀ k : Fin N.np, o.dlam (N.ng + i) k = some (D (Pi.single k 1))) := by
  classical
  intro p0
  obtain ⟨c1, -, -, hR⟩ := C91_certificate N hdep S C lin lstsq hlin hcomp s p st st' o h hCl hlicq h2
  have hs : o.solved = true := (solved_of_status N hdep S C lin lstsq s p st st' o h).symm.trans c1
  obtain ⟨hd, -⟩ := differentiateSt_ok N S C lin lstsq s p st st' o h
  obtain ⟨b, hb, hbi⟩ := C91_sc_partial N S C lin lstsq s p st st' o h hCs
  have hstr := strict_of_reported N S ht s (hbi.1 (by rw [hb] at hsc; exact Option.some.inj hsc))
  obtain ⟨D, hDd, hD⟩ := sysF_deriv N grad g s.x s.lamG s.lamX _ hS (fun c => AtBound S.tol (s.g c) (N.lbg c) (N.ubg c))
    (fun i => AtBound S.tol (s.x i) (N.lbx i) (N.ubx i)) (toFin _ s.x) (toFin _ s.g)
  have hinv := sysF_invertible N hdep _ _ _ _ _ hR D hD
  have hz0 : sysF N grad g (fun c => AtBound S.tol (s.g c) (N.lbg c) (N.ubg c)) (fun i => AtBound S.tol (s.x i) (N.lbx i) (N.ubx i)) (toFin _ s.x) (toFin _ s.g)
      (p0, toFin _ s.x, toFin _ s.lamG, toFin _ s.lamX) = 0 := by
    refine Prod.ext ?_ (Prod.ext ?_ ?_)
    · funext i
      exact hk0.stationarity i
    · funext c
      show (if AtBound S.tol (s.g c) (N.lbg c) (N.ubg c) then g (toFin _ s.x, p0) c - toFin _ s.g c else toFin _ s.lamG c) = 0
      by_cases ha : AtBound S.tol (s.g c) (N.lbg c) (N.ubg c)
      · rw [if_pos ha, hg0]
        exact sub_self _
      · rw [if_neg ha]
        rcases lt_trichotomy (toFin N.ng s.lamG c) 0 with h' | h' | h'
        · have e := hk0.negG c h'
          rw [hg0] at e
          exact absurd ⟨_, Or.inl e, by simp [toFin, le_of_lt ht]⟩ ha
        · exact h'
        · have e := hk0.posG c h'
          rw [hg0] at e
          exact absurd ⟨_, Or.inr e, by simp [toFin, le_of_lt ht]⟩ ha
    · funext i
      show (if AtBound S.tol (s.x i) (N.lbx i) (N.ubx i) ∨ N.depX i = false then toFin _ s.x i - toFin _ s.x i else toFin _ s.lamX i) = 0
      by_cases ha : AtBound S.tol (s.x i) (N.lbx i) (N.ubx i) ∨ N.depX i = false
      · rw [if_pos ha]
        exact sub_self _
      · rw [if_neg ha]
        rcases lt_trichotomy (toFin N.nx s.lamX i) 0 with h' | h' | h'
        · exact absurd (Or.inl ⟨_, Or.inl (hk0.negX i h'), by simp [toFin, le_of_lt ht]⟩) ha
        · exact h'
        · exact absurd (Or.inl ⟨_, Or.inr (hk0.posX i h'), by simp [toFin, le_of_lt ht]⟩) ha
  constructor
  · refine ⟨fun q => (hDd.implicitFunctionOfProdDomain hinv q).1, fun q => (hDd.implicitFunctionOfProdDomain hinv q).2.1,
      fun q => (hDd.implicitFunctionOfProdDomain hinv q).2.2, ?_⟩
    have e0 : hDd.implicitFunctionOfProdDomain hinv p0 = (toFin _ s.x, toFin _ s.lamG, toFin _ s.lamX) :=
      (hDd.eventually_apply_eq_iff_implicitFunctionOfProdDomain hinv).self_of_nhds.1 rfl
    have hc : ContinuousAt (hDd.implicitFunctionOfProdDomain hinv) p0 := (hDd.hasStrictFDerivAt_implicitFunctionOfProdDomain hinv).continuousAt
    refine ⟨congrArg (fun z => z.1) e0, congrArg (fun z => z.2.1) e0, congrArg (fun z => z.2.2) e0, hc.fst, hc.snd.fst, hc.snd.snd, ?_⟩
    refine kkt_of_system N grad g s.x s.g s.lamG s.lamX (fun i => p.getD i 0) S.tol (le_of_lt ht) hS hg0 hstr hk0 _ hc e0 ?_
    refine (hDd.eventually_apply_implicitFunctionOfProdDomain hinv).mono fun q hq => ?_
    exact hq.trans hz0
  · intro X LG LX hX0 hG0 hL0 hXc hGc hLc hk
    obtain ⟨k1, k2, k3⟩ := system_of_kkt N grad g s.x s.g s.lamG s.lamX (fun i => p.getD i 0) S.tol (le_of_lt ht) hS hg0 hstr X LG LX hX0 hG0 hL0 hXc hGc hLc hk
    let W : (Fin N.np → ℝ) → Unk N := fun q => (held N s.x (X q), LG q, LX q)
    have hW0 : W p0 = (toFin _ s.x, toFin _ s.lamG, toFin _ s.lamX) := by
      show (held N s.x (X p0), LG p0, LX p0) = _
      rw [hG0, hL0]
      exact congrArg (fun z => (z, toFin N.ng s.lamG, toFin N.nx s.lamX)) k2
    have hWc : ContinuousAt W p0 := k1.prodMk (hGc.prodMk hLc)
    have htend : Tendsto (fun q => (q, W q)) (𝓝 p0) (𝓝 (p0, toFin _ s.x, toFin _ s.lamG, toFin _ s.lamX)) := by
      have : ContinuousAt (fun q => (q, W q)) p0 := continuousAt_id.prodMk hWc
      have h' := this.tendsto
      rwa [hW0] at h'
    have heq : ∀ᶠ q in 𝓝 p0, hDd.implicitFunctionOfProdDomain hinv q = W q := by
      filter_upwards [htend.eventually (hDd.eventually_apply_eq_iff_implicitFunctionOfProdDomain hinv), k3] with q q1 q2
      exact q1.1 (q2.trans hz0.symm)
    have hψ := (hDd.hasStrictFDerivAt_implicitFunctionOfProdDomain hinv).hasFDerivAt
    obtain ⟨W', hW'⟩ : ∃ W', HasFDerivAt W W' p0 := ⟨_, hψ.congr_of_eventuallyEq (heq.mono fun q hq => hq.symm)⟩
    have hcomp0 : ∀ v, D (v, W' v) = 0 := by
      have ha : HasFDerivAt (fun q => (q, W q)) ((ContinuousLinearMap.id ℝ _).prod W') p0 := (hasFDerivAt_id p0).prodMk hW'
      have hb : HasFDerivAt (sysF N grad g (fun c => AtBound S.tol (s.g c) (N.lbg c) (N.ubg c)) (fun i => AtBound S.tol (s.x i) (N.lbx i) (N.ubx i))
          (toFin _ s.x) (toFin _ s.g)) D ((fun q => (q, W q)) p0) := by
        show HasFDerivAt _ D (p0, W p0)
        rw [hW0]
        exact hDd.hasFDerivAt
      have hc := hb.comp p0 ha
      have hz : HasFDerivAt (fun _ : Fin N.np → ℝ => (0 : Unk N)) (0 : (Fin N.np → ℝ) →L[ℝ] Unk N) p0 := hasFDerivAt_const _ _
      have hu := hc.unique (hz.congr_of_eventuallyEq k3)
      intro v
      exact congrArg (fun L => L v) hu
    -- the columns satisfy the linearised conditions
    have hcol : ∀ k : Fin N.np, LinearizedKkt N s.x s.lamG (fun i => p.getD i 0) (fun c => AtBound S.tol (s.g c) (N.lbg c) (N.ubg c))
        (fun i => AtBound S.tol (s.x i) (N.lbx i) (N.ubx i)) (ofFin (W' (Pi.single k 1)).1) (ofFin (W' (Pi.single k 1)).2.1) (ofFin (W' (Pi.single k 1)).2.2) k := by
      intro k
      have h0 := hcomp0 (Pi.single k 1)
      rw [show ((Pi.single k 1 : Fin N.np → ℝ), W' (Pi.single k 1)) = ((Pi.single k 1 : Fin N.np → ℝ), (W' (Pi.single k 1)).1, (W' (Pi.single k 1)).2.1,
        (W' (Pi.single k 1)).2.2) from rfl, hD] at h0
      have hsing : ∀ F : Fin N.np → ℝ, ∑ k' : Fin N.np, F k' * (Pi.single k (1 : ℝ) : Fin N.np → ℝ) k' = F k := by
        intro F
        simp [Pi.single_apply]
      refine sysF_kkt N hdep _ _ _ _ _ k _ _ _ ?_ ?_ ?_
      · intro i
        have := congrFun (congrArg Prod.fst h0) i
        simp only [hsing (fun k' => N.hxp s.x s.lamG (fun i => p.getD i 0) i k')] at this
        exact this
      · intro c
        have := congrFun (congrArg (fun z => z.2.1) h0) c
        simp only [hsing (fun k' => N.jacP s.x (fun i => p.getD i 0) c k')] at this
        exact this
      · intro i
        exact congrFun (congrArg (fun z => z.2.2) h0) i
    have hret : ∀ k : Fin N.np, (∀ i : Fin N.nx, N.depX i = true → o.dx i k = some ((W' (Pi.single k 1)).1 i)) ∧
        (∀ c : Fin N.ng, o.dlam c k = some ((W' (Pi.single k 1)).2.1 c)) ∧ ∀ i : Fin N.nx, o.dlam (N.ng + i) k = some ((W' (Pi.single k 1)).2.2 i) := by
      intro k
      obtain ⟨dx, dlam, e1, e2, hK⟩ := C58_linearized_kkt N hdep S lin lstsq hlin hls s p o hd hs k k.2
      obtain ⟨u1, u2, u3⟩ := kkt_unique N _ _ _ _ _ hR k _ _ _ _ _ _ hK (hcol k)
      refine ⟨fun i hdp => ?_, fun c => ?_, fun i => ?_⟩
      · rw [e1 i i.2, u1 i i.2 hdp, ofFin_val _ _ i.2]
      · rw [e2 c (by omega), u2 c c.2, ofFin_val _ _ c.2]
      · rw [e2 _ (by omega), u3 i i.2, ofFin_val _ _ i.2]
    refine ⟨fun i hdp => ?_, fun c => ?_, fun i => ?_⟩
    · refine ⟨(ContinuousLinearMap.proj (R := ℝ) (φ := fun _ : Fin N.nx => ℝ) i).comp ((ContinuousLinearMap.fst ℝ _ _).comp W'), ?_, fun k => (hret k).1 i hdp⟩
      have h1 : HasFDerivAt (fun q => (W q).1) ((ContinuousLinearMap.fst ℝ _ _).comp W') p0 := hW'.fst
      refine ((hasFDerivAt_pi'.1 h1) i).congr_of_eventuallyEq (Eventually.of_forall fun q => ?_)
      simp [W, held, hdp]
    · refine ⟨(ContinuousLinearMap.proj (R := ℝ) (φ := fun _ : Fin N.ng => ℝ) c).comp ((ContinuousLinearMap.fst ℝ _ _).comp
        ((ContinuousLinearMap.snd ℝ _ _).comp W')), ?_, fun k => (hret k).2.1 c⟩
      exact (hasFDerivAt_pi'.1 hW'.snd.fst) c
    · refine ⟨(ContinuousLinearMap.proj (R := ℝ) (φ := fun _ : Fin N.nx => ℝ) i).comp ((ContinuousLinearMap.snd ℝ _ _).comp
        ((ContinuousLinearMap.snd ℝ _ _).comp W')), ?_, fun k => (hret k).2.2 i⟩
      exact (hasFDerivAt_pi'.1 hW'.snd.snd) i

/-- **C59** (partial) for `do_mpc` objects: the rows are the derivatives of the unscaled variables. -/
theorem C59_sensitivity_do_mpc_partial (N : Nlp ℝ) (cscale : Nat → ℝ) (hdep : DependsCorrect N) (S : Settings ℝ) (ht : 0 < S.tol) (C : Checks)
    (lin lstsq : LinSolver ℝ) (hlin : Solves lin) (hcomp : Complete lin) (hls : S.lstsqFallback = true → Solves lstsq) (s : Sol ℝ) (p : List ℝ)
    (st st' : Status ℝ) (o o' : Out ℝ) (h : differentiateSt N S C lin lstsq s p st = (.ok o, st')) (hdo : doDifferentiate N cscale S lin lstsq s p = .ok o')
    (hCl : C.licq = true) (hCs : C.sc = true) (hlicq : st'.licq = some true) (hsc : st'.sc = some true)
    (h2 : SecondOrder N s.x s.lamG (fun i => p.getD i 0) (fun c => AtBound S.tol (s.g c) (N.lbg c) (N.ubg c))
      (fun i => AtBound S.tol (s.x i) (N.lbx i) (N.ubx i)))
    (grad) (g) (hS : Smooth N grad g s.x s.lamG (fun i => p.getD i 0)) (hg0 : g (toFin _ s.x, toFin _ fun i => p.getD i 0) = toFin _ s.g)
    (hk0 : KktPoint N grad g (toFin _ s.x) (toFin _ s.lamG) (toFin _ s.lamX) (toFin _ fun i => p.getD i 0))
    (X : (Fin N.np → ℝ) → Fin N.nx → ℝ) (LG : (Fin N.np → ℝ) → Fin N.ng → ℝ) (LX : (Fin N.np → ℝ) → Fin N.nx → ℝ)
    (hX0 : X (toFin N.np fun i => p.getD i 0) = toFin _ s.x) (hG0 : LG (toFin N.np fun i => p.getD i 0) = toFin _ s.lamG)
    (hL0 : LX (toFin N.np fun i => p.getD i 0) = toFin _ s.lamX) (hXc : ContinuousAt X (toFin N.np fun i => p.getD i 0))
    (hGc : ContinuousAt LG (toFin N.np fun i => p.getD i 0)) (hLc : ContinuousAt LX (toFin N.np fun i => p.getD i 0))
    (hk : ∀ᶠ q in 𝓝 (toFin N.np fun i => p.getD i 0), KktPoint N grad g (X q) (LG q) (LX q) q) (i : Fin N.nx) (hd : N.depX i = true) :
    ∃ D : (Fin N.np → ℝ) →L[ℝ] ℝ, HasFDerivAt (fun q => cscale i * X q i) D (toFin N.np fun i => p.getD i 0) ∧
      ∀ k : Fin N.np, o'.dx i k = some (D (Pi.single k 1)) := by
  obtain ⟨D, hD, hk'⟩ := ((C59_sensitivity_partial N hdep S ht C lin lstsq hlin hcomp hls s p st st' o h hCl hCs hlicq hsc h2 grad g hS hg0 hk0).2 X LG LX
    (fun i _ => congrFun hX0 i) hG0 hL0 (fun i _ => (continuousAt_pi.1 hXc) i) hGc hLc hk).1 i hd
  obtain ⟨hdi, -⟩ := differentiateSt_ok N S C lin lstsq s p st st' o h
  refine ⟨cscale i • D, hD.const_mul (cscale i), fun k => ?_⟩
  unfold doDifferentiate at hdo
  rw [hdi] at hdo
  obtain rfl := Except.ok.inj hdo
  show ((o.dx i k).map (cscale i * ·)) = _
  rw [hk' k]
  rfl

/-! ### An example: `min (x - p)² / 2` subject to `x ≤ 1`, at `p = 3` where the bound is active -/

/-- the gradient of the example as a linear map -/
noncomputable def exL : (Fin 1 → ℝ) × (Fin 0 → ℝ) × (Fin 1 → ℝ) →L[ℝ] (Fin 1 → ℝ) :=
  ContinuousLinearMap.fst ℝ (Fin 1 → ℝ) ((Fin 0 → ℝ) × (Fin 1 → ℝ)) -
    (ContinuousLinearMap.snd ℝ (Fin 0 → ℝ) (Fin 1 → ℝ)).comp (ContinuousLinearMap.snd ℝ (Fin 1 → ℝ) ((Fin 0 → ℝ) × (Fin 1 → ℝ)))

/-- the gradient of the example -/
def exGrad : (Fin 1 → ℝ) × (Fin 0 → ℝ) × (Fin 1 → ℝ) → Fin 1 → ℝ := fun z i => z.1 i - z.2.2 i

theorem exN_smooth (x l p : Nat → ℝ) : Smooth (exN 1) exGrad (fun _ _ => 0) x l p := by
  refine ⟨?_, contDiffAt_const, ⟨?_, fun c => c.elim0⟩, ?_, fun _ _ _ _ => rfl, ?_⟩
  · exact (exL.contDiff (n := 1)).contDiffAt
  · intro i
    refine ⟨(ContinuousLinearMap.proj (R := ℝ) (φ := fun _ : Fin 1 => ℝ) i).comp exL, ?_, ?_⟩
    · exact ((ContinuousLinearMap.proj (R := ℝ) (φ := fun _ : Fin 1 => ℝ) i).comp exL).hasFDerivAt
    · intro dx dl dp
      have hi : i = (0 : Fin 1) := Subsingleton.elim (α := Fin 1) _ _
      subst hi
      have hall : ∀ (dx dp : Fin 1 → ℝ) (dl : Fin 0 → ℝ), dx 0 - dp 0 = (∑ x : Fin 1, 1 * dx x) + (∑ c : Fin 0, 0 * dl c) + ∑ x : Fin 1, -1 * dp x := by
        intro dx dp dl
        simp [sub_eq_add_neg]
      exact hall dx dp dl
  · intro x x' l p h
    have : x = x' := funext fun i => h i rfl
    rw [this]
  · intro z i h
    cases h

/-- non-vacuity of `C59_sensitivity_partial`: for `p = 3` the solution is 1 with the multiplier 2; the status reports both conditions and the returned
sensitivity is 0 - the derivative of `min(p, 1)` - and that of the multiplier 1 -/
example : ∃ o st', differentiateSt (exN 1) (exSettings (1 / 10)) Checks.default exactSolver exactSolver (exSol 1 2) [3] Status.init = (.ok o, st') ∧
    st'.licq = some true ∧ st'.sc = some true ∧ o.dx 0 0 = some 0 ∧ o.dlam 0 0 = some 1 := by
  have h' := st_of_ok (exN 1) (exSettings (1 / 10)) Checks.default exactSolver exactSolver (exSol 1 2) [3] Status.init _ (exN_differentiate 1 (1 / 10) 1 2 3)
  have hat : AtBound (1 / 10 : ℝ) 1 none (some 1) := ⟨1, Or.inr rfl, by norm_num⟩
  obtain ⟨b, hb, hbi⟩ := C91_licq (exN 1) (exN_depends 1) _ _ exactSolver exactSolver _ _ _ _ _ h' rfl
  obtain ⟨b', hb', hbi'⟩ := C91_sc_partial (exN 1) _ _ exactSolver exactSolver _ _ _ _ _ h' rfl
  have hbt : b = true := by
    refine hbi.2 fun muG muX h1 _ _ => ⟨fun c hc => absurd hc (by simp [exN]), fun i hi => ?_⟩
    have := h1 i hi
    simpa [exN] using this
  have hbt' : b' = true := by
    refine hbi'.2 ⟨fun c hc => absurd hc (by simp [exN]), fun i _ _ => ?_⟩
    show (1 / 10 : ℝ) ≤ |2|
    norm_num
  subst hbt
  subst hbt'
  have hmin : ∀ (q : Fin 1 → ℝ) (lG : Fin 0 → ℝ), 1 < q 0 → KktPoint (exN 1) exGrad (fun _ _ => 0) (fun _ => 1) lG (fun _ => q 0 - 1) q := by
    intro q lG hq
    refine ⟨?_, fun c => c.elim0, fun c => c.elim0, ?_, ?_, fun c => c.elim0, fun c => c.elim0, ?_, ?_⟩
    · intro i
      have hi : i = (0 : Fin 1) := Subsingleton.elim (α := Fin 1) _ _
      subst hi
      show (1 : ℝ) - q 0 + (q 0 - 1) = 0
      ring
    · intro i b hb; cases hb
    · intro i b hb; exact le_of_eq (Option.some.inj hb)
    · intro i _; rfl
    · intro i hneg
      exact absurd hneg (not_lt.2 (by linarith))
  have hthm := C59_sensitivity_partial (exN 1) (exN_depends 1) (exSettings (1 / 10)) (by norm_num [exSettings]) Checks.default exactSolver exactSolver
    exactSolver_solves exactSolver_complete (fun _ => exactSolver_solves) (exSol 1 2) [3] Status.init _ _ h' rfl rfl hb hb'
    (by
      intro d _ hx h3
      obtain ⟨i, hi, -, hne⟩ := h3
      exact absurd (hx i hi hat) hne)
    exGrad (fun _ _ => 0) (exN_smooth _ _ _) (funext fun c => c.elim0)
    (by
      have e : (toFin (exN 1).nx (exSol 1 2).lamX) = fun _ => (toFin 1 fun i => [(3 : ℝ)].getD i 0) 0 - 1 := by
        funext i; show (2 : ℝ) = 3 - 1; norm_num
      have := hmin (toFin 1 fun i => [(3 : ℝ)].getD i 0) (toFin 0 (exSol 1 2).lamG) (by show (1 : ℝ) < 3; norm_num)
      rw [← e] at this
      exact this)
  obtain ⟨t1, -, t3⟩ := hthm.2 (fun _ _ => 1) (fun _ c => c.elim0) (fun q _ => q (0 : Fin 1) - 1) (fun i _ => rfl) (funext fun c => c.elim0)
    (by funext i; show (3 : ℝ) - 1 = 2; norm_num) (fun i _ => continuousAt_const) (continuousAt_pi.2 fun c => c.elim0)
    (continuousAt_pi.2 fun _ => ((continuous_apply (0 : Fin 1)).sub continuous_const).continuousAt)
    (by
      have hc : ContinuousAt (fun q : Fin 1 → ℝ => q 0) (toFin 1 fun i => [(3 : ℝ)].getD i 0) := (continuous_apply (0 : Fin 1)).continuousAt
      refine (hc.eventually (lt_mem_nhds (show (1 : ℝ) < 3 by norm_num))).mono fun q hq => hmin q _ hq)
  obtain ⟨D, hD, hDk⟩ := t1 (0 : Fin 1) rfl
  obtain ⟨D3, hD3, hDk3⟩ := t3 (0 : Fin 1)
  refine ⟨_, _, h', hb, hb', ?_, ?_⟩
  · have e := hDk (0 : Fin 1)
    rw [hD.unique (hasFDerivAt_const (1 : ℝ) _)] at e
    exact e
  · have e := hDk3 (0 : Fin 1)
    have hp : HasFDerivAt (fun q : Fin 1 → ℝ => q (0 : Fin 1) - 1) (ContinuousLinearMap.proj (R := ℝ) (φ := fun _ : Fin 1 => ℝ) 0)
        (toFin 1 fun i => [(3 : ℝ)].getD i 0) := (ContinuousLinearMap.proj (R := ℝ) (φ := fun _ : Fin 1 => ℝ) 0).hasFDerivAt.sub_const 1
    rw [hD3.unique hp] at e
    have h1 : (Pi.single (0 : Fin 1) (1 : ℝ) : Fin 1 → ℝ) 0 = 1 := by simp
    exact e.trans (congrArg some h1)

end DoMpc.Diff
