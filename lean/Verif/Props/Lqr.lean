import Verif.Lemmas.Lqr
import Mathlib.Tactic.NormNum

/-! # LQR: C34 (optimality of the gain) -/
set_option linter.unusedSectionVars false
namespace DoMpc
open Matrix Spec
variable {K : Type} [Field K] [LinearOrder K] [IsStrictOrderedRing K]

/-- `u` minimises the function `J` -/
def Minimises {m : Nat} (J : (Nat → Vec K m) → K) (u : Nat → Vec K m) : Prop := ∀ v, J u ≤ J v

/-- the gain computed for a finite horizon of `N+1` steps, with the value function -/
theorem discreteGain_finite (E : LqrEnv K) (st : LqrSt K) {n m N : Nat} (A Q P : Matrix (Fin n) (Fin n) K) (B : Matrix (Fin n) (Fin m) K)
    (R : Matrix (Fin m) (Fin m) K) (hn : 0 < n) (hm : 0 < m) (hQ : Psd Q) (hP : Psd P) (hR : Pd R)
    (h1 : st.Q = some (.of Q)) (h2 : st.R = some (.of R)) (h3 : st.P = some (.of P)) (h4 : st.horizon = some (N + 1)) :
    E.discreteGain st (.of A) (.of B) = .ok (.of (ricK A B R (ricSeq A B Q P R N))) := by
  have hs1 : n * n ≠ 0 := by positivity
  have hs2 : m * m ≠ 0 := by positivity
  simp only [LqrEnv.discreteGain, h1, h2, h3, h4, NpMat.size, ne_eq, hs1, hs2, not_false_eq_true, and_self, if_true]
  exact gainLoop_of A B Q R hQ hR N P none hP

/-- **C34.**  For symmetric positive semidefinite `Q`, `P` and symmetric positive definite `R`, a horizon of at least one step and any
system with at least one state and one input, `discrete_gain` returns a gain `G`; from every state `x0` the finite-horizon cost has a
minimiser, every minimiser starts with the input `G x0`, and the minimal cost is a fixed quadratic form of `x0`. -/
theorem C34_gain_optimal (E : LqrEnv K) (st : LqrSt K) {n m N : Nat} (A Q P : Matrix (Fin n) (Fin n) K) (B : Matrix (Fin n) (Fin m) K)
    (R : Matrix (Fin m) (Fin m) K) (hn : 0 < n) (hm : 0 < m) (hQ : Psd Q) (hP : Psd P) (hR : Pd R)
    (h1 : st.Q = some (.of Q)) (h2 : st.R = some (.of R)) (h3 : st.P = some (.of P)) (h4 : st.horizon = some (N + 1)) :
    ∃ (G : Matrix (Fin m) (Fin n) K) (V : Matrix (Fin n) (Fin n) K), E.discreteGain st (.of A) (.of B) = .ok (.of G) ∧
      ∀ x0, (∃ u, Minimises (trackCost A B Q P R 0 0 (N + 1) x0) u) ∧
        ∀ u, Minimises (trackCost A B Q P R 0 0 (N + 1) x0) u → u 0 = G *ᵥ x0 ∧ trackCost A B Q P R 0 0 (N + 1) x0 u = qf V x0 := by
  refine ⟨_, ricSeq A B Q P R (N + 1), discreteGain_finite E st A Q P B R hn hm hQ hP hR h1 h2 h3 h4, fun x0 => ?_⟩
  obtain ⟨w, hw⟩ := trackCost_attained A B Q P R hQ hR hP (N + 1) x0
  refine ⟨⟨w, fun v => hw ▸ trackCost_ge A B Q P R hQ hR hP (N + 1) x0 v⟩, fun u hu => ?_⟩
  have hle : trackCost A B Q P R 0 0 (N + 1) x0 u ≤ qf (ricSeq A B Q P R (N + 1)) x0 := hw ▸ hu w
  exact ⟨trackCost_first A B Q P R hQ hR hP N x0 u hle, le_antisymm hle (trackCost_ge A B Q P R hQ hR hP (N + 1) x0 u)⟩

/-- A horizon of 0 is not refused by `setup`'s checks but fails with an unbound variable. -/
theorem C34_horizon_zero (E : LqrEnv K) (st : LqrSt K) (A B Q P R : NpMat K) (h1 : st.Q = some Q) (h2 : st.R = some R)
    (h3 : st.P = some P) (h4 : st.horizon = some 0) (hQ : Q.size ≠ 0) (hR : R.size ≠ 0) (hP : P.size ≠ 0) :
    E.discreteGain st A B = .error "UnboundLocalError" := by
  simp [LqrEnv.discreteGain, h1, h2, h3, h4, hQ, hR, hP, gainLoop]

/-- tracking form of the optimality of the gain: the set point is an equilibrium -/
theorem tracking_optimal {n m N : Nat} (A Q P : Matrix (Fin n) (Fin n) K) (B : Matrix (Fin n) (Fin m) K)
    (R : Matrix (Fin m) (Fin m) K) (hQ : Psd Q) (hP : Psd P) (hR : Pd R) (xs : Vec K n) (us : Vec K m)
    (heq : A *ᵥ xs + B *ᵥ us = xs) (x0 : Vec K n) :
    (∃ u, Minimises (trackCost A B Q P R xs us (N + 1) x0) u) ∧
      ∀ u, Minimises (trackCost A B Q P R xs us (N + 1) x0) u → u 0 = ricK A B R (ricSeq A B Q P R N) *ᵥ (x0 - xs) + us := by
  obtain ⟨w, hw⟩ := trackCost_attained A B Q P R hQ hR hP (N + 1) (x0 - xs)
  have hw' : trackCost A B Q P R xs us (N + 1) x0 (fun j => w j + us) = qf (ricSeq A B Q P R (N + 1)) (x0 - xs) := by
    rw [trackCost_dev A B Q P R xs us heq, ← hw]
    simp
  refine ⟨⟨fun j => w j + us, fun v => ?_⟩, fun u hu => ?_⟩
  · rw [hw', trackCost_dev A B Q P R xs us heq]
    exact trackCost_ge A B Q P R hQ hR hP (N + 1) _ _
  · have hle := hu (fun j => w j + us)
    rw [hw', trackCost_dev A B Q P R xs us heq] at hle
    have := trackCost_first A B Q P R hQ hR hP N (x0 - xs) (fun j => u j - us) hle
    rw [← this]; simp

/-- optimality with input rate penalty -/
theorem rate_optimal {n m N : Nat} (A Q P : Matrix (Fin n) (Fin n) K) (B : Matrix (Fin n) (Fin m) K)
    (R dR : Matrix (Fin m) (Fin m) K) (hQ : Psd Q) (hP : Psd P) (hR : Psd R) (hdR : Pd dR) (xs : Vec K n) (us : Vec K m)
    (heq : A *ᵥ xs + B *ᵥ us = xs) (x0 : Vec K n) (uPrev : Vec K m) :
    (∃ u, Minimises (rateCost A B Q P R dR xs us (N + 1) x0 uPrev) u) ∧
      ∀ u, Minimises (rateCost A B Q P R dR xs us (N + 1) x0 uPrev) u →
        u 0 = ricK (blk A B 0 1) (vblk B 1) dR (ricSeq (blk A B 0 1) (vblk B 1) (blk Q 0 0 R) (blk P 0 0 R) dR N)
          *ᵥ (Fin.append x0 uPrev - Fin.append xs us) + uPrev := by
  have heq' : blk A B 0 1 *ᵥ Fin.append xs us + vblk B 1 *ᵥ (0 : Vec K m) = Fin.append xs us := by
    rw [blk_mulVec, mulVec_zero, add_zero, heq]; simp
  obtain ⟨⟨w, hw⟩, huniq⟩ := tracking_optimal (N := N) (blk A B 0 1) (blk Q 0 0 R) (blk P 0 0 R) (vblk B 1) dR (blk_psd hQ hR) (blk_psd hP hR)
    hdR (Fin.append xs us) 0 heq' (Fin.append x0 uPrev)
  have hkey : ∀ v : Nat → Vec K m, rateCost A B Q P R dR xs us (N + 1) x0 uPrev (integrate uPrev v)
      = trackCost (blk A B 0 1) (vblk B 1) (blk Q 0 0 R) (blk P 0 0 R) dR (Fin.append xs us) 0 (N + 1) (Fin.append x0 uPrev) v := by
    intro v
    rw [rateCost_eq]
    congr 1
    funext j
    exact integrate_incr uPrev v j
  refine ⟨⟨integrate uPrev w, fun v => ?_⟩, fun u hu => ?_⟩
  · rw [hkey, rateCost_eq]; exact hw _
  · have := huniq (fun j => u j - prevInput uPrev u j) (fun v => by rw [← rateCost_eq, ← hkey]; exact hu _)
    rw [add_zero] at this
    rw [← this]
    simp [prevInput]

end DoMpc
