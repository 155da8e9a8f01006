import Verif.Model.Basic

/-!
# Specification of the moving horizon estimation problem (physical units)

`X k`, `k = 0 … N`, are the states of the window, `U`, `Z`, `W`, `V` the inputs, algebraic states, process and measurement noise of
its `N` intervals, `p` the model's parameter vector.
-/
namespace DoMpc.Spec
variable {K : Type} [Field K] [LinearOrder K] {d : Dims}

/-- The trajectory follows the discrete-time model with process noise. -/
def FollowsNoisyModel (m : DaeModel K d) (N : Nat) (X : Nat → Vec K d.nx) (U : Nat → Vec K d.nu) (Z : Nat → Vec K d.nz)
    (W : Nat → Vec K d.nw) (tvp : Nat → Vec K d.ntv) (p : Vec K d.np) : Prop :=
  ∀ k < N, m.alg (X k) (U k) (Z k) (tvp k) p (W k) = 0 ∧ X (k + 1) = m.rhs (X k) (U k) (Z k) (tvp k) p (W k)

/-- Measurement `k` of the window is the model output at the end of interval `k` with measurement noise `V k`. -/
def ExplainsMeasurements (m : DaeModel K d) (N : Nat) (X : Nat → Vec K d.nx) (U : Nat → Vec K d.nu) (Z : Nat → Vec K d.nz)
    (V : Nat → Vec K d.nv) (tvp : Nat → Vec K d.ntv) (p : Vec K d.np) (Y : Nat → Vec K d.ny) : Prop :=
  ∀ k < N, m.meas (X (k + 1)) (U k) (Z k) (tvp k) p (V k) = Y k

/-- Every user constraint holds at the beginning of every interval; soft ones up to the slack. -/
def RespectsOnWindow (calls : List (NlCall K d)) (N : Nat) (X : Nat → Vec K d.nx) (U : Nat → Vec K d.nu) (Z : Nat → Vec K d.nz)
    (tvp : Nat → Vec K d.ntv) (p : Vec K d.np) (E : Nat → Eps K) : Prop :=
  ∀ k < N, ∀ call ∈ calls, ∀ i < call.dim,
    if call.soft then call.ub.ge (call.expr (X k) (U k) (Z k) (tvp k) p i - E k call.name i)
    else call.ub.ge (call.expr (X k) (U k) (Z k) (tvp k) p i)

/-- lower and upper bound on a vector -/
def Within {n : Nat} (lb ub : Fin n → Bound K) (v : Vec K n) : Prop := ∀ j, (lb j).le (v j) ∧ (ub j).ge (v j)

end DoMpc.Spec
