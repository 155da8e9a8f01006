import Verif.Model.Basic
import Verif.Spec.Tree

/-!
# Specification of the multi-stage optimal control problem (physical units)

A policy assigns to each stage and realisation history a state, an input and slack values.  Nothing here refers to scaled
variables, scenario numbers or tables.
-/
namespace DoMpc.Spec
variable {K : Type} [Field K] [LinearOrder K] {d : Dims}

/-- History known one stage earlier. -/
def previous (nR k : Nat) (h : List Nat) : List Nat := h.take (min (k - 1) nR)

/-- Realisation that occurs at stage `k` in scenario `σ` (a complete history). -/
def realisation (nR k : Nat) (σ : List Nat) : Nat := if k < nR then σ.getD k 0 else σ.getLastD 0

/-- Part of the scenario `σ` known at stage `k`. -/
def known (nR k : Nat) (σ : List Nat) : List Nat := σ.take (min k nR)

/-- Cost of one scenario: accumulated stage cost along the scenario plus terminal cost at the scenario's own leaf.
`L k h r` is the stage cost at stage `k` after history `h` with realisation `r`; `Mf h r` the terminal cost of the leaf with
history `h` when `r` occurred in the last stage. -/
def scenarioCost (N nR : Nat) (L : Nat → List Nat → Nat → K) (Mf : List Nat → Nat → K) (σ : List Nat) : K :=
  ((List.range N).map fun k => L k (known nR k σ) (realisation nR k σ)).sum + Mf σ (realisation nR (N - 1) σ)

/-- Uniform average over all scenarios. -/
def averageCost (c N nR : Nat) (L : Nat → List Nat → Nat → K) (Mf : List Nat → Nat → K) : K :=
  ((allHistories c (min N nR)).map (scenarioCost N nR L Mf)).sum / (((allHistories c (min N nR)).length : Nat) : K)

/-- The policy starts at the measured state and follows the discrete-time model on every branch: `X k h`, `U k h` are state
and input at stage `k` after history `h`, `Z k h'` the algebraic state in interval `k` on the branch leading to `h'`. -/
def FollowsModel (m : DaeModel K d) (c nR N : Nat) (x0 : Vec K d.nx) (tvp : Nat → Vec K d.ntv) (p : Nat → Vec K d.np)
    (X : Nat → List Nat → Vec K d.nx) (U : Nat → List Nat → Vec K d.nu) (Z : Nat → List Nat → Vec K d.nz) : Prop :=
  X 0 [] = x0 ∧
  ∀ k < N, ∀ h, IsHistory c nR k h → ∀ r, MayOccur c nR k h r →
    m.alg (X k h) (U k h) (Z k (extend nR k h r)) (tvp k) (p r) 0 = 0 ∧
    X (k + 1) (extend nR k h r) = m.rhs (X k h) (U k h) (Z k (extend nR k h r)) (tvp k) (p r) 0

/-- Every user constraint holds at every stage, history and realisation; soft ones up to the slack `E`. -/
def RespectsConstraints (calls : List (NlCall K d)) (c nR N : Nat) (tvp : Nat → Vec K d.ntv) (p : Nat → Vec K d.np)
    (X : Nat → List Nat → Vec K d.nx) (U : Nat → List Nat → Vec K d.nu) (Z : Nat → List Nat → Vec K d.nz)
    (E : Nat → List Nat → Eps K) : Prop :=
  ∀ k < N, ∀ h, IsHistory c nR k h → ∀ r, MayOccur c nR k h r → ∀ call ∈ calls, ∀ i < call.dim,
    if call.soft then call.ub.ge (call.expr (X k h) (U k h) (Z k h) (tvp k) (p r) i - E k h call.name i)
    else call.ub.ge (call.expr (X k h) (U k h) (Z k h) (tvp k) (p r) i)

/-- Sum over all stages, histories and realisations that may occur: one term per branch of the tree, not weighted. -/
def branchSum (c N nR : Nat) (f : Nat → List Nat → Nat → K) : K :=
  ((List.range N).map fun k => ((allHistories c (min k nR)).map fun h => ((occurring c nR k h).map (f k h)).sum).sum).sum

/-- Penalty of one slack vector: `Σ penalty * eps` over the components of the soft constraints. -/
def slackCost (calls : List (NlCall K d)) (e : Eps K) : K :=
  (calls.map fun call => if call.soft then ((List.range call.dim).map fun i => call.penalty * e call.name i).sum else 0).sum

/-- Input applied before stage `k` on the way to history `h`: the one applied last in closed loop if `k = 0`. -/
def inputBefore (nR : Nat) (uLast : Vec K d.nu) (U : Nat → List Nat → Vec K d.nu) (k : Nat) (h : List Nat) : Vec K d.nu :=
  if k = 0 then uLast else U (k - 1) (previous nR k h)

end DoMpc.Spec
