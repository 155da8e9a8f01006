import Verif.Spec.LiveSafe

/-!
# What the turns of a configured loop cost

The stage costs of the turns in a history, and the conditions on calls and terminal cost under which they are bounded by the cost of a plan.
-/
namespace DoMpc.Spec
variable {K : Type} [Field K] [LinearOrder K] {d : Dims} {n : Nat}

/-- The costs of the turns in a part of a history without new episodes, in order: `c t x u` is the cost of a turn at the time `t` from the state `x` with the input `u`; the part begins
with the plant at `x` after `k` turns of the episode, the turns are `dt` apart. -/
def turnCosts (c : K → Vec K d.nx → Vec K d.nu → K) (dt : K) : Vec K d.nx → Nat → List (LoopRow K d n) → List K
  | _, _, [] => []
  | x, k, (.turn _, some (.ok (u, y))) :: h => c (k * dt) x u :: turnCosts c dt (asState y) (k + 1) h
  | x, k, _ :: h => turnCosts c dt x k h

/-- The stage cost of the objective along the plant, `tv` and `p` being the parameters of the simulator and `ζ` the algebraic state of the plant. -/
def stageCost (l : Vec K d.nx → Vec K d.nu → Vec K d.nz → Vec K d.ntv → Vec K d.np → K) (ζ : Vec K d.nx → Vec K d.nu → Vec K d.ntv → Vec K d.np → Vec K d.nz)
    (tv : K → Vec K d.ntv) (p : K → Vec K d.np) (t : K) (x : Vec K d.nx) (u : Vec K d.nu) : K :=
  l x u (ζ x u (tv t) (p t)) (tv t) (p t)

/-- Events after which the episode goes on with the same problem, the solver finding global minimisers in the turns. -/
def OptimalEv (o : MpcObj K d) (names : List String) : LoopEv K d n → Prop
  | .turn Sv => (∀ q, FindsMinimiser o q Sv) ∧ ReportsNumbers names Sv
  | e => SafeEv o names e

/-- The controller is nominal, changes of the input are not penalised, violations of soft constraints are not rewarded. -/
structure CostCalls (S : MpcSettings) (calls : List (MpcOp K d)) : Prop where
  plain : PlainCalls S calls
  nominal : (lastOf settingsOf calls S).nRobust = 0
  change : lastOf rtermOf calls (.factor fun _ => 0) = .factor fun _ => 0
  penalty : ∀ call ∈ calls.filterMap nlConsOf, call.soft = true → 0 ≤ call.penalty

/-- The terminal bounds are at least as tight as the state bounds, and from each state that they admit an admissible input leads to such a state again, on which way the
terminal cost falls by at least the stage cost. -/
structure LyapunovTerminal (S : MpcSettings) (calls : List (MpcOp K d)) (ob : Objective K d) (m : DaeModel K d) (dt : K) (tvp : K → Nat → Vec K d.ntv)
    (p : K → Nat → Vec K d.np) : Prop where
  inside : ∀ x, InTerminalBounds S calls x → InStateBounds calls x
  noSlack : ∀ call ∈ calls.filterMap nlConsOf, call.soft = true → call.maxViolation.ge 0
  decrease : ∀ t x, InTerminalBounds S calls x → ∃ u z, InInputBounds calls u ∧
    m.alg x u z (tvp t (lastOf settingsOf calls S).N) (p t 0) 0 = 0 ∧ InAlgebraicBounds calls z ∧
    (∀ call ∈ calls.filterMap nlConsOf, ∀ i < call.dim, call.ub.ge (call.expr x u z (tvp t (lastOf settingsOf calls S).N) (p t 0) i)) ∧
    InTerminalBounds S calls (m.rhs x u z (tvp t (lastOf settingsOf calls S).N) (p t 0) 0) ∧
    ob.lterm x u z (tvp t (lastOf settingsOf calls S).N) (p t 0) +
      ob.mterm (m.rhs x u z (tvp t (lastOf settingsOf calls S).N) (p t 0) 0) (tvp (t + dt) (lastOf settingsOf calls S).N) (p t 0) ≤
      ob.mterm x (tvp t (lastOf settingsOf calls S).N) (p t 0)

end DoMpc.Spec

namespace DoMpc.Spec
variable {K : Type} [Field K] [LinearOrder K] {d : Dims}

/-- As `LyapunovTerminal`, along the collocation polynomials; with `cons_check_colloc_points`, besides, no trajectory that the controller's problem admits leaves the state bounds
on its way into the terminal bounds. -/
structure LyapunovTerminalColl (s : Scheme K) (S : MpcSettings) (calls : List (MpcOp K d)) (ob : Objective K d) (m : DaeModel K d) (dt : K) (tvp : K → Nat → Vec K d.ntv)
    (p : K → Nat → Vec K d.np) : Prop where
  inside : ∀ x, InTerminalBounds S calls x → InStateBounds calls x
  noSlack : ∀ call ∈ calls.filterMap nlConsOf, call.soft = true → call.maxViolation.ge 0
  decrease : ∀ t x, InTerminalBounds S calls x → ∃ u x' P ζ, InInputBounds calls u ∧
    s.Interval m x u (tvp t (lastOf settingsOf calls S).N) (p t 0) x' P ζ ∧ PointsInAlgebraicBounds s S calls ζ ∧
    ((lastOf settingsOf calls S).consColloc = true → PointsInStateBounds s calls P) ∧
    (∀ call ∈ calls.filterMap nlConsOf, ∀ i < call.dim, call.ub.ge (call.expr x u (ζ 0 0) (tvp t (lastOf settingsOf calls S).N) (p t 0) i)) ∧
    InTerminalBounds S calls x' ∧
    ob.lterm x u (ζ 0 0) (tvp t (lastOf settingsOf calls S).N) (p t 0) + ob.mterm x' (tvp (t + dt) (lastOf settingsOf calls S).N) (p t 0) ≤
      ob.mterm x (tvp t (lastOf settingsOf calls S).N) (p t 0)
  overshoot : (lastOf settingsOf calls S).consColloc = true → ∀ t,
    ∀ x u x' P ζ, s.Interval m x u (tvp t ((lastOf settingsOf calls S).N - 1)) (p t 0) x' P ζ → InStateBounds calls x → InInputBounds calls u → InTerminalBounds S calls x' →
      PointsInStateBounds s calls P

end DoMpc.Spec
