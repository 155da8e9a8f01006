import Verif.Spec.LiveLoop

/-!
# A configured loop that keeps its constraints for ever

Conditions on the calls before `setup()`, on the terminal bounds and on the predictions, stated in terms of the calls.
-/
namespace DoMpc.Spec
variable {K : Type} [Field K] [LinearOrder K] {d : Dims} {n : Nat}

/-- Calls for which the constraints and bounds of the solver's problem are the documented ones (the part of `PlainCalls` that does not concern the cost; any robust horizon). -/
structure ConstraintCalls (S : MpcSettings) (calls : List (MpcOp K d)) : Prop where
  cpos : 0 < (lastOf settingsOf calls S).c
  horizon : 0 < (lastOf settingsOf calls S).N
  slack : (lastOf settingsOf calls S).singleSlack = false
  noColl : (lastOf settingsOf calls S).nlColloc = false
  noAlg : d.nz = 0 ∨ (lastOf settingsOf calls S).nRobust = 0 ∨ (lastOf settingsOf calls S).c = 1
  scaling : ∀ v, 0 < lastOf (scalingOf v) calls 1
  names : ((calls.filterMap nlConsOf).map (·.name)).Nodup

/-- The solver, called for the problem of `o` with any parameters and initial guess, finds a point that satisfies the constraints if there is one – not necessarily an optimal one. -/
def FindsPoint (o : MpcObj K d) (Sv : Solver K d n) : Prop :=
  ∀ pb, o.problem = some pb → ∀ a, (∃ w, SolverFeasible o w a.p) → SolverFeasible o (Sv pb a).x a.p

/-- the value is within the bounds given last -/
def InStateBounds (calls : List (MpcOp K d)) (x : Vec K d.nx) : Prop :=
  ∀ j, (lastOf (boundOf .lower (.x j)) calls .ninf).le (x j) ∧ (lastOf (boundOf .upper (.x j)) calls .pinf).ge (x j)

/-- … of an input -/
def InInputBounds (calls : List (MpcOp K d)) (u : Vec K d.nu) : Prop :=
  ∀ j, (lastOf (boundOf .lower (.u j)) calls .ninf).le (u j) ∧ (lastOf (boundOf .upper (.u j)) calls .pinf).ge (u j)

/-- … of an algebraic state -/
def InAlgebraicBounds (calls : List (MpcOp K d)) (z : Vec K d.nz) : Prop :=
  ∀ j, (lastOf (boundOf .lower (.z j)) calls .ninf).le (z j) ∧ (lastOf (boundOf .upper (.z j)) calls .pinf).ge (z j)

/-- the state is within the terminal bounds -/
def InTerminalBounds (S : MpcSettings) (calls : List (MpcOp K d)) (x : Vec K d.nx) : Prop :=
  ∀ j, (terminalWanted calls (lastOf settingsOf calls S) .lower j).le (x j) ∧ (terminalWanted calls (lastOf settingsOf calls S) .upper j).ge (x j)

/-- The terminal bounds are at least as tight as the state bounds and the set of states they admit is robust control invariant: from each state in it one admissible input leads, whatever
realisation of the parameters occurs, to a state in it, and the nonlinear constraints hold without violation meanwhile. -/
structure SafeTerminal (S : MpcSettings) (calls : List (MpcOp K d)) (m : DaeModel K d) (tvp : K → Nat → Vec K d.ntv) (p : K → Nat → Vec K d.np) : Prop where
  inside : ∀ x, InTerminalBounds S calls x → InStateBounds calls x
  noSlack : ∀ call ∈ calls.filterMap nlConsOf, call.soft = true → call.maxViolation.ge 0
  invariant : ∀ t x, InTerminalBounds S calls x → ∃ u, InInputBounds calls u ∧
    ∀ r, MayOccur (lastOf settingsOf calls S).c (lastOf settingsOf calls S).nRobust 0 [] r →
      ∃ z, m.alg x u z (tvp t (lastOf settingsOf calls S).N) (p t r) 0 = 0 ∧ InAlgebraicBounds calls z ∧
        (∀ call ∈ calls.filterMap nlConsOf, ∀ i < call.dim, call.ub.ge (call.expr x u z (tvp t (lastOf settingsOf calls S).N) (p t r) i)) ∧
        InTerminalBounds S calls (m.rhs x u z (tvp t (lastOf settingsOf calls S).N) (p t r) 0)

/-- What is predicted for a later time is what is used then; the realisations of the parameters that the controller takes into account do not change with time. -/
structure ConsistentTime (dt : K) (N c nR : Nat) (tvp : K → Nat → Vec K d.ntv) (p : K → Nat → Vec K d.np) : Prop where
  tvp : ∀ t, ∀ k < N, tvp (t + dt) k = tvp t (k + 1)
  params : ∀ t r, MayOccur c nR 0 [] r → p (t + dt) r = p t r

/-- The controller is nominal, or its robust horizon is the prediction horizon (and it optimises over policies). -/
def FullyRobust (S : MpcSettings) : Prop := S.nRobust = 0 ∨ (S.N ≤ S.nRobust ∧ S.openLoop = false)

/-- Events after which the episode goes on with the same problem: those of `FairEv` but new episodes and assignments of bounds. -/
def SafeEv (o : MpcObj K d) (names : List String) : LoopEv K d n → Prop
  | .restart _ => False
  | .ctrl (.config (.bound _ _ _)) => False
  | .turn Sv => FindsPoint o Sv ∧ ReportsNumbers names Sv
  | e => FairEv e

/-- What a turn from the state `x` did, `tv`, `p` being the parameters of the simulator: input and algebraic state are within their bounds, the plant moved by the model's equations,
its next state is within the state bounds (the terminal bounds if `n_horizon = 1`) and the nonlinear constraints hold, soft ones up to their maximum violation. -/
def SafeTurn (S : MpcSettings) (calls : List (MpcOp K d)) (m : DaeModel K d) (x : Vec K d.nx) (tv : Vec K d.ntv) (p : Vec K d.np)
    (u : Vec K d.nu) (y : Vec K d.ny) : Prop :=
  ∃ z, m.alg x u z tv p 0 = 0 ∧ asState y = m.rhs x u z tv p 0 ∧ InInputBounds calls u ∧ InAlgebraicBounds calls z ∧
    (if (lastOf settingsOf calls S).N = 1 then InTerminalBounds S calls (asState y) else InStateBounds calls (asState y)) ∧
    ∀ call ∈ calls.filterMap nlConsOf, ∀ i < call.dim,
      if call.soft then ∃ v, 0 ≤ v ∧ call.maxViolation.ge v ∧ call.ub.ge (call.expr x u z tv p i - v) else call.ub.ge (call.expr x u z tv p i)

end DoMpc.Spec

namespace DoMpc.Spec
open Polynomial
variable {K : Type} [Field K] [LinearOrder K] {d : Dims} {n : Nat}

/-- The bounds of the state hold at the collocation points of the interval after the first. -/
def PointsInStateBounds (s : Scheme K) (calls : List (MpcOp K d)) (P : Nat → Fin d.nx → K[X]) : Prop :=
  ∀ i < s.ni, ∀ j ≤ s.deg, ¬ (i = 0 ∧ j = 0) → InStateBounds calls (valueAt (P i) (s.tau j))

/-- The bounds of the algebraic states hold at the first point of the interval, with `cons_check_colloc_points` at all of them. -/
def PointsInAlgebraicBounds (s : Scheme K) (S : MpcSettings) (calls : List (MpcOp K d)) (ζ : Nat → Nat → Vec K d.nz) : Prop :=
  ∀ i < s.ni, ∀ j ≤ s.deg, ((lastOf settingsOf calls S).consColloc = true ∨ (i = 0 ∧ j = 0)) → InAlgebraicBounds calls (ζ i j)

/-- As `SafeTerminal`, along the collocation polynomials; with `cons_check_colloc_points`, besides, no trajectory that the controller's problem admits leaves the state bounds on its way into
the terminal bounds. -/
structure SafeTerminalColl (s : Scheme K) (S : MpcSettings) (calls : List (MpcOp K d)) (m : DaeModel K d) (tvp : K → Nat → Vec K d.ntv) (p : K → Nat → Vec K d.np) :
    Prop where
  inside : ∀ x, InTerminalBounds S calls x → InStateBounds calls x
  noSlack : ∀ call ∈ calls.filterMap nlConsOf, call.soft = true → call.maxViolation.ge 0
  invariant : ∀ t x, InTerminalBounds S calls x → ∃ u, InInputBounds calls u ∧
    ∀ r, MayOccur (lastOf settingsOf calls S).c (lastOf settingsOf calls S).nRobust 0 [] r →
      ∃ x' P ζ, s.Interval m x u (tvp t (lastOf settingsOf calls S).N) (p t r) x' P ζ ∧ PointsInAlgebraicBounds s S calls ζ ∧
        ((lastOf settingsOf calls S).consColloc = true → PointsInStateBounds s calls P) ∧
        (∀ call ∈ calls.filterMap nlConsOf, ∀ i < call.dim, call.ub.ge (call.expr x u (ζ 0 0) (tvp t (lastOf settingsOf calls S).N) (p t r) i)) ∧
        InTerminalBounds S calls x'
  overshoot : (lastOf settingsOf calls S).consColloc = true → ∀ t r, MayOccur (lastOf settingsOf calls S).c (lastOf settingsOf calls S).nRobust 0 [] r →
    ∀ x u x' P ζ, s.Interval m x u (tvp t ((lastOf settingsOf calls S).N - 1)) (p t r) x' P ζ → InStateBounds calls x → InInputBounds calls u → InTerminalBounds S calls x' →
      PointsInStateBounds s calls P

/-- As `SafeTurn`: the plant moved along collocation polynomials, whose points are within the state bounds with `cons_check_colloc_points` (and `n_horizon > 1`). -/
def SafeTurnColl (s : Scheme K) (S : MpcSettings) (calls : List (MpcOp K d)) (m : DaeModel K d) (x : Vec K d.nx) (tv : Vec K d.ntv) (p : Vec K d.np)
    (u : Vec K d.nu) (y : Vec K d.ny) : Prop :=
  ∃ P ζ, s.Interval m x u tv p (asState y) P ζ ∧ InInputBounds calls u ∧ PointsInAlgebraicBounds s S calls ζ ∧
    (if (lastOf settingsOf calls S).N = 1 then InTerminalBounds S calls (asState y)
      else InStateBounds calls (asState y) ∧ ((lastOf settingsOf calls S).consColloc = true → PointsInStateBounds s calls P)) ∧
    ∀ call ∈ calls.filterMap nlConsOf, ∀ i < call.dim,
      if call.soft then ∃ v, 0 ≤ v ∧ call.maxViolation.ge v ∧ call.ub.ge (call.expr x u (ζ 0 0) tv p i - v) else call.ub.ge (call.expr x u (ζ 0 0) tv p i)

end DoMpc.Spec
