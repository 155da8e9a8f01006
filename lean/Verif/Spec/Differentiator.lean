import Verif.Model.Differentiator

/-!
# What sensitivities must satisfy

The conditions of first order of a parametric NLP `min f(x,p)  s.t.  lbg ≤ g(x,p) ≤ ubg, lbx ≤ x ≤ ubx` with multipliers `lamG`, `lamX`, linearised
in the direction of parameter `k`.
-/
namespace DoMpc.Diff.Spec

open scoped BigOperators

variable {K : Type} [Field K] [LinearOrder K] [IsStrictOrderedRing K]

/-- A value is at one of its bounds, up to the tolerance. -/
def AtBound (tol v : K) (lb ub : Option K) : Prop := ∃ b, (lb = some b ∨ ub = some b) ∧ |v - b| ≤ tol

/-- constraint `m` of `(g, x)` is at a bound -/
def ActiveCons (N : Nlp K) (tol : K) (s : Sol K) (m : Nat) : Prop :=
  if m < N.ng then AtBound tol (s.g m) (N.lbg m) (N.ubg m) else AtBound tol (s.x (m - N.ng)) (N.lbx (m - N.ng)) (N.ubx (m - N.ng))

/-- The linearised conditions at `(x, lamG, p)` in direction `k`. -/
structure LinearizedKkt (N : Nlp K) (x l p : Nat → K) (actG actX : Nat → Prop) (dx dlamG dlamX : Nat → K) (k : Nat) : Prop where
  stationarity : ∀ i < N.nx, ∑ j ∈ Finset.range N.nx, N.hxx x l p i j * dx j + ∑ c ∈ Finset.range N.ng, N.jac x p c i * dlamG c + dlamX i +
    N.hxp x l p i k = 0
  activeG : ∀ c < N.ng, actG c → ∑ j ∈ Finset.range N.nx, N.jac x p c j * dx j + N.jacP x p c k = 0
  activeX : ∀ i < N.nx, actX i → dx i = 0
  inactiveG : ∀ c < N.ng, ¬ actG c → dlamG c = 0
  inactiveX : ∀ i < N.nx, ¬ actX i → dlamX i = 0

/-- The linearised conditions determine the direction: without a change of the parameters the variables (those that occur in the problem) and the
multipliers do not change. -/
def Regular (N : Nlp K) (x l p : Nat → K) (actG actX : Nat → Prop) : Prop :=
  ∀ dx dlamG dlamX : Nat → K,
    (∀ i < N.nx, ∑ j ∈ Finset.range N.nx, N.hxx x l p i j * dx j + ∑ c ∈ Finset.range N.ng, N.jac x p c i * dlamG c + dlamX i = 0) →
    (∀ c < N.ng, actG c → ∑ j ∈ Finset.range N.nx, N.jac x p c j * dx j = 0) → (∀ i < N.nx, actX i → dx i = 0) →
    (∀ c < N.ng, ¬ actG c → dlamG c = 0) → (∀ i < N.nx, ¬ actX i → dlamX i = 0) →
    (∀ i < N.nx, N.depX i = true → dx i = 0) ∧ (∀ c < N.ng, dlamG c = 0) ∧ ∀ i < N.nx, dlamX i = 0

/-- A linear solver returns solutions (when it returns). -/
def Solves (lin : LinSolver K) : Prop :=
  ∀ n m A R s, lin n m A R = some s → ∀ a < n, ∀ k < m, ∑ b ∈ Finset.range n, A a b * s b k = R a k

/-- What "does not occur in `f` or `g`" means for derivatives: those with respect to variables and parameters that do not occur vanish, and the
others do not change with them. -/
structure DependsCorrect (N : Nlp K) : Prop where
  hxx_left : ∀ x l p i j, i < N.nx → N.depX i = false → N.hxx x l p i j = 0
  hxx_right : ∀ x l p i j, j < N.nx → N.depX j = false → N.hxx x l p i j = 0
  hxp_left : ∀ x l p i k, i < N.nx → N.depX i = false → N.hxp x l p i k = 0
  hxp_right : ∀ x l p i k, k < N.np → N.depP k = false → N.hxp x l p i k = 0
  jac : ∀ x p c j, j < N.nx → N.depX j = false → N.jac x p c j = 0
  jacP : ∀ x p c k, k < N.np → N.depP k = false → N.jacP x p c k = 0
  unchanged : ∀ x x' l p p', (∀ i < N.nx, N.depX i = true → x i = x' i) → (∀ k < N.np, N.depP k = true → p k = p' k) →
    N.hxx x l p = N.hxx x' l p' ∧ N.hxp x l p = N.hxp x' l p' ∧ N.jac x p = N.jac x' p' ∧ N.jacP x p = N.jacP x' p'

end DoMpc.Diff.Spec
