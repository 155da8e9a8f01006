import Verif.Spec.Lifecycle
import Verif.Spec.CollStage

/-!
# The problem a user configures

The robust multi-stage problem (`Spec.MultiStage`, in physical units) read off the list of configuration calls, and what it means for a point to be a global
minimiser of the problem an MPC object hands to its solver.
-/
namespace DoMpc.Spec
variable {K : Type} [Field K] [LinearOrder K] {d : Dims}

/-- Calls after `setup()` that are considered: assigning a bound, solving, and every call that is refused then. -/
def Later : MpcOp K d → Prop
  | .settings _ | .terminalBound _ _ _ | .optBound _ _ _ | .prepare | .setup => False
  | _ => True

/-- assigning a bound -/
def isBound : MpcOp K d → Bool
  | .bound _ _ _ => true
  | _ => false

/-- The penalty on input changes given last: `Σ rⱼ ((uⱼ - u'ⱼ)/scalingⱼ)²` or the user's function. -/
def changeWanted (calls : List (MpcOp K d)) : Vec K d.nx → Vec K d.nu → Vec K d.nu → Vec K d.nz → Vec K d.ntv → Vec K d.np → K :=
  match lastOf rtermOf calls (.factor fun _ => 0) with
  | .factor r => fun _ u v _ _ _ => (List.ofFn fun j => r j * ((u j - v j) / lastOf (scalingOf (.u j)) calls 1) ^ 2).sum
  | .user f => f

/-- The problem the calls ask for, for a measured state, the input applied last and the parameters in `q`. -/
def configured (S : MpcSettings) (calls : List (MpcOp K d)) (ob : Objective K d) (m : DaeModel K d) (q : OptP K d) : MultiStage K d where
  N := (lastOf settingsOf calls S).N
  nR := (lastOf settingsOf calls S).nRobust
  c := (lastOf settingsOf calls S).c
  model := m
  x0 := q.x0
  uLast := q.uPrev
  tvp := q.tvp
  p := q.p
  xlb := fun j => lastOf (boundOf .lower (.x j)) calls .ninf
  xub := fun j => lastOf (boundOf .upper (.x j)) calls .pinf
  ulb := fun j => lastOf (boundOf .lower (.u j)) calls .ninf
  uub := fun j => lastOf (boundOf .upper (.u j)) calls .pinf
  zlb := fun j => lastOf (boundOf .lower (.z j)) calls .ninf
  zub := fun j => lastOf (boundOf .upper (.z j)) calls .pinf
  xtlb := terminalWanted calls (lastOf settingsOf calls S) .lower
  xtub := terminalWanted calls (lastOf settingsOf calls S) .upper
  cons := calls.filterMap nlConsOf
  stage := ob.lterm
  terminal := ob.mterm
  change := changeWanted calls
  openLoop := (lastOf settingsOf calls S).openLoop

/-- … for a continuous-time model and collocation -/
def configuredColl (S : MpcSettings) (calls : List (MpcOp K d)) (ob : Objective K d) (m : DaeModel K d) (deg ni : Nat) (tau : Nat → K) (tStep : K)
    (q : OptP K d) : CollStage K d :=
  { configured S calls ob m q with deg := deg, ni := ni, tau := tau, tStep := tStep, allPoints := (lastOf settingsOf calls S).consColloc }

/-- Calls for which the solver's problem is the documented one (counterexamples for the others: `C07_fails_*`, `C08_fails_*`, `C09_fails_*`, `C12_fails_*`). -/
structure PlainCalls (S : MpcSettings) (calls : List (MpcOp K d)) : Prop where
  cpos : 0 < (lastOf settingsOf calls S).c
  horizon : (lastOf settingsOf calls S).nRobust < (lastOf settingsOf calls S).N
  slack : (lastOf settingsOf calls S).singleSlack = false
  noColl : (lastOf settingsOf calls S).nlColloc = false
  noAlg : d.nz = 0 ∨ (lastOf settingsOf calls S).nRobust = 0 ∨ (lastOf settingsOf calls S).c = 1
  scaling : ∀ v, 0 < lastOf (scalingOf v) calls 1
  names : ((calls.filterMap nlConsOf).map (·.name)).Nodup
  rterm : ∀ f, lastOf rtermOf calls (.factor fun _ => 0) = .user f → ∀ j, lastOf (scalingOf (.u j)) calls 1 = 1

/-- The values of all entries of `opt_x` are within the bounds given to the solver. -/
def WithinBounds (P : Prepared K d) (w : OptX K d) : Prop :=
  (∀ k ≤ P.cfg.N, ∀ s < P.cfg.nMax, ∀ i ≤ P.cfg.xLast, ∀ j, (P.lb.x k s i j).le (w.x k s i j) ∧ (P.ub.x k s i j).ge (w.x k s i j)) ∧
  (∀ k < P.cfg.N, ∀ s < P.cfg.nMax, ∀ i ≤ P.cfg.zLast, ∀ j, (P.lb.z k s i j).le (w.z k s i j) ∧ (P.ub.z k s i j).ge (w.z k s i j)) ∧
  (∀ k < P.cfg.N, ∀ s < P.cfg.nU, ∀ j, (P.lb.u k s j).le (w.u k s j) ∧ (P.ub.u k s j).ge (w.u k s j)) ∧
  (∀ k < P.cfg.nEps, ∀ s < P.cfg.nMax, ∀ sl ∈ slackVars P.cfg.nl, ∀ i < sl.dim,
    (P.lb.eps k s sl.name i).le (w.eps k s sl.name i) ∧ (P.ub.eps k s sl.name i).ge (w.eps k s sl.name i))

/-- `w` satisfies the constraints and bounds given to the solver of `o`, for the parameters `q` -/
def SolverFeasible (o : MpcObj K d) (w : OptX K d) (q : OptP K d) : Prop :=
  ∃ F P, o.solver = some F ∧ o.prep = some P ∧ (∀ r ∈ F.rows w q, r.Holds) ∧ WithinBounds P w

/-- … and no point that does has a smaller objective value -/
def SolverMinimises (o : MpcObj K d) (w : OptX K d) (q : OptP K d) : Prop :=
  SolverFeasible o w q ∧ ∀ F, o.solver = some F → ∀ w', SolverFeasible o w' q → F.obj w q ≤ F.obj w' q

end DoMpc.Spec
