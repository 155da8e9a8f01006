import Verif.Spec.Lifecycle
import Verif.Spec.EstimationColl

/-!
# The estimation problem a user configures

The estimation problem (`Spec.Estimation`, in physical units) read off the list of configuration calls of a moving horizon estimator, and what it means for a point to be
a global minimiser of the problem an MHE object hands to its solver.
-/
namespace DoMpc.Spec
variable {K : Type} [Field K] [LinearOrder K] {d : Dims} {ne ns : Nat}

/-- Calls after `setup()` that are considered: everything but assigning settings, writing `lb_opt_x`/`ub_opt_x` and building the problem again. -/
def MheLater : MheOp K d ne ns → Prop
  | .settings _ | .optBound _ _ _ | .prepare | .setup => False
  | _ => True

/-- assigning a bound -/
def mheIsBound : MheOp K d ne ns → Bool
  | .bound _ _ _ => true
  | _ => false

/-- The parameters of the data of an estimate, in the words of the specification. -/
def dataOf (q : MheP K d ne ns) : EstimationData K d ne ns := ⟨q.xPrev, q.pEstPrev, q.pSet, q.tvp, q.yMeas⟩

/-- The problem the calls ask for, with the costs `co`; `sel` says which parameters of the model are estimated. -/
def mheConfigured (S : MheSettings K) (calls : List (MheOp K d ne ns)) (co : MheCost K d ne ns) (m : DaeModel K d) (sel : Fin d.np → Fin ne ⊕ Fin ns) :
    EstimationTask K d ne ns where
  N := (lastOf mheSettingsOf calls S).N
  model := m
  merge := fun e s i => Sum.elim e s (sel i)
  xlb := fun j => lastOf (mheBoundOf .lower (.x j)) calls .ninf
  xub := fun j => lastOf (mheBoundOf .upper (.x j)) calls .pinf
  zlb := fun j => lastOf (mheBoundOf .lower (.z j)) calls .ninf
  zub := fun j => lastOf (mheBoundOf .upper (.z j)) calls .pinf
  ulb := fun j => lastOf (mheBoundOf .lower (.u j)) calls .ninf
  uub := fun j => lastOf (mheBoundOf .upper (.u j)) calls .pinf
  plb := fun j => lastOf (mheBoundOf .lower (.p j)) calls .ninf
  pub := fun j => lastOf (mheBoundOf .upper (.p j)) calls .pinf
  cons := calls.filterMap mheNlConsOf
  singleSlack := (lastOf mheSettingsOf calls S).singleSlack
  stage := co.stage
  arrival := co.arrival

/-- … for a continuous-time model and collocation -/
def mheConfiguredColl (S : MheSettings K) (calls : List (MheOp K d ne ns)) (co : MheCost K d ne ns) (m : DaeModel K d) (sel : Fin d.np → Fin ne ⊕ Fin ns)
    (deg ni : Nat) (tau : Nat → K) : CollEstimation K d ne ns :=
  { mheConfigured S calls co m sel with deg := deg, ni := ni, tau := tau, tStep := (lastOf mheSettingsOf calls S).tStep }

/-- Calls for which the solver's problem is the documented one (counterexamples for the others: `C24_fails_*`, `C26_fails_*`, `C72_fails_*`). -/
structure PlainMheCalls (S : MheSettings K) (calls : List (MheOp K d ne ns)) : Prop where
  horizon : 0 < (lastOf mheSettingsOf calls S).N
  noColl : (lastOf mheSettingsOf calls S).nlColloc = false
  allPoints : (lastOf mheSettingsOf calls S).consColloc = true
  names : ((calls.filterMap mheNlConsOf).map (·.name)).Nodup
  sx : ∀ j, 0 < lastOf (mheScalingOf (.x j)) calls 1
  su : ∀ j, 0 < lastOf (mheScalingOf (.u j)) calls 1
  sz : ∀ j, 0 < lastOf (mheScalingOf (.z j)) calls 1
  sp : ∀ j, lastOf (mheScalingOf (.p j)) calls 1 = 1

/-- The values of all entries of `opt_x` are within the bounds given to the solver. -/
def MheWithinBounds (P : MhePrepared K d ne ns) (w : MheX K d ne) : Prop :=
  (∀ k ≤ P.cfg.N, ∀ i ≤ P.cfg.xLast, ∀ j, (P.lb.x k i j).le (w.x k i j) ∧ (P.ub.x k i j).ge (w.x k i j)) ∧
  (∀ k < P.cfg.N, ∀ i ≤ P.cfg.zLast, ∀ j, (P.lb.z k i j).le (w.z k i j) ∧ (P.ub.z k i j).ge (w.z k i j)) ∧
  (∀ k < P.cfg.N, ∀ j, (P.lb.u k j).le (w.u k j) ∧ (P.ub.u k j).ge (w.u k j)) ∧
  (∀ k < P.cfg.nEps, ∀ sl ∈ slackVars P.cfg.nl, ∀ i < sl.dim, (P.lb.eps k sl.name i).le (w.eps k sl.name i) ∧ (P.ub.eps k sl.name i).ge (w.eps k sl.name i)) ∧
  (∀ j, (P.lb.pEst j).le (w.pEst j) ∧ (P.ub.pEst j).ge (w.pEst j))

/-- `w` satisfies the constraints and bounds given to the solver of `o`, for the parameters `q` -/
def MheSolverFeasible (o : MheObj K d ne ns) (w : MheX K d ne) (q : MheP K d ne ns) : Prop :=
  ∃ F P rs, o.solver = some F ∧ o.prep = some P ∧ F.rows w q = .ok rs ∧ (∀ r ∈ rs, r.Holds) ∧ MheWithinBounds P w

/-- … and no point that does has a smaller objective value -/
def MheSolverMinimises (o : MheObj K d ne ns) (w : MheX K d ne) (q : MheP K d ne ns) : Prop :=
  MheSolverFeasible o w q ∧ ∀ F, o.solver = some F → ∀ w', MheSolverFeasible o w' q → F.obj w q ≤ F.obj w' q

end DoMpc.Spec
