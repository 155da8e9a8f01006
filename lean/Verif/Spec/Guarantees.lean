import Verif.Props.ClosedLoop
import Verif.Spec.MultiStage

/-!
# Vocabulary of the closed-loop guarantees

Boxes, "the plant is the model", and the terminal conditions of the stability theory of model predictive control.  Nothing here mentions solver variables.
-/
namespace DoMpc
open Spec
variable {K : Type} [Field K] [LinearOrder K] {d : Dims}

/-- Every component is between its bounds. -/
def Within {n : Nat} (lb ub : Fin n → Bound K) (v : Vec K n) : Prop := ∀ j, (lb j).le (v j) ∧ (ub j).ge (v j)

/-- The constraints given to `set_nl_cons` hold; soft ones up to a violation of at most `maximum_violation`. -/
def ConstraintsHold (nl : List (NlCall K d)) (x : Vec K d.nx) (u : Vec K d.nu) (z : Vec K d.nz) (tv : Vec K d.ntv) (p : Vec K d.np) : Prop :=
  ∀ call ∈ nl, ∀ i < call.dim,
    if call.soft then ∃ v, 0 ≤ v ∧ call.maxViolation.ge v ∧ call.ub.ge (call.expr x u z tv p i - v) else call.ub.ge (call.expr x u z tv p i)

/-- The simulator's model is `m`, in discrete time; the algebraic equations have at most one solution, which the simulator's root finder finds. -/
structure SamePlant (m : DaeModel K d) (ES : SimEnv K d) : Prop where
  model : ES.model = m
  discrete : ∃ root, ES.plant = .discrete root ∧ ∀ z x u tv p, m.alg x u (root z x u tv p 0) tv p 0 = 0
  unique : ∀ x u z z' tv p, m.alg x u z tv p 0 = 0 → m.alg x u z' tv p 0 = 0 → z = z'

/-- The plant is the model of the controller: the time-varying parameters are the predicted ones; at each time the parameters of the plant are among
those the controller takes into account (the nominal ones if `n_robust = 0`). -/
structure PlantFollows (EM : MpcEnv K d) (ES : SimEnv K d) : Prop extends SamePlant EM.model ES where
  tvp : ∀ t, ES.tvpFun t = EM.tvpFun t 0
  params : ∀ t, ∃ r, MayOccur EM.cfg.c EM.cfg.nRobust 0 [] r ∧ ES.pFun t = EM.pFun t r
  time : EM.tStep = ES.tStep

/-- … and the whole state is measured. -/
structure PlantMatches (EM : MpcEnv K d) (ES : SimEnv K d) : Prop extends PlantFollows EM ES where
  measured : StateMeasured ES.model

/-- What the solver is asked in the next iteration of the loop: the problem for the current estimate, time and last input. -/
def Loop.asked (EM : MpcEnv K d) (l : Loop K d) : SolverArgs K d :=
  { x0 := l.mpc.optX, p := ⟨fun i => l.x.getD i 0, EM.tvpFun l.mpc.t0, EM.pFun l.mpc.t0, l.mpc.u0⟩
    lam := if l.mpc.initialRun then some (l.mpc.lamG, l.mpc.lamX) else none }

/-- In every iteration that is reached the solver returns a feasible point of the problem it is asked. -/
def SolverFeasible (EM : MpcEnv K d) (ES : SimEnv K d) (Ss : List (SolverArgs K d → SolverResult K d EM.nLagr)) (l : Loop K d) : Prop :=
  ∀ i, ∀ hi : i < Ss.length, ∀ l1, Loop.iterate EM ES (Ss.take i) l = some l1 → EM.cfg.Feasible (Ss[i] (l1.asked EM)).x (l1.asked EM).p


/-- The solver does its job: whenever the problem it is asked is feasible it returns a feasible point. -/
def FindsFeasible (cfg : MpcCfg K d) {n : Nat} (S : SolverArgs K d → SolverResult K d n) : Prop :=
  ∀ a, (∃ w, cfg.Feasible w a.p) → cfg.Feasible (S a).x a.p

/-- … a global minimiser. -/
def FindsOptimum (cfg : MpcCfg K d) {n : Nat} (S : SolverArgs K d → SolverResult K d n) : Prop :=
  ∀ a, (∃ w, cfg.Feasible w a.p) → cfg.Feasible (S a).x a.p ∧ ∀ w, cfg.Feasible w a.p → cfg.obj (S a).x a.p ≤ cfg.obj w a.p

/-- Predictions are consistent: what is predicted for a later time is what is used then, and the nominal parameters are constant. -/
structure ConsistentPredictions (EM : MpcEnv K d) : Prop where
  tvp : ∀ t, ∀ k < EM.cfg.N, EM.tvpFun (t + EM.tStep) k = EM.tvpFun t (k + 1)
  params : ∀ t, EM.pFun (t + EM.tStep) 0 = EM.pFun t 0

/-- With input `u` (and algebraic state `z`) the state `x` of the terminal set is admissible and its successor in the terminal set. -/
def KeepsTerminal (cfg : MpcCfg K d) (m : DaeModel K d) (tv : Vec K d.ntv) (p : Vec K d.np) (x : Vec K d.nx) (u : Vec K d.nu) (z : Vec K d.nz) : Prop :=
  m.alg x u z tv p 0 = 0 ∧ Within cfg.ulb cfg.uub u ∧ Within cfg.zlb cfg.zub z ∧
  (∀ call ∈ cfg.nl, ∀ i < call.dim, call.ub.ge (call.expr x u z tv p i)) ∧ Within cfg.xtlb cfg.xtub (m.rhs x u z tv p 0)

/-- The terminal set (the box of the terminal bounds) is inside the state bounds and control invariant. -/
structure InvariantTerminalSet (EM : MpcEnv K d) : Prop where
  inside : ∀ x, Within EM.cfg.xtlb EM.cfg.xtub x → Within EM.cfg.xlb EM.cfg.xub x
  noSlack : ∀ call ∈ EM.cfg.nl, call.soft = true → call.maxViolation.ge 0
  invariant : ∀ t x, Within EM.cfg.xtlb EM.cfg.xtub x → ∃ u z, KeepsTerminal EM.cfg EM.model (EM.tvpFun t EM.cfg.N) (EM.pFun t 0) x u z

/-- … and the terminal cost is a control Lyapunov function on it: it falls by at least the stage cost. -/
structure TerminalCost (EM : MpcEnv K d) : Prop where
  inside : ∀ x, Within EM.cfg.xtlb EM.cfg.xtub x → Within EM.cfg.xlb EM.cfg.xub x
  noSlack : ∀ call ∈ EM.cfg.nl, call.soft = true → call.maxViolation.ge 0
  decrease : ∀ t x, Within EM.cfg.xtlb EM.cfg.xtub x → ∃ u z, KeepsTerminal EM.cfg EM.model (EM.tvpFun t EM.cfg.N) (EM.pFun t 0) x u z ∧
    EM.cfg.lterm x u z (EM.tvpFun t EM.cfg.N) (EM.pFun t 0) +
      EM.cfg.mterm (EM.model.rhs x u z (EM.tvpFun t EM.cfg.N) (EM.pFun t 0) 0) (EM.tvpFun (t + EM.tStep) EM.cfg.N) (EM.pFun t 0) ≤
    EM.cfg.mterm x (EM.tvpFun t EM.cfg.N) (EM.pFun t 0)

/-- The terminal set is robust control invariant: one input keeps the state in it whatever realisation occurs (the algebraic state may depend on the realisation). -/
structure RobustInvariantTerminalSet (EM : MpcEnv K d) : Prop where
  inside : ∀ x, Within EM.cfg.xtlb EM.cfg.xtub x → Within EM.cfg.xlb EM.cfg.xub x
  noSlack : ∀ call ∈ EM.cfg.nl, call.soft = true → call.maxViolation.ge 0
  invariant : ∀ t x, Within EM.cfg.xtlb EM.cfg.xtub x →
    ∃ u, ∀ r < EM.cfg.c, ∃ z, KeepsTerminal EM.cfg EM.model (EM.tvpFun t EM.cfg.N) (EM.pFun t r) x u z

/-- Predictions are consistent, for all realisations of the parameters. -/
structure ConsistentRealisations (EM : MpcEnv K d) : Prop where
  tvp : ∀ t, ∀ k < EM.cfg.N, EM.tvpFun (t + EM.tStep) k = EM.tvpFun t (k + 1)
  params : ∀ t, ∀ r < EM.cfg.c, EM.pFun (t + EM.tStep) r = EM.pFun t r

end DoMpc
