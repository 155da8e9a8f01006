import Verif.Spec.Guarantees
import Verif.Props.MheOptimal

/-!
# Vocabulary: the closed loop of controller, simulator and moving horizon estimator
-/
namespace DoMpc
open Spec
variable {K : Type} [Field K] [LinearOrder K] {d : Dims} {ne ns : Nat}

/-- State of the user's loop: controller, simulator, estimator, current estimate. -/
structure OutLoop (K : Type) (d : Dims) (ne ns : Nat) where
  mpc : MpcSt K d
  sim : SimSt K d
  mhe : MheSt K d ne ns
  x : List K

/-- Behaviour of the two solvers in one iteration. -/
structure Solvers (EM : MpcEnv K d) (EE : MheEnv K d ne ns) where
  mpc : SolverArgs K d → SolverResult K d EM.nLagr
  mhe : MheArgs K d ne ns → MheResult K d ne EE.nLagr

variable (EM : MpcEnv K d) (ES : SimEnv K d) (EE : MheEnv K d ne ns)

/-- One iteration of the loop of the examples (`/repo/examples/rotating_oscillating_masses_mhe_mpc/main.py:134-140`):
`u0 = mpc.make_step(x0); y = simulator.make_step(u0); x0 = mhe.make_step(y)`, without noise; `none` if one of the calls raises. -/
def OutLoop.step (S : Solvers EM EE) (l : OutLoop K d ne ns) : Option (OutLoop K d ne ns) :=
  match EM.makeStep S.mpc l.mpc l.x with
  | (_, .error _) => none
  | (m', .ok u) =>
    match ES.makeStep l.sim { u := some (List.ofFn u) } with
    | (_, .error _) => none
    | (s', .ok y) =>
      match EE.makeStep S.mhe l.mhe (List.ofFn y) with
      | (_, .error _) => none
      | (e', .ok x) => some { mpc := m', sim := s', mhe := e', x := List.ofFn x }

/-- A number of iterations. -/
def OutLoop.iterate : List (Solvers EM EE) → OutLoop K d ne ns → Option (OutLoop K d ne ns)
  | [], l => some l
  | S :: Ss, l => (OutLoop.step EM ES EE S l).bind (OutLoop.iterate Ss)

/-- What the controller's solver is asked in the next iteration. -/
def OutLoop.asked (l : OutLoop K d ne ns) : SolverArgs K d := Loop.asked EM ⟨l.mpc, l.sim, l.x⟩

/-- What the estimator's solver is asked in the next iteration (after controller and simulator). -/
def OutLoop.estimatorAsked (S : Solvers EM EE) (l : OutLoop K d ne ns) : Option (MheArgs K d ne ns) :=
  match EM.makeStep S.mpc l.mpc l.x with
  | (_, .error _) => none
  | (_, .ok u) =>
    match ES.makeStep l.sim { u := some (List.ofFn u) } with
    | (_, .error _) => none
    | (_, .ok y) => some (EE.args l.mhe (List.ofFn y))

/-- In every iteration that is reached the controller's solver returns a feasible point. -/
def ControllerFeasible (Ss : List (Solvers EM EE)) (l : OutLoop K d ne ns) : Prop :=
  ∀ i, ∀ hi : i < Ss.length, ∀ l1, OutLoop.iterate EM ES EE (Ss.take i) l = some l1 → EM.cfg.Feasible (Ss[i].mpc (l1.asked EM)).x (l1.asked EM).p

/-- In every iteration that is reached the estimator's solver returns a global minimiser if there is one. -/
def EstimatorSolves (Ss : List (Solvers EM EE)) (l : OutLoop K d ne ns) : Prop :=
  ∀ i, ∀ hi : i < Ss.length, ∀ l1, OutLoop.iterate EM ES EE (Ss.take i) l = some l1 → ∀ a, OutLoop.estimatorAsked EM ES EE Ss[i] l1 = some a →
    (∃ o, EE.cfg.Solves o a.p) → EE.cfg.Solves (Ss[i].mhe a).x a.p

/-- The estimator fits to controller and plant: same model and time step; the plant's parameters are constant and consist of those the estimator is given and
those it estimates; what it is told about time-varying parameters is what they were; the plant's state within the controller's bounds and constraints is within the
estimator's. -/
structure EstimatorFits (pT : Vec K ne) (pG : Vec K ns) : Prop where
  model : EE.cfg.model = EM.model
  time : EE.tStep = ES.tStep
  params : ∀ t, ES.pFun t = EE.cfg.cat pT pG
  given : ∀ t, EE.pFun t = pG
  tvp : ∀ t, ∀ k < EE.cfg.N, EE.tvpFun t k = ES.tvpFun (t - ((EE.cfg.N - 1 - k : Nat) : K) * ES.tStep)
  measurements : EE.yFun = none
  stats : ∀ s ∈ EE.storeStats, s ∈ validStats
  states : ∀ x, Within EM.cfg.xlb EM.cfg.xub x → Within EE.cfg.xlb EE.cfg.xub x
  terminal : EM.cfg.N = 1 → ∀ x, Within EM.cfg.xtlb EM.cfg.xtub x → Within EE.cfg.xlb EE.cfg.xub x
  algebraic : ∀ z, Within EM.cfg.zlb EM.cfg.zub z → Within EE.cfg.zlb EE.cfg.zub z
  inputs : ∀ u, Within EM.cfg.ulb EM.cfg.uub u → Within EE.cfg.ulb EE.cfg.uub u
  estimated : Within EE.cfg.plb EE.cfg.pub pT
  constraints : ∀ x u z tv p, ConstraintsHold EM.cfg.nl x u z tv p → ∀ call ∈ EE.cfg.nl, ∀ i < call.dim, call.ub.ge (call.expr x u z tv p i)

/-- The estimator has seen the plant's last `n_horizon - 1` measurements, its priors are exact, the current estimate is the plant's state, the clocks agree. -/
def Synchronised (pT : Vec K ne) (pG : Vec K ns) (l : OutLoop K d ne ns) : Prop :=
  l.x = List.ofFn l.sim.x0 ∧ l.mpc.t0 = l.sim.t0 ∧ l.mhe.t0 = l.sim.t0 ∧ l.mhe.data.width "_y" = some d.ny ∧ l.mhe.pEst0 = pT ∧
  ∃ old x u z, let tv := fun k : Nat => ES.tvpFun (l.sim.t0 - ((EE.cfg.N - 1 - k : Nat) : K) * ES.tStep)
    EE.cfg.task.NoiseFreeRun (EE.cfg.N - 1) x u z tv pT pG ∧ x (EE.cfg.N - 1) = l.sim.x0 ∧ EE.cfg.X l.mhe.optX 1 = x 0 ∧
    (∀ y ∈ old, y.length = d.ny) ∧
    l.mhe.data.rows "_y" = old ++ (List.range (EE.cfg.N - 1)).map fun k => List.ofFn (EE.cfg.task.measured x u z tv pT pG k)

end DoMpc
