import Verif.Spec.Guarantees
import Verif.Spec.CollStage

/-!
# Vocabulary of the closed-loop guarantees for continuous-time models

The controller predicts by collocation.  "The plant is the model" means here: over one sampling interval the simulator's integrator goes where the
collocation polynomial goes.  No solver variable is mentioned.
-/
namespace DoMpc
open Spec Polynomial
variable {K : Type} [Field K] [LinearOrder K] {d : Dims}

/-- A collocation scheme: degree, elements per sampling interval, collocation points, length of the sampling interval. -/
structure Scheme (K : Type) where
  deg : Nat
  ni : Nat
  tau : Nat → K
  tStep : K

/-- One sampling interval of the model: from `x` with input `u` to `x'`, along the polynomials `P`, with algebraic states `ζ`. -/
def Scheme.Interval (s : Scheme K) (m : DaeModel K d) (x : Vec K d.nx) (u : Vec K d.nu) (tv : Vec K d.ntv) (p : Vec K d.np)
    (x' : Vec K d.nx) (P : Nat → Fin d.nx → K[X]) (ζ : Nat → Nat → Vec K d.nz) : Prop :=
  IsCollocationSolution m s.deg s.ni s.tau (s.tStep / s.ni) x u tv p 0 x' P ζ

/-- The trajectory is between the bounds at all collocation points after the first. -/
def Scheme.Inside (s : Scheme K) (lb ub : Fin d.nx → Bound K) (P : Nat → Fin d.nx → K[X]) : Prop :=
  ∀ i < s.ni, ∀ j ≤ s.deg, ¬ (i = 0 ∧ j = 0) → Within lb ub (valueAt (P i) (s.tau j))

/-- The algebraic states are between the bounds: at all points, or at the first only. -/
def Scheme.AlgInside (s : Scheme K) (all : Bool) (lb ub : Fin d.nz → Bound K) (ζ : Nat → Nat → Vec K d.nz) : Prop :=
  ∀ i < s.ni, ∀ j ≤ s.deg, (all = true ∨ (i = 0 ∧ j = 0)) → Within lb ub (ζ i j)

/-- The simulator integrates the same model; where the collocation equations have a solution its integrator ends where the solution ends. -/
structure SameContinuousPlant (s : Scheme K) (m : DaeModel K d) (ES : SimEnv K d) : Prop where
  model : ES.model = m
  continuous : ∃ integ, ES.plant = .continuous integ ∧
    ∀ z0 x u tv p x' P ζ, s.Interval m x u tv p x' P ζ → (integ x z0 u tv p 0).1 = x'

/-- The plant is the model of the controller, the parameters are among those the controller takes into account. -/
structure ContinuousPlantFollows (s : Scheme K) (EM : MpcEnv K d) (ES : SimEnv K d) : Prop extends SameContinuousPlant s EM.model ES where
  tvp : ∀ t, ES.tvpFun t = EM.tvpFun t 0
  params : ∀ t, ∃ r, MayOccur EM.cfg.c EM.cfg.nRobust 0 [] r ∧ ES.pFun t = EM.pFun t r
  time : EM.tStep = ES.tStep

/-- … and the whole state is measured. -/
structure ContinuousPlantMatches (s : Scheme K) (EM : MpcEnv K d) (ES : SimEnv K d) : Prop extends ContinuousPlantFollows s EM ES where
  measured : StateMeasured ES.model

/-- With input `u` the state `x` of the terminal set is admissible, and so is the trajectory that starts there; it ends in the terminal set. -/
def KeepsTerminalAlong (s : Scheme K) (cfg : MpcCfg K d) (m : DaeModel K d) (tv : Vec K d.ntv) (p : Vec K d.np) (x : Vec K d.nx) (u : Vec K d.nu)
    (x' : Vec K d.nx) (P : Nat → Fin d.nx → K[X]) (ζ : Nat → Nat → Vec K d.nz) : Prop :=
  s.Interval m x u tv p x' P ζ ∧ Within cfg.ulb cfg.uub u ∧ s.AlgInside cfg.consColloc cfg.zlb cfg.zub ζ ∧
  (cfg.consColloc = true → s.Inside cfg.xlb cfg.xub P) ∧
  (∀ call ∈ cfg.nl, ∀ i < call.dim, call.ub.ge (call.expr x u (ζ 0 0) tv p i)) ∧ Within cfg.xtlb cfg.xtub x'

/-- The terminal set is inside the state bounds and control invariant; if the bounds are checked at the collocation points they hold there. -/
structure InvariantTerminalSetAlong (s : Scheme K) (EM : MpcEnv K d) : Prop where
  inside : ∀ x, Within EM.cfg.xtlb EM.cfg.xtub x → Within EM.cfg.xlb EM.cfg.xub x
  noSlack : ∀ call ∈ EM.cfg.nl, call.soft = true → call.maxViolation.ge 0
  invariant : ∀ t x, Within EM.cfg.xtlb EM.cfg.xtub x →
    ∃ u x' P ζ, KeepsTerminalAlong s EM.cfg EM.model (EM.tvpFun t EM.cfg.N) (EM.pFun t 0) x u x' P ζ

/-- … robust control invariant: one input for all realisations. -/
structure RobustInvariantTerminalSetAlong (s : Scheme K) (EM : MpcEnv K d) : Prop where
  inside : ∀ x, Within EM.cfg.xtlb EM.cfg.xtub x → Within EM.cfg.xlb EM.cfg.xub x
  noSlack : ∀ call ∈ EM.cfg.nl, call.soft = true → call.maxViolation.ge 0
  invariant : ∀ t x, Within EM.cfg.xtlb EM.cfg.xtub x →
    ∃ u, ∀ r < EM.cfg.c, ∃ x' P ζ, KeepsTerminalAlong s EM.cfg EM.model (EM.tvpFun t EM.cfg.N) (EM.pFun t r) x u x' P ζ

/-- … and the terminal cost falls by at least the stage cost. -/
structure TerminalCostAlong (s : Scheme K) (EM : MpcEnv K d) : Prop where
  inside : ∀ x, Within EM.cfg.xtlb EM.cfg.xtub x → Within EM.cfg.xlb EM.cfg.xub x
  noSlack : ∀ call ∈ EM.cfg.nl, call.soft = true → call.maxViolation.ge 0
  decrease : ∀ t x, Within EM.cfg.xtlb EM.cfg.xtub x →
    ∃ u x' P ζ, KeepsTerminalAlong s EM.cfg EM.model (EM.tvpFun t EM.cfg.N) (EM.pFun t 0) x u x' P ζ ∧
    EM.cfg.lterm x u (ζ 0 0) (EM.tvpFun t EM.cfg.N) (EM.pFun t 0) + EM.cfg.mterm x' (EM.tvpFun (t + EM.tStep) EM.cfg.N) (EM.pFun t 0) ≤
      EM.cfg.mterm x (EM.tvpFun t EM.cfg.N) (EM.pFun t 0)

/-- A trajectory over one sampling interval that starts inside the state bounds, is driven by an admissible input and ends in the terminal set does
not leave the state bounds in between. -/
def NoOvershoot (s : Scheme K) (cfg : MpcCfg K d) (m : DaeModel K d) (tv : Vec K d.ntv) (p : Vec K d.np) : Prop :=
  ∀ x u x' P ζ, s.Interval m x u tv p x' P ζ → Within cfg.xlb cfg.xub x → Within cfg.ulb cfg.uub u → Within cfg.xtlb cfg.xtub x' →
    s.Inside cfg.xlb cfg.xub P

end DoMpc
