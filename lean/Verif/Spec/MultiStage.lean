import Verif.Spec.Mpc

/-!
# The robust multi-stage problem of the documentation

All data in physical units, policies on realisation histories.  No scaled variable, scenario number, table or solver vector.
-/
namespace DoMpc.Spec
variable {K : Type} [Field K] [LinearOrder K] {d : Dims}

/-- The data of the problem. -/
structure MultiStage (K : Type) (d : Dims) where
  /-- prediction horizon, robust horizon, number of realisations -/
  N : Nat
  nR : Nat
  c : Nat
  model : DaeModel K d
  /-- measured state, input applied last, predicted time-varying parameters, parameter value of each realisation -/
  x0 : Vec K d.nx
  uLast : Vec K d.nu
  tvp : Nat → Vec K d.ntv
  p : Nat → Vec K d.np
  xlb : Fin d.nx → Bound K
  xub : Fin d.nx → Bound K
  ulb : Fin d.nu → Bound K
  uub : Fin d.nu → Bound K
  zlb : Fin d.nz → Bound K
  zub : Fin d.nz → Bound K
  xtlb : Fin d.nx → Bound K
  xtub : Fin d.nx → Bound K
  cons : List (NlCall K d)
  stage : Vec K d.nx → Vec K d.nu → Vec K d.nz → Vec K d.ntv → Vec K d.np → K
  terminal : Vec K d.nx → Vec K d.ntv → Vec K d.np → K
  /-- cost of changing the input from the second to the first input argument -/
  change : Vec K d.nx → Vec K d.nu → Vec K d.nu → Vec K d.nz → Vec K d.ntv → Vec K d.np → K
  openLoop : Bool

/-- A policy: state and input after each history, algebraic state on each branch (named by the history after it), slacks. -/
structure Policy (K : Type) (d : Dims) where
  X : Nat → List Nat → Vec K d.nx
  U : Nat → List Nat → Vec K d.nu
  Z : Nat → List Nat → Vec K d.nz
  E : Nat → List Nat → Eps K

/-- The policy may be applied: it follows the model from the measured state on every scenario, respects bounds, constraints and
slack limits at every node, and uses one input per stage if `openLoop`. -/
structure MultiStage.Admissible (P : MultiStage K d) (π : Policy K d) : Prop where
  dynamics : FollowsModel P.model P.c P.nR P.N P.x0 P.tvp P.p π.X π.U π.Z
  states : ∀ k, 1 ≤ k → k < P.N → ∀ h, IsHistory P.c P.nR k h → ∀ j, (P.xlb j).le (π.X k h j) ∧ (P.xub j).ge (π.X k h j)
  terminal : ∀ h, IsHistory P.c P.nR P.N h → ∀ j, (P.xtlb j).le (π.X P.N h j) ∧ (P.xtub j).ge (π.X P.N h j)
  inputs : ∀ k < P.N, ∀ h, IsHistory P.c P.nR k h → ∀ j, (P.ulb j).le (π.U k h j) ∧ (P.uub j).ge (π.U k h j)
  algebraic : ∀ k < P.N, ∀ h, IsHistory P.c P.nR (k + 1) h → ∀ j, (P.zlb j).le (π.Z k h j) ∧ (P.zub j).ge (π.Z k h j)
  constraints : ∀ k < P.N, ∀ h, IsHistory P.c P.nR k h → ∀ r, MayOccur P.c P.nR k h r → ∀ call ∈ P.cons, ∀ i < call.dim,
    if call.soft then
      call.ub.ge (call.expr (π.X k h) (π.U k h) (π.Z k (extend P.nR k h r)) (P.tvp k) (P.p r) i - π.E k h call.name i)
    else call.ub.ge (call.expr (π.X k h) (π.U k h) (π.Z k (extend P.nR k h r)) (P.tvp k) (P.p r) i)
  slacks : ∀ k < P.N, ∀ h, IsHistory P.c P.nR k h → ∀ call ∈ P.cons, call.soft = true → ∀ i < call.dim,
    0 ≤ π.E k h call.name i ∧ call.maxViolation.ge (π.E k h call.name i)
  oneInput : P.openLoop = true → ∀ k < P.N, ∀ h h', IsHistory P.c P.nR k h → IsHistory P.c P.nR k h' → π.U k h = π.U k h'

/-- Cost of a policy: average over the scenarios of stage and terminal cost, plus slack and change penalties of all branches. -/
def MultiStage.cost (P : MultiStage K d) (π : Policy K d) : K :=
  averageCost P.c P.N P.nR
    (fun k h r => P.stage (π.X k h) (π.U k h) (π.Z k (extend P.nR k h r)) (P.tvp k) (P.p r))
    (fun h r => P.terminal (π.X P.N h) (P.tvp P.N) (P.p r)) +
  branchSum P.c P.N P.nR (fun k h _ => slackCost P.cons (π.E k h)) +
  branchSum P.c P.N P.nR (fun k h r => P.change (π.X k h) (π.U k h) (inputBefore P.nR P.uLast π.U k h)
    (π.Z k (extend P.nR k h r)) (P.tvp k) (P.p r))

/-- `π` is an optimal policy. -/
def MultiStage.Optimal (P : MultiStage K d) (π : Policy K d) : Prop :=
  P.Admissible π ∧ ∀ π', P.Admissible π' → P.cost π ≤ P.cost π'

end DoMpc.Spec
