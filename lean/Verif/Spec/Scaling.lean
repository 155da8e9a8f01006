import Verif.Model.Collocation
import Verif.Model.Mhe

/-!
# Two controllers or estimators that differ in their scaling factors only
-/
namespace DoMpc
variable {K : Type} [Field K] [LinearOrder K] {d : Dims}

/-- `cfg` and `cfg'` are set up for the model `m` with the same settings; the scaling factors, positive in both, may differ, and so may the discretised model (which
is made of the scaled one) and the weights of the default penalty on input changes. -/
structure OtherScaling (m : DaeModel K d) (cfg cfg' : MpcCfg K d) : Prop where
  same : cfg' = { cfg with sx := cfg'.sx, su := cfg'.su, sz := cfg'.sz, ifcn := cfg'.ifcn, rterm := cfg'.rterm }
  positive : (∀ j, 0 < cfg.sx j) ∧ (∀ j, 0 < cfg.su j) ∧ ∀ j, 0 < cfg.sz j
  positive' : (∀ j, 0 < cfg'.sx j) ∧ (∀ j, 0 < cfg'.su j) ∧ ∀ j, 0 < cfg'.sz j
  model : (cfg.ifcn = discreteIfcn m cfg.sx cfg.su cfg.sz 1 ∧ cfg'.ifcn = discreteIfcn m cfg'.sx cfg'.su cfg'.sz 1) ∨
    ∃ deg ni tau tStep, setupCollocation m cfg.sx cfg.su cfg.sz 1 deg ni tau tStep = .ok cfg.ifcn ∧
      setupCollocation m cfg'.sx cfg'.su cfg'.sz 1 deg ni tau tStep = .ok cfg'.ifcn

/-- Multiplied by their scaling factors, the variables are the same. -/
structure SamePlan (cfg cfg' : MpcCfg K d) (w w' : OptX K d) : Prop where
  states : ∀ k s i j, w.x k s i j * cfg.sx j = w'.x k s i j * cfg'.sx j
  algebraic : ∀ k s i j, w.z k s i j * cfg.sz j = w'.z k s i j * cfg'.sz j
  inputs : ∀ k s j, w.u k s j * cfg.su j = w'.u k s j * cfg'.su j
  slacks : w.eps = w'.eps

/-- The penalties on input changes agree in physical units: default penalties whose weights are in the ratio of the squared scaling factors. -/
def SameChangePenalty (cfg cfg' : MpcCfg K d) : Prop :=
  ∃ r r', cfg.rterm = .factor r ∧ cfg'.rterm = .factor r' ∧ ∀ j, r j / cfg.su j ^ 2 = r' j / cfg'.su j ^ 2

/-- `u` is the first input, in physical units, of a global minimiser: what `make_step` returns if the solver finds it -/
def BestInput (cfg : MpcCfg K d) (q : OptP K d) (u : Vec K d.nu) : Prop :=
  ∃ w, (cfg.Feasible w q ∧ ∀ v, cfg.Feasible v q → cfg.obj w q ≤ cfg.obj v q) ∧ ∀ j, u j = w.u 0 0 j * cfg.su j

section
variable {ne ns : Nat}

/-- As `OtherScaling` for an estimator: scaling factors of states, inputs and algebraic states; the estimated parameters are scaled alike. -/
structure OtherMheScaling (cfg cfg' : MheCfg K d ne ns) : Prop where
  same : cfg' = { cfg with sx := cfg'.sx, su := cfg'.su, sz := cfg'.sz, ifcn := cfg'.ifcn }
  positive : (∀ j, 0 < cfg.sx j) ∧ (∀ j, 0 < cfg.su j) ∧ ∀ j, 0 < cfg.sz j
  positive' : (∀ j, 0 < cfg'.sx j) ∧ (∀ j, 0 < cfg'.su j) ∧ ∀ j, 0 < cfg'.sz j
  model : (cfg.ifcn = discreteIfcn cfg.model cfg.sx cfg.su cfg.sz cfg.pScaling ∧ cfg'.ifcn = discreteIfcn cfg.model cfg'.sx cfg'.su cfg'.sz cfg.pScaling) ∨
    ∃ deg ni tau tStep, setupCollocation cfg.model cfg.sx cfg.su cfg.sz cfg.pScaling deg ni tau tStep = .ok cfg.ifcn ∧
      setupCollocation cfg.model cfg'.sx cfg'.su cfg'.sz cfg.pScaling deg ni tau tStep = .ok cfg'.ifcn

/-- The explanations of the measurements are the same in physical units. -/
structure SameExplanation (cfg cfg' : MheCfg K d ne ns) (o o' : MheX K d ne) : Prop where
  states : ∀ k i j, o.x k i j * cfg.sx j = o'.x k i j * cfg'.sx j
  algebraic : ∀ k i j, o.z k i j * cfg.sz j = o'.z k i j * cfg'.sz j
  inputs : ∀ k j, o.u k j * cfg.su j = o'.u k j * cfg'.su j
  noise : o.w = o'.w ∧ o.v = o'.v
  slacks : o.eps = o'.eps
  parameters : o.pEst = o'.pEst

/-- `x` is the estimate, in physical units, of a global minimiser: the last state on the horizon -/
def BestEstimate (cfg : MheCfg K d ne ns) (q : MheP K d ne ns) (x : Vec K d.nx) : Prop :=
  ∃ o, (cfg.Feasible o q ∧ ∀ o', cfg.Feasible o' q → cfg.obj o q ≤ cfg.obj o' q) ∧ ∀ j, x j = o.x cfg.N cfg.xLast j * cfg.sx j

end

end DoMpc
