import Verif.Model.Mpc

/-!
# A controller that asks for less
-/
namespace DoMpc
variable {K : Type} [Field K] [LinearOrder K] {d : Dims}

/-- the lower and upper bounds `lb'`, `ub'` allow every value that `lb`, `ub` allow -/
def Wider {n : Nat} (lb ub lb' ub' : Fin n → Bound K) : Prop :=
  ∀ j v, (lb j).le v → (ub j).ge v → (lb' j).le v ∧ (ub' j).ge v

/-- `call'` is the constraint `call`, possibly with a larger upper bound, a larger maximal violation, or made soft -/
structure NoHarder (call call' : NlCall K d) : Prop where
  name : call'.name = call.name
  dim : call'.dim = call.dim
  expr : call'.expr = call.expr
  ub : ∀ v, call.ub.ge v → call'.ub.ge v
  soft : call.soft = true → call'.soft = true ∧ ∀ v, call.maxViolation.ge v → call'.maxViolation.ge v
  made_soft : call.soft = false → call'.soft = true → call'.maxViolation.ge 0

/-- The settings `cfg'`, with parameters `q'`, ask for no more than `cfg` with `q`, at the same measured state: a shorter prediction horizon, a shorter robust
horizon, fewer realisations (realisation `r` of the parameters is realisation `σ r` of `cfg`), an input that may depend on the scenario, wider bounds, bounds
at fewer points, fewer or softer constraints.  Scaling and objective may be any. -/
structure LessDemanding (cfg cfg' : MpcCfg K d) (q q' : OptP K d) : Prop where
  start : q'.x0 = q.x0
  tvp : ∀ k, q'.tvp k = q.tvp k
  horizon : 0 < cfg'.N ∧ cfg'.N ≤ cfg.N
  robust : cfg'.nRobust ≤ cfg.nRobust
  /-- without robust horizon the parameters have their nominal value, that of realisation 0 -/
  realisations : ∃ σ : Nat → Nat, (∀ r < cfg'.c, σ r < cfg.c ∧ q'.p r = q.p (σ r)) ∧ (cfg.nRobust = 0 → σ 0 = 0)
  openLoop : cfg'.openLoop = true → cfg.openLoop = true
  points : cfg'.consColloc = true → cfg.consColloc = true
  states : Wider cfg.xlb cfg.xub cfg'.xlb cfg'.xub
  inputs : Wider cfg.ulb cfg.uub cfg'.ulb cfg'.uub
  algebraic : Wider cfg.zlb cfg.zub cfg'.zlb cfg'.zub
  terminal : cfg'.N = cfg.N → Wider cfg.xtlb cfg.xtub cfg'.xtlb cfg'.xtub
  terminal_shorter : cfg'.N < cfg.N → Wider cfg.xlb cfg.xub cfg'.xtlb cfg'.xtub
  constraints : ∀ call' ∈ cfg'.nl, ∃ call ∈ cfg.nl, NoHarder call call'

/-- `cfg'` has the settings of `cfg` but wider bounds, or bounds at fewer points, or an input that may depend on the scenario. -/
structure Relaxed (cfg cfg' : MpcCfg K d) : Prop where
  same : cfg' = { cfg with openLoop := cfg'.openLoop, consColloc := cfg'.consColloc, xlb := cfg'.xlb, xub := cfg'.xub, ulb := cfg'.ulb, uub := cfg'.uub, zlb := cfg'.zlb, zub := cfg'.zub, xtlb := cfg'.xtlb, xtub := cfg'.xtub }
  openLoop : cfg'.openLoop = true → cfg.openLoop = true
  points : cfg'.consColloc = true → cfg.consColloc = true
  states : Wider cfg.xlb cfg.xub cfg'.xlb cfg'.xub
  inputs : Wider cfg.ulb cfg.uub cfg'.ulb cfg'.uub
  algebraic : Wider cfg.zlb cfg.zub cfg'.zlb cfg'.zub
  terminal : Wider cfg.xtlb cfg.xtub cfg'.xtlb cfg'.xtub

end DoMpc
