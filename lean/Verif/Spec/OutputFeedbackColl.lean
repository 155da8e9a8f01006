import Verif.Spec.OutputFeedback
import Verif.Spec.GuaranteesColl
import Verif.Props.MheOptimalColl

/-!
# Vocabulary: controller, simulator and moving horizon estimator of a continuous-time model in one loop
-/
namespace DoMpc
open Spec Polynomial
variable {K : Type} [Field K] [LinearOrder K] {d : Dims} {ne ns : Nat}
variable (s : Scheme K) (EM : MpcEnv K d) (ES : SimEnv K d) (EE : MheEnv K d ne ns)

/-- As `EstimatorFits`.  The estimator checks its bounds at all collocation points; where the controller does not, the estimator's bounds must not restrict. -/
structure EstimatorFitsColl (pT : Vec K ne) (pG : Vec K ns) : Prop extends EstimatorFits EM ES EE pT pG where
  between : EM.cfg.N = 1 ∨ EM.cfg.consColloc = false → ∀ x, Within EE.cfg.xlb EE.cfg.xub x
  algBetween : EM.cfg.consColloc = false → ∀ z, Within EE.cfg.zlb EE.cfg.zub z

/-- The estimator has seen the plant's last `n_horizon - 1` measurements, its priors are exact, the current estimate is the plant's state, the clocks agree. -/
def SynchronisedColl (pT : Vec K ne) (pG : Vec K ns) (l : OutLoop K d ne ns) : Prop :=
  l.x = List.ofFn l.sim.x0 ∧ l.mpc.t0 = l.sim.t0 ∧ l.mhe.t0 = l.sim.t0 ∧ l.mhe.data.width "_y" = some d.ny ∧ l.mhe.pEst0 = pT ∧
  ∃ old x u P ζ, let tv := fun k : Nat => ES.tvpFun (l.sim.t0 - ((EE.cfg.N - 1 - k : Nat) : K) * ES.tStep)
    let T := EE.cfg.collTask s.deg s.ni s.tau s.tStep
    T.NoiseFree (EE.cfg.N - 1) x u P ζ tv pT pG ∧ x (EE.cfg.N - 1) = l.sim.x0 ∧ EE.cfg.X l.mhe.optX 1 = x 0 ∧
    (∀ y ∈ old, y.length = d.ny) ∧
    l.mhe.data.rows "_y" = old ++ (List.range (EE.cfg.N - 1)).map fun k => List.ofFn (T.measuredAt x u ζ tv pT pG k)

end DoMpc
