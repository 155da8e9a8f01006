import Verif.Spec.Soft
import Verif.Spec.Estimation
import Verif.Spec.MheConfigured

/-!
# Soft constraints of an estimator

What soft constraints of an estimation problem are supposed to do, without solver variables.
-/
namespace DoMpc.Spec
variable {K : Type} [Field K] [LinearOrder K] {d : Dims} {ne ns : Nat}

/-- The component `i` of the constraint `call` holds in interval `k` – with one slack for the whole window: in every interval – if a violation by `v` is accepted. -/
def HoldsInWindow (T : EstimationTask K d ne ns) (D : EstimationData K d ne ns) (e : Explanation K d ne) (k : Nat) (call : NlCall K d) (i : Nat) (v : K) : Prop :=
  ∀ k' < T.N, (T.singleSlack = true ∨ k' = k) → call.ub.ge (call.expr (e.X k') (e.U k') (e.Z k') (D.tvp k') (T.merge e.p D.pGiven) i - v)

/-- `v` is the worst violation there: zero if the constraint holds. -/
def WorstInWindow (T : EstimationTask K d ne ns) (D : EstimationData K d ne ns) (e : Explanation K d ne) (k : Nat) (call : NlCall K d) (i : Nat) (v : K) : Prop :=
  IsLeast {v | 0 ≤ v ∧ HoldsInWindow T D e k call i v} v

/-- The violations an explanation contains, weighted with the penalties given to `set_nl_cons`. -/
def explainedViolation (T : EstimationTask K d ne ns) (e : Explanation K d ne) : K := ((List.range T.N).map fun k => slackCost T.cons (e.E k)).sum

/-- The same configuration calls, with other arguments for `set_nl_cons`. -/
def mheMapCons (φ : NlCall K d → NlCall K d) : MheOp K d ne ns → MheOp K d ne ns
  | .setNlCons c => .setNlCons (φ c)
  | op => op

end DoMpc.Spec
