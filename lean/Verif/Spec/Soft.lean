import Verif.Spec.Configured

/-!
# Soft constraints

What soft constraints of the multi-stage problem are supposed to do, without solver variables.
-/
namespace DoMpc.Spec
variable {K : Type} [Field K] [LinearOrder K] {d : Dims}

/-- The component `i` of the constraint `call` holds at stage `k` after history `h`, whatever realisation occurs, if a violation by `v` is accepted. -/
def HoldsUpTo (P : MultiStage K d) (π : Policy K d) (k : Nat) (h : List Nat) (call : NlCall K d) (i : Nat) (v : K) : Prop :=
  ∀ r, MayOccur P.c P.nR k h r → call.ub.ge (call.expr (π.X k h) (π.U k h) (π.Z k (extend P.nR k h r)) (P.tvp k) (P.p r) i - v)

/-- `v` is the worst violation: zero if the constraint holds. -/
def WorstViolation (P : MultiStage K d) (π : Policy K d) (k : Nat) (h : List Nat) (call : NlCall K d) (i : Nat) (v : K) : Prop :=
  IsLeast {v | 0 ≤ v ∧ HoldsUpTo P π k h call i v} v

/-- The same constraint, as a hard one if no violation was accepted anyway. -/
def harden (call : NlCall K d) : NlCall K d :=
  match call.maxViolation with
  | .fin b => if b = 0 then { call with soft := false } else call
  | _ => call

/-- The same constraint with `t` times the penalty. -/
def timesPenalty (t : K) (call : NlCall K d) : NlCall K d := { call with penalty := t * call.penalty }

/-- The same configuration calls, with other arguments for `set_nl_cons`. -/
def mapCons (φ : NlCall K d → NlCall K d) : MpcOp K d → MpcOp K d
  | .setNlCons c => .setNlCons (φ c)
  | op => op

/-- The violations a policy plans, weighted with the penalties given to `set_nl_cons`. -/
def plannedViolation (P : MultiStage K d) (π : Policy K d) : K := branchSum P.c P.N P.nR fun k h _ => slackCost P.cons (π.E k h)

/-- What a policy costs without the penalties for violations. -/
def costWithout (P : MultiStage K d) (π : Policy K d) : K := P.cost π - plannedViolation P π

/-- A soft constraint without a maximum violation. -/
def NeverBlocks (call : NlCall K d) : Prop := call.soft = true ∧ call.maxViolation = .pinf ∧ call.ub ≠ .ninf

/-- The same constraint, as a hard one. -/
def asHard (call : NlCall K d) : NlCall K d := { call with soft := false }

end DoMpc.Spec
