import Verif.Model.Mpc

/-! Decidability of the finite feasibility checks, used only by the concrete examples and counterexamples. -/
namespace DoMpc
variable {K : Type} [Field K] [LinearOrder K] {d : Dims}

instance Bound.decLe (b : Bound K) (v : K) : Decidable (b.le v) := by cases b <;> unfold Bound.le <;> infer_instance
instance Bound.decGe (b : Bound K) (v : K) : Decidable (b.ge v) := by cases b <;> unfold Bound.ge <;> infer_instance
instance Row.decHolds (r : Row K) : Decidable r.Holds := by unfold Row.Holds; infer_instance

/-- bounded universal quantification with `≤` -/
instance decBallLE (n : Nat) (P : ∀ k, k ≤ n → Prop) [∀ k h, Decidable (P k h)] : Decidable (∀ k h, P k h) :=
  decidable_of_iff (∀ k (h : k < n + 1), P k (Nat.le_of_lt_succ h))
    ⟨fun H k h => H k (Nat.lt_succ_of_le h), fun H k h => H k (Nat.le_of_lt_succ h)⟩

instance MpcCfg.decInBounds (cfg : MpcCfg K d) (w : OptX K d) : Decidable (cfg.InBounds w) := by
  unfold MpcCfg.InBounds
  refine @instDecidableAnd _ _ ?_ (@instDecidableAnd _ _ ?_ (@instDecidableAnd _ _ ?_ ?_)) <;> infer_instance

instance MpcCfg.decFeasible (cfg : MpcCfg K d) (w : OptX K d) (q : OptP K d) : Decidable (cfg.Feasible w q) := by
  unfold MpcCfg.Feasible; infer_instance

end DoMpc
