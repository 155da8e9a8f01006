import Verif.Model.SamplingPar
import Verif.Props.Sampler

/-!
# What one expects of several processes that sample one plan
-/
namespace DoMpc.Spec
variable {V R : Type}

/-- the file in which the result of the `i`-th case belongs -/
def fileOf (cfg : SamplerCfg V R) (i : Nat) : Option String := cfg.plan[i]?.bind (resultFile cfg)

/-- Every case has an id of its own, the names of the result files are not changed by `save_pickle`, and no directory is in the way. -/
structure GoodNames (cfg : SamplerCfg V R) (fs : FS R) : Prop where
  hasId : ∀ c ∈ cfg.plan, ∃ id, idText cfg.str c = some id
  distinct : ∀ i j (hi : i < cfg.plan.length) (hj : j < cfg.plan.length), idText cfg.str cfg.plan[i] = idText cfg.str cfg.plan[j] → i = j
  clean : cfg.mat = true ∨ ∀ c ∈ cfg.plan, ∀ id, idText cfg.str c = some id → ¬ ".pkl".toList <:+: (cfg.dir ++ cfg.sampleName ++ "_" ++ id).toList
  noDir : ∀ c ∈ cfg.plan, ∀ n, resultFile cfg c = some n → fs n ≠ some .dir

/-- the process has made all its calls, without exception -/
def Finished (P : Proc V R) : Prop := P.todo = [] ∧ P.pc = .idle ∧ P.err = none

/-- the sample of the `i`-th case is needed: it does not exist or shall be overwritten -/
def Needed (cfg : SamplerCfg V R) (fs : FS R) (i : Nat) : Prop := cfg.overwrite = true ∨ ∀ n, fileOf cfg i = some n → ¬ HasFile fs n

end DoMpc.Spec
