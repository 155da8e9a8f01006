import Verif.Model.Prediction
import Verif.Model.MpcRun

/-!
# `MPCData.prediction` for auxiliary expressions, time-varying parameters and parameters, and its query cache
(`/repo/do_mpc/data.py:241-372`)
-/
namespace DoMpc
variable {K : Type} [Field K] [LinearOrder K] {d : Dims}

/-- The stored row of solutions and parameters (`data.py:301-308`); the zeros used while nothing is stored are not modelled here. -/
def predRow2 (store : List (OptX K d × OptP K d)) (t : Int) : Option (OptX K d × OptP K d) := pyIndex store t

/-- `prediction(('_aux',), t)[:, k, j]` (`data.py:356-368`): the auxiliary expressions of node `structure_scenario[k, j]` of stage `k`; the stored values
are those of `_prepare_nlp` (`_mpc.py:1257-1264`).  For a non-empty store. -/
def MpcCfg.predAux (cfg : MpcCfg K d) (m : DaeModel K d) (store : List (OptX K d × OptP K d)) (t : Int) (k j : Nat) : Option (Vec K d.naux) :=
  (predRow2 store t).map fun o => cfg.auxAt m o.1 o.2 k (cfg.tree.struct k j).toNat

/-- `prediction(('_tvp', name), t)[0, r, 0]` (`data.py:343-354`) for a time-varying parameter that occupies the elements `off, …, off + size - 1`:
the indices of all time steps and elements in one row.  For a non-empty store. -/
def MpcCfg.predTvp (cfg : MpcCfg K d) (store : List (OptX K d × OptP K d)) (off size : Nat) (t : Int) (r : Nat) : Option K :=
  (predRow2 store t).bind fun o =>
    if r < (cfg.N + 1) * size then (if h : off + r % size < d.ntv then some (o.2.tvp (r / size) ⟨off + r % size, h⟩) else none) else none

/-- the number of columns of `prediction(('_tvp', name))` (its first and last dimension are 1) -/
def MpcCfg.predTvpCols (cfg : MpcCfg K d) (size : Nat) : Nat := (cfg.N + 1) * size

/-- The dispatch on the variable type (`data.py:310-370`). -/
def predKnown (varType : String) : Bool := varType ∈ ["_x", "_z", "_u", "_tvp", "_aux"]

/-- `prediction_queries` (`data.py:244`) and a query: the resolved indices `f_ind`, from the cache or from CasADi's power index (which may raise). -/
def predQuery {F : Type} (resolve : List String → Except String F) (cache : List (List String × F)) (ind : List String) : List (List String × F) × Except String F :=
  match ind with
  | [] => (cache, .error "IndexError")
  | ty :: _ =>
    if !predKnown ty then (cache, .error "ValueError")
    else
      match cache.lookup ind with
      | some f => (cache, .ok f)
      | none =>
        match resolve ind with
        | .error e => (cache, .error e)
        | .ok f => (cache ++ [(ind, f)], .ok f)

end DoMpc
