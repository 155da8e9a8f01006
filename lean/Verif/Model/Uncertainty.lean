import Verif.Model.Basic

/-!
# `set_uncertainty_values` (`/repo/do_mpc/controller/_mpc.py:810-871`)
-/
namespace DoMpc

/-- `itertools.product(*pools)`: `result = [x+[y] for x in result for y in pool]` per pool, used at `_mpc.py:858`. -/
def pyProduct {V : Type} (pools : List (List V)) : List (List V) :=
  pools.foldl (fun result pool => result.flatMap fun x => pool.map fun y => x ++ [y]) [[]]

/-- The controller attributes touched: `n_combinations`, `flags['set_p_fun']` and the constant `p_fun`
(scenario, parameter name ↦ value). Simplification: `p_fun` is represented by its (time independent) value. -/
structure UncState (V : Type) where
  nComb : Nat
  flag : Bool
  template : Nat → String → V

/-- `get_p_template(n)` (`_mpc.py:702-752`): stores `n_combinations` and returns an all-zero structure. -/
def getPTemplate {V : Type} (zero : V) (st : UncState V) (n : Nat) : UncState V × (Nat → String → V) :=
  ({ st with nComb := n }, fun _ _ => zero)

/-- `p_template['_p', :, names] = p_scenario` (`_mpc.py:862-867`): entry `names[i]` of scenario `s` becomes
`p_scenario[s][i]`, later entries overwriting earlier ones. -/
def assignTemplate {V : Type} (names : List String) (scen : List (List V)) (T : Nat → String → V) : Nat → String → V :=
  fun s n =>
    match scen[s]? with
    | none => T s n
    | some vals => (names.zip vals).foldl (fun v nv => if nv.1 = n then nv.2 else v) (T s n)

/-- `set_uncertainty_values(**kwargs)` (`_mpc.py:810-872`). `kw` lists the keyword arguments in call order, `valid` the
model's parameter names.  The check inside `set_p_fun` (`_mpc.py:806`) compares the template with itself and cannot fail. -/
def setUncertaintyValues {V : Type} (zero : V) (valid : List String) (st : UncState V) (kw : List (String × List V)) :
    Except String (UncState V) :=
  if kw.isEmpty then .ok st
  else if ∀ n ∈ kw.map (·.1), n ∈ valid then
    let scen := pyProduct (kw.map (·.2))
    let (st1, T) := getPTemplate zero st scen.length
    let T' := assignTemplate (kw.map (·.1)) scen T
    .ok { st1 with flag := true, template := T' }
  else .error "You passed keywords … Valid keywords are …"

end DoMpc
