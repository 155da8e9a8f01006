import Mathlib.Data.List.Basic

/-!
# The data container (`/repo/do_mpc/data.py`)

A Python dict with insertion order becomes an association list; the arrays of `setattr(self, field, …)` become a function from
field names to lists of rows.  Methods that may raise return the object after the call together with the error, so that partial
effects are visible.
-/
namespace DoMpc

/-- A value passed to `update`: a numeric vector (array, DM, DMStruct, float, int, bool; all end up as
`value.reshape(1,-1)`), or an object without `reshape` (`str`, `dict`, … as returned by solver statistics). -/
inductive PyVal (K : Type) where
  | arr (row : List K)
  | other
  deriving DecidableEq, Repr

/-- A `Data` instance (`data.py:53-79`). -/
structure Data (K : Type) where
  /-- `data_fields`: name and width -/
  fields : List (String × Nat)
  /-- the arrays, row by row -/
  rows : String → List (List K)
  /-- `result_queries`: cached power indices with the flat indices they resolve to -/
  queries : List ((String × List String) × List Nat)

variable {K : Type}

/-- width of a field, `none` if it is not in `data_fields` -/
def Data.width (D : Data K) (key : String) : Option Nat := D.fields.lookup key

/-- `init_storage` (`data.py:158-165`): empty arrays for all fields; attributes outside `data_fields` are untouched. -/
def Data.initStorage (D : Data K) : Data K :=
  { D with rows := fun k => if (D.width k).isSome then [] else D.rows k }

/-- `Data(model)` (`data.py:53-79`): the eight standard fields, empty.  The dimensions are given as a list. -/
def Data.new (fields : List (String × Nat)) : Data K := { fields := fields, rows := fun _ => [], queries := [] }

/-- One iteration of the loop in `update` (`data.py:205-218`): the assertion, `value.reshape`, and `np.append(…, axis=0)`, which
raises unless the row has the width of the array. -/
def Data.update1 (D : Data K) (key : String) (v : PyVal K) : Data K × Option String :=
  match D.width key with
  | none => (D, some "AssertionError")
  | some n =>
    match v with
    | .other => (D, some "AttributeError")
    | .arr row =>
      if row.length = n then ({ D with rows := fun k => if k = key then D.rows k ++ [row] else D.rows k }, none)
      else (D, some "ValueError")

/-- `update(**kwargs)` (`data.py:173-218`): the key word arguments in order; the first error ends the loop. -/
def Data.update (D : Data K) : List (String × PyVal K) → Data K × Option String
  | [] => (D, none)
  | (k, v) :: rest =>
    match D.update1 k v with
    | (D', none) => D'.update rest
    | (D', some e) => (D', some e)

/-- `__getitem__` (`data.py:131-156`).  `pw` is CasADi's power indexing `self.model[field].f[powerind]`, an error if the index does not
exist.  The index is compared with the cached ones; the result takes the selected columns of every row. -/
def Data.get [Inhabited K] (pw : String → List String → Except String (List Nat)) (D : Data K) (field : String) (ind : List String) :
    Data K × Except String (List (List K)) :=
  if (D.width field).isNone then (D, .error "AssertionError") else
  match ind with
  | [] => (D, .ok (D.rows field))
  | _ =>
    match D.queries.lookup (field, ind) with
    | some f => (D, .ok ((D.rows field).map fun r => f.map fun j => r.getD j default))
    | none =>
      match pw field ind with
      | .error e => (D, .error e)
      | .ok f => ({ D with queries := D.queries ++ [((field, ind), f)] },
                  .ok ((D.rows field).map fun r => f.map fun j => r.getD j default))

end DoMpc
