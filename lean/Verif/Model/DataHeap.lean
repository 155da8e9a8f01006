import Verif.Model.Data

/-!
# The data container with its arrays as objects (`/repo/do_mpc/data.py`)

`Model/Data.lean` takes the arrays of a `Data` object as values.  Here they are NumPy arrays that live in memory: `export()` and queries of a whole field hand out the arrays
themselves, the caller may write into them, and `update` may be given arrays of the caller.
-/
namespace DoMpc
variable {K : Type}

/-- A `Data` instance in memory: every array has an address. -/
structure HData (K : Type) where
  fields : List (String × Nat)
  /-- the attributes: field name to address -/
  attr : String → Nat
  /-- the arrays, row by row; addresses below `next` are in use -/
  heap : Nat → List (List K)
  next : Nat
  queries : List ((String × List String) × List Nat)

/-- A value passed to `update`: an array of the caller, something else with numbers in it (DM, DMStruct, float, int, bool; converted to a new array), an object without `reshape`. -/
inductive HVal (K : Type) where
  | ref (r : Nat)
  | num (row : List K)
  | other

/-- a new array -/
def HData.alloc (h : HData K) (rows : List (List K)) : HData K × Nat :=
  ({ h with heap := fun r => if r = h.next then rows else h.heap r, next := h.next + 1 }, h.next)

/-- `setattr(self, key, arr)` -/
def HData.bind (h : HData K) (key : String) (r : Nat) : HData K := { h with attr := fun k => if k = key then r else h.attr k }

/-- what `update` reads from a value (`data.py:207-215`): `value.reshape(1,-1)` -/
def HData.valOf (h : HData K) : HVal K → PyVal K
  | .ref r => .arr (h.heap r).flatten
  | .num row => .arr row
  | .other => .other

/-- One iteration of the loop in `update` (`data.py:205-218`): `np.append` makes a new array, which becomes the attribute. -/
def HData.update1 (h : HData K) (key : String) (v : HVal K) : HData K × Option String :=
  match h.fields.lookup key with
  | none => (h, some "AssertionError")
  | some n =>
    match h.valOf v with
    | .other => (h, some "AttributeError")
    | .arr row =>
      if row.length = n then
        let a := h.alloc (h.heap (h.attr key) ++ [row])
        (a.1.bind key a.2, none)
      else (h, some "ValueError")

/-- `update(**kwargs)` (`data.py:173-218`) -/
def HData.update (h : HData K) : List (String × HVal K) → HData K × Option String
  | [] => (h, none)
  | (k, v) :: rest =>
    match h.update1 k v with
    | (h', none) => h'.update rest
    | (h', some e) => (h', some e)

/-- `setattr(self, field_i, np.empty((0, dim_i)))` for one field (`data.py:164-165`) -/
def HData.clear1 (h : HData K) (f : String × Nat) : HData K :=
  let a := h.alloc []
  a.1.bind f.1 a.2

/-- `init_storage` (`data.py:158-165`): a new empty array for every field -/
def HData.initStorage (h : HData K) : HData K := h.fields.foldl HData.clear1 h

/-- `export` (`data.py:220-227`): a dict with the arrays themselves -/
def HData.export (h : HData K) : List (String × Nat) := h.fields.map fun f => (f.1, h.attr f.1)

/-- `__getitem__` (`data.py:131-156`): the array itself if only the field is given; otherwise `arr[:, f_ind]` with a list of indices, which is a new array. -/
def HData.get [Inhabited K] (pw : String → List String → Except String (List Nat)) (h : HData K) (field : String) (ind : List String) : HData K × Except String Nat :=
  if (h.fields.lookup field).isNone then (h, .error "AssertionError") else
  match ind with
  | [] => (h, .ok (h.attr field))
  | _ =>
    match h.queries.lookup (field, ind) with
    | some f =>
      let a := h.alloc ((h.heap (h.attr field)).map fun r => f.map fun j => r.getD j default)
      (a.1, .ok a.2)
    | none =>
      match pw field ind with
      | .error e => (h, .error e)
      | .ok f =>
        let a := h.alloc ((h.heap (h.attr field)).map fun r => f.map fun j => r.getD j default)
        ({ a.1 with queries := h.queries ++ [((field, ind), f)] }, .ok a.2)

/-- `arr[i, j] = v` by the caller; an `IndexError` (nothing happens) outside of the array -/
def HData.write (h : HData K) (r i j : Nat) (v : K) : HData K :=
  { h with heap := fun a => if a = r then (h.heap r).modify i (·.set j v) else h.heap a }

/-- What happens to the object and to the arrays of its user. -/
inductive HOp (K : Type) where
  | update (kw : List (String × HVal K))
  | reset
  | exported
  | get (field : String) (ind : List String)
  /-- the user makes an array -/
  | make (rows : List (List K))
  | write (r i j : Nat) (v : K)

/-- One event. -/
def HData.exec [Inhabited K] (pw : String → List String → Except String (List Nat)) (h : HData K) : HOp K → HData K
  | .update kw => (h.update kw).1
  | .reset => h.initStorage
  | .exported => h
  | .get f ind => (h.get pw f ind).1
  | .make rows => (h.alloc rows).1
  | .write r i j v => h.write r i j v

/-- A sequence of events. -/
def HData.run [Inhabited K] (pw : String → List String → Except String (List Nat)) (h : HData K) (ops : List (HOp K)) : HData K := ops.foldl (HData.exec pw) h

/-- `Data(model)` (`data.py:34-79`) when `n` arrays are in memory already -/
def HData.new (fields : List (String × Nat)) (heap : Nat → List (List K)) (n : Nat) : HData K :=
  HData.initStorage { fields := fields, attr := fun _ => 0, heap := heap, next := n, queries := [] }

end DoMpc
