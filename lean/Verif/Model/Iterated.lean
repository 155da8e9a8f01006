import Verif.Model.Basic

/-!
# Iterated variables (`/repo/do_mpc/model/_iteratedvariables.py`)

`x0`, `u0`, `z0` of controllers, estimators and simulators are CasADi structures: mutable objects held by reference.  The model has a
heap of such structures.  A *slot* is an attribute (`x0`, `u0` or `z0`) of an object.
-/
namespace DoMpc
variable {K : Type} [Zero K]

/-- which of the three attributes -/
inductive IVar where
  | x0 | u0 | z0
  deriving DecidableEq, Repr

/-- an attribute of the object with the given number -/
abbrev IvSlot := Nat × IVar

/-- References held in the attributes, contents of the structures, and the first unused reference. -/
structure IterSt (K : Type) where
  ref : IvSlot → Nat
  heap : Nat → List K
  next : Nat

/-- reading an attribute (`_iteratedvariables.py:109,147,185`) -/
def IterSt.read (st : IterSt K) (s : IvSlot) : List K := st.heap (st.ref s)

/-- a new structure with the given content is stored in the attribute -/
def IterSt.alloc (st : IterSt K) (s : IvSlot) (v : List K) : IterSt K :=
  ⟨fun t => if t = s then st.next else st.ref t, fun r => if r = st.next then v else st.heap r, st.next + 1⟩

/-- the structure held by the attribute is changed in place (`struct.master = v`, `struct[...] = v`) -/
def IterSt.write (st : IterSt K) (s : IvSlot) (v : List K) : IterSt K :=
  { st with heap := fun r => if r = st.ref s then v else st.heap r }

/-- What users do with these attributes. -/
inductive IOp (K : Type) where
  /-- the constructor -/
  | create (o : Nat)
  /-- `o.x0 = v` with an array, a `DM` or a number -/
  | setArr (s : IvSlot) (v : List K)
  /-- `o.x0 = o'.x0`: the value is a structure -/
  | setStruct (s t : IvSlot)
  /-- `o.x0[...] = …` changing entry `i` -/
  | setItem (s : IvSlot) (i : Nat) (a : K)
  /-- `o.make_step(…)`; the new values are computed elsewhere.  `LQR.make_step` leaves `z0`: pass its value. -/
  | step (o : Nat) (x u z : List K)

/-- One call; `dim` are the sizes in the objects' models.  Constructor: `_iteratedvariables.py:36-43`.  Setters: `:111-113`, `:149-151`,
`:187-189` with `_convert2struct` (`:46-75`): the size is checked, arrays are copied into a new structure, a structure is returned
unchanged.  `make_step`: `simulator.py:699-701`, `controller/_mpc.py:1045-1047`, `estimator/_mhe.py:985-988`. -/
def IterSt.exec (dim : IvSlot → Nat) (st : IterSt K) : IOp K → IterSt K × Option String
  | .create o =>
    ((((st.alloc (o, .x0) (List.replicate (dim (o, .x0)) 0)).alloc (o, .u0) (List.replicate (dim (o, .u0)) 0)).alloc (o, .z0)
      (List.replicate (dim (o, .z0)) 0)), none)
  | .setArr s v => if v.length = dim s then (st.alloc s v, none) else (st, some "AssertionError")
  | .setStruct s t =>
    if (st.read t).length = dim s then ({ st with ref := fun r => if r = s then st.ref t else st.ref r }, none)
    else (st, some "AssertionError")
  | .setItem s i a => (st.write s ((st.read s).set i a), none)
  | .step o x u z => (((st.write (o, .x0) x).write (o, .z0) z).write (o, .u0) u, none)

/-- a history of calls -/
def IterSt.run (dim : IvSlot → Nat) (st : IterSt K) : List (IOp K) → IterSt K
  | [] => st
  | op :: ops => ((st.exec dim op).1).run dim ops

/-! ### The time -/

/-- The value passed to the `t0` setter. -/
inductive TimeArg (K : Type) where
  /-- an `int` or `float` -/
  | num (a : K)
  /-- a NumPy array, its entries in order -/
  | arr (l : List K)
  /-- a CasADi `DM` -/
  | dm (l : List K)
  | other

/-- The `t0` setter (`_iteratedvariables.py:200-212`): the new time or the error.  For a `DM`, `val.size` is a method, which is never
equal to 1. -/
def setT0 : TimeArg K → Except String (List K)
  | .num a => .ok [a]
  | .arr l => if l.length = 1 then .ok l else .error "AssertionError"
  | .dm _ => .error "AssertionError"
  | .other => .error "Exception"

end DoMpc
