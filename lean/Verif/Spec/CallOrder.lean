import Verif.Spec.LiveLoop

/-!
# What a configuration call is about

Every configuration call sets one item.  Written without reference to how the objects store it.
-/
namespace DoMpc.Spec
variable {K : Type} {d : Dims} {ne ns : Nat}

/-- The items of a controller. -/
inductive MpcItem (d : Dims) where
  | settings | objective | rterm | constraints
  | scaling (v : VarIx d)
  | bound (s : Side) (v : VarIx d)
  | terminal (s : Side) (j : Fin d.nx)

/-- the item that a call sets; none for calls that do not configure -/
def mpcItem : MpcOp K d → Option (MpcItem d)
  | .setParam _ | .settings _ => some .settings
  | .setObjective _ => some .objective
  | .setRterm _ => some .rterm
  | .setNlCons _ => some .constraints
  | .scaling v _ => some (.scaling v)
  | .bound s v _ => some (.bound s v)
  | .terminalBound s j _ => some (.terminal s j)
  | _ => none

/-- The items of an estimator. -/
inductive MheItem (d : Dims) (ne : Nat) where
  | settings | objective | constraints | tvpFun | pFun | yFun
  | scaling (v : MheIx d ne)
  | bound (s : Side) (v : MheIx d ne)

/-- the item that a call sets; none for refused functions and calls that do not configure -/
def mheItem : MheOp K d ne ns → Option (MheItem d ne)
  | .setParam _ | .settings _ => some .settings
  | .setObjective _ => some .objective
  | .setNlCons _ => some .constraints
  | .scaling v _ => some (.scaling v)
  | .bound s v _ => some (.bound s v)
  | .setTvpFun _ true => some .tvpFun
  | .setPFun _ true => some .pFun
  | .setYFun _ true => some .yFun
  | _ => none

/-- The items of a simulator. -/
inductive SimItem where
  | tStep | tvpFun | pFun | x0 | u0 | z0

/-- the item that a call sets; none for refused functions and calls that do not configure -/
def simItem : SimOp K d → Option SimItem
  | .settings _ | .setParam _ => some .tStep
  | .setTvpFun _ true => some .tvpFun
  | .setPFun _ true => some .pFun
  | .x0 _ => some .x0
  | .u0 _ => some .u0
  | .z0 _ => some .z0
  | _ => none

/-- the calls for one item, in order -/
noncomputable def callsFor {α ι : Type} (item : α → Option ι) (it : ι) (ops : List α) : List α := open Classical in ops.filter fun op => decide (item op = some it)

/-- For every item the last call is the same; for the items in `all` all calls are, in the same order. -/
def SameLast {α ι : Type} (item : α → Option ι) (all : ι → Prop) (a b : List α) : Prop :=
  ∀ it, (callsFor item it a).getLast? = (callsFor item it b).getLast? ∧ (all it → callsFor item it a = callsFor item it b)

end DoMpc.Spec
