import Verif.Model.ModelBuilder

/-!
# Specification: what a history of configuration calls describes

Everything here is read off the list of calls.
-/
namespace DoMpc.Spec
variable {K : Type}

/-- The documented names (`set_variable`'s docstring). -/
def documentedTypes : List (String × MKind) :=
  [("states", .x), ("_x", .x), ("inputs", .u), ("_u", .u), ("algebraic", .z), ("_z", .z), ("parameter", .p), ("_p", .p),
   ("timevarying_parameter", .tvp), ("_tvp", .tvp)]

/-- The names that are accepted: the documented ones except `timevarying_parameter`, in whose place only a nonsense string works. -/
def acceptedTypes : List (String × MKind) :=
  [("states", .x), ("_x", .x), ("inputs", .u), ("_u", .u), ("algebraic", .z), ("_z", .z), ("parameter", .p), ("_p", .p),
   ("timevaryingparameterarameter", .tvp), ("_tvp", .tvp)]

/-- declared variables of a kind, in order -/
def declared (k : MKind) (ops : List (MOp K)) : Layout :=
  ops.filterMap fun | .setVar t n r => if (t, k) ∈ acceptedTypes then some (n, r) else none | _ => none

/-- right-hand sides: name, expression, noise requested -/
def rhsCalls (ops : List (MOp K)) : List (String × MExpr K × Bool) :=
  ops.filterMap fun | .setRhs n e b => some (n, e, b) | _ => none

/-- measurements -/
def measCalls (ops : List (MOp K)) : List (String × MExpr K × Bool) :=
  ops.filterMap fun | .setMeas n e b => some (n, e, b) | _ => none

/-- algebraic equations -/
def algCalls (ops : List (MOp K)) : List (String × MExpr K) := ops.filterMap fun | .setAlg n e => some (n, e) | _ => none

/-- auxiliary expressions -/
def exprCalls (ops : List (MOp K)) : List (String × MExpr K) := ops.filterMap fun | .setExpr n e => some (n, e) | _ => none

/-- noise variables requested by calls -/
def noiseOf (calls : List (String × MExpr K × Bool)) : Layout :=
  calls.filterMap fun c => if c.2.2 then some (c.1 ++ "_noise", c.2.1.rows) else none

/-- The measurements of the model: those configured or, if there are none, all states with noise. -/
def measurements (ops : List (MOp K)) : List (String × MExpr K × Bool) :=
  if measCalls ops = [] then (declared .x ops).map fun s => (s.1, ⟨s.2, fun val => val .x s.1⟩, true) else measCalls ops

/-- The last right-hand side given for a state. -/
def lastRhs (n : String) (ops : List (MOp K)) : Option (MExpr K × Bool) := ((rhsCalls ops).reverse.lookup n)

/-- No name is used twice within a structure. -/
def DistinctNames (ops : List (MOp K)) : Prop :=
  ((noiseOf (rhsCalls ops)).map (·.1)).Nodup ∧ ("default" :: (measurements ops).map (·.1)).Nodup ∧
  ("default" :: (exprCalls ops).map (·.1)).Nodup ∧ ("default" :: (algCalls ops).map (·.1)).Nodup

/-- The expression involves declared variables only. -/
def UsesDeclared (ops : List (MOp K)) (e : MExpr K) : Prop :=
  ∀ v v' : MVal K, (∀ k n r, (n, r) ∈ declared k ops → ∀ i < r, v k n i = v' k n i) → ∀ i < e.rows, e.eval v i = e.eval v' i

/-- value of an equation with optional noise -/
def withNoise [AddMonoid K] (c : String × MExpr K × Bool) (val : MVal K) (noise : String → Nat → K) (i : Nat) : K :=
  c.2.1.eval val i + if c.2.2 then noise (c.1 ++ "_noise") i else 0

end DoMpc.Spec
