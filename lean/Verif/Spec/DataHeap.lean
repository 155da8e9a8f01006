import Verif.Model.DataHeap

/-!
# Arrays handed out by a data container

The container as a user sees it through values (`Model/Data.lean`), and the two ways in which the user may hold arrays that matter to it.
-/
namespace DoMpc.Spec
variable {K : Type}

/-- What the container's fields read now. -/
def contents (h : HData K) : Data K := ⟨h.fields, fun k => if (h.fields.lookup k).isSome then h.heap (h.attr k) else [], h.queries⟩

/-- An array which `export()` would hand out now. -/
def Exported (h : HData K) (r : Nat) : Prop := ∃ k, (k, r) ∈ h.export

/-- The numbers of an argument of `update` at the time of the call: those of an array row by row. -/
def readNow (h : HData K) : HVal K → PyVal K
  | .ref r => .arr (h.heap r).flatten
  | .num row => .arr row
  | .other => .other

/-- What an event does to a container of values (`none`: nothing), with the values that the arguments have at the time of the call. -/
def onValues [Inhabited K] (pw : String → List String → Except String (List Nat)) (h : HData K) (D : Data K) : HOp K → Data K
  | .update kw => (D.update (kw.map fun kv => (kv.1, readNow h kv.2))).1
  | .reset => D.initStorage
  | .get f ind => (D.get pw f ind).1
  | _ => D

/-- The container of values along a history. -/
def valuesAfter [Inhabited K] (pw : String → List String → Except String (List Nat)) (h : HData K) (D : Data K) : List (HOp K) → Data K
  | [] => D
  | op :: ops => valuesAfter pw (h.exec pw op) (onValues pw h D op) ops

/-- No event of the history writes into an array that is a field of the container at that time. -/
def HandsOff [Inhabited K] (pw : String → List String → Except String (List Nat)) (h : HData K) : List (HOp K) → Prop
  | [] => True
  | op :: ops => (match op with | .write r _ _ _ => ¬ Exported h r | _ => True) ∧ HandsOff pw (h.exec pw op) ops

/-- The arrays that an event mentions exist (a user has no others). -/
def ArraysExist [Inhabited K] (pw : String → List String → Except String (List Nat)) (h : HData K) : List (HOp K) → Prop
  | [] => True
  | op :: ops => (match op with
      | .update kw => ∀ k r, (k, HVal.ref r) ∈ kw → r < h.next
      | .write r _ _ _ => r < h.next
      | _ => True) ∧ ArraysExist pw (h.exec pw op) ops

/-- No event of the history writes into the array `r`. -/
def NeverWrites (r : Nat) (ops : List (HOp K)) : Prop := ∀ i j v, HOp.write r i j v ∉ ops

/-- An event replaces the array of the field `k`: a reset, or an update that gets as far as the key `k`. -/
def Replaces (h : HData K) (k : String) : HOp K → Prop
  | .reset => True
  | .update kw => ∃ pre v post, kw = pre ++ (k, v) :: post ∧ (h.update (pre ++ [(k, v)])).2 = none
  | _ => False

/-- No event of the history replaces the array of the field `k`. -/
def NeverReplaced [Inhabited K] (pw : String → List String → Except String (List Nat)) (h : HData K) (k : String) : List (HOp K) → Prop
  | [] => True
  | op :: ops => ¬ Replaces h k op ∧ NeverReplaced pw (h.exec pw op) k ops

end DoMpc.Spec
