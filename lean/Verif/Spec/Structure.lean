import Verif.Model.Structure

/-! # What a `Structure` should hold: scalars under paths, in the order of insertion -/
namespace DoMpc.Struct
variable {V : Type}

mutual
/-- the scalars of a value with their paths below `p`, in order -/
def leaves : Val V → Path → List (Path × V)
  | .leaf v, p => [(p, v)]
  | .list l, p => leavesList l 0 p
  | .dict l, p => leavesDict l p
/-- … of the elements of a list from position `i` -/
def leavesList : List (Val V) → Nat → Path → List (Path × V)
  | [], _, _ => []
  | v :: l, i, p => leaves v (p ++ [.int i]) ++ leavesList l (i + 1) p
/-- … of the items of a dict -/
def leavesDict : List (Key × Val V) → Path → List (Path × V)
  | [], _ => []
  | (k, v) :: l, p => leaves v (p ++ [k]) ++ leavesDict l p
end

mutual
/-- dicts have no duplicate keys -/
def Val.WF : Val V → Prop
  | .leaf _ => True
  | .list l => Val.WFList l
  | .dict l => Val.WFDict l
/-- … in all elements -/
def Val.WFList : List (Val V) → Prop
  | [] => True
  | v :: l => v.WF ∧ Val.WFList l
/-- … in all items -/
def Val.WFDict : List (Key × Val V) → Prop
  | [] => True
  | (k, v) :: l => v.WF ∧ (∀ i ∈ l, i.1 ≠ k) ∧ Val.WFDict l
end

/-- the stored paths with their values -/
def St.entries (s : St V) : List (Path × Val V) := s.powerindex.zip s.master

/-- path `p` matches the query `q`: it is at least as long, equal in the keys, and one of the keys selected by each slice -/
def Matches (feats : List (List Key)) : Nat → List Q → Path → Prop
  | _, [], _ => True
  | _, _ :: _, [] => False
  | j, .key k :: q, k' :: p => k' = k ∧ Matches feats (j + 1) q p
  | j, .slice pos :: q, k' :: p => (∃ f, feats[j]? = some f ∧ ∃ i ∈ pos f.length, f[i]? = some k') ∧ Matches feats (j + 1) q p

mutual
/-- all elements of a nested result -/
def Sel.elems {α : Type} : Sel α → List α
  | .flat l => l
  | .nest l => Sel.elemsList l
/-- … of a list of results -/
def Sel.elemsList {α : Type} : List (Sel α) → List α
  | [] => []
  | s :: l => s.elems ++ Sel.elemsList l
end

end DoMpc.Struct
