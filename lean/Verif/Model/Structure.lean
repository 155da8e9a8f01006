import Mathlib.Data.List.Basic

/-!
# `do_mpc.tools.Structure`

`/repo/do_mpc/tools/_structure.py:16-192`.  Used by `do_mpc.graphics` to hold the plotted lines under tuples of keys (`graphics.py:115-118`).

Simplifications: keys are integers and strings; a slice is given by the positions it selects in a list of given length (`slice.indices`);
values are scalars (any object that is not a list, tuple or dict), lists (or tuples) and dicts.
-/
namespace DoMpc.Struct

/-- an element of a power index -/
inductive Key where
  | int (n : Int)
  | str (s : String)
  deriving DecidableEq, Repr

abbrev Path := List Key

/-- values that can be assigned -/
inductive Val (V : Type) where
  | leaf (v : V)
  | list (l : List (Val V))
  | dict (l : List (Key × Val V))

/-- an element of the index in a query: a key, or a slice -/
inductive Q where
  | key (k : Key)
  | slice (pos : Nat → List Nat)

/-- The attributes (`_structure.py:68-77`). -/
structure St (V : Type) where
  master : List (Val V)
  powerindex : List Path
  features : List (List Key)
  index : List Nat
  count : Nat

/-- `Structure()` -/
def St.empty {V : Type} : St V := ⟨[], [], [], [], 0⟩

/-- The loop over the new power index (`_structure.py:141-145`) starting at position `i`. -/
def addFeatures : List (List Key) → Path → List (List Key)
  | fs, [] => fs
  | [], k :: ks => [k] :: addFeatures [] ks
  | f :: fs, k :: ks => (if k ∈ f then f else f ++ [k]) :: addFeatures fs ks

/-- Appending a new scalar (`_structure.py:132-145`). -/
def St.append {V : Type} (s : St V) (ind : Path) (v : Val V) : St V :=
  { master := s.master ++ [v]
    powerindex := s.powerindex ++ [ind]
    index := s.index ++ [s.count]
    count := s.count + 1
    features := addFeatures s.features ind }

/-- Resetting an existing item (`_structure.py:117-120`). -/
def St.reset {V : Type} (s : St V) (ind : Path) (v : Val V) : St V :=
  { s with master := s.master.set (s.powerindex.idxOf ind) v }

mutual
/-- `__setitem__` (`_structure.py:115-145`) -/
def St.setItem {V : Type} : Val V → Path → St V → St V
  | .leaf v, ind, s => if ind ∈ s.powerindex then s.reset ind (.leaf v) else s.append ind (.leaf v)
  | .list l, ind, s => if ind ∈ s.powerindex then s.reset ind (.list l) else St.setList l 0 ind s
  | .dict l, ind, s => if ind ∈ s.powerindex then s.reset ind (.dict l) else St.setDict l ind s
/-- `for i, item_i in enumerate(val): self[ind + (i,)] = item_i` -/
def St.setList {V : Type} : List (Val V) → Nat → Path → St V → St V
  | [], _, _, s => s
  | v :: l, i, ind, s => St.setList l (i + 1) ind (St.setItem v (ind ++ [.int i]) s)
/-- `for i, item_i in val.items(): self[ind + (i,)] = item_i` -/
def St.setDict {V : Type} : List (Key × Val V) → Path → St V → St V
  | [], _, s => s
  | (k, v) :: l, ind, s => St.setDict l ind (St.setItem v (ind ++ [k]) s)
end

/-- Nested result of a query. -/
inductive Sel (α : Type) where
  | flat (l : List α)
  | nest (l : List (Sel α))

/-- The inner loop `for i, ind_i in enumerate(_iter_index)` (`_structure.py:181-186`): an `IndexError` for a power index of length `j`; the test
`j > len(ind_i)` lets it through. -/
def filterAt {α : Type} (j : Nat) (k : Key) : List (Path × α) → Except String (List (Path × α))
  | [] => .ok []
  | c :: cs =>
    if j > c.1.length then filterAt j k cs
    else
      match c.1[j]? with
      | none => .error "IndexError"
      | some k' => do
        let r ← filterAt j k cs
        return if k' = k then c :: r else r

/-- `features[j][slice]` -/
def sliceKeys (feats : List (List Key)) (j : Nat) (pos : Nat → List Nat) : Except String (List Key) :=
  match feats[j]? with
  | none => .error "IndexError"
  | some f => .ok ((pos f.length).filterMap (f[·]?))

/-- The loop `for j, ind_j in enumerate(ind)` of `_select` (`_structure.py:162-190`); `rec` is the recursive call. -/
def selectLoop {α : Type} (rec : List Q → List (Path × α) → Except String (Sel (Path × α))) (feats : List (List Key)) (ind : List Q) :
    Nat → List Q → List (Path × α) → Except String (Sel (Path × α))
  | _, [], c => .ok (.flat c)
  | j, .key k :: rest, c => do
    let c' ← filterAt j k c
    selectLoop rec feats ind (j + 1) rest c'
  | j, .slice pos :: _, c => do
    let ks ← sliceKeys feats j pos
    let r ← ks.mapM fun k => rec (ind.set j (.key k)) c
    return .nest r

/-- `_select` for an index with at most `n` slices. -/
def selectN {α : Type} (feats : List (List Key)) : Nat → List Q → List (Path × α) → Except String (Sel (Path × α))
  | 0, ind, c => selectLoop (fun _ _ => .error "RecursionError") feats ind 0 ind c
  | n + 1, ind, c => selectLoop (selectN feats n) feats ind 0 ind c

/-- `Q` is a slice -/
def Q.isSlice : Q → Bool
  | .slice _ => true
  | .key _ => false

/-- `_select` (`_structure.py:156-192`) -/
def select {α : Type} (feats : List (List Key)) (ind : List Q) (c : List (Path × α)) : Except String (Sel (Path × α)) :=
  selectN feats (ind.countP Q.isSlice) ind c

mutual
/-- the values without their power indices (`_structure.py:112,149`) -/
def Sel.map {α β : Type} (f : α → β) : Sel α → Sel β
  | .flat l => .flat (l.map f)
  | .nest l => .nest (Sel.mapList f l)
/-- … of a list -/
def Sel.mapList {α β : Type} (f : α → β) : List (Sel α) → List (Sel β)
  | [] => []
  | s :: l => s.map f :: Sel.mapList f l
end

/-- `structure[ind]` (`_structure.py:148-150`) -/
def St.getItem {V : Type} (s : St V) (ind : List Q) : Except String (Sel (Val V)) :=
  (select s.features ind (s.powerindex.zip s.master)).map (Sel.map Prod.snd)

/-- `structure.get_index[ind]` (`_structure.py:86-113`) -/
def St.getIndex {V : Type} (s : St V) (ind : List Q) : Except String (Sel Nat) :=
  (select s.features ind (s.powerindex.zip s.index)).map (Sel.map Prod.snd)

/-- A sequence of assignments. -/
def St.run {V : Type} (s : St V) (ops : List (Path × Val V)) : St V := ops.foldl (fun s op => St.setItem op.2 op.1 s) s

end DoMpc.Struct
