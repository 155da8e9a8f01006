/-!
# Specification: realisation histories of a multi-stage problem

`c` uncertainty realisations `0 … c-1` (0 is nominal), robust horizon `nR`.  These definitions do not mention the
code's tables.
-/
namespace DoMpc.Spec

/-- What is known at stage `k`: the realisations of the first `min k nR` stages, oldest first. -/
def IsHistory (c nR k : Nat) (h : List Nat) : Prop :=
  h.length = min k nR ∧ ∀ b ∈ h, b < c

/-- Realisation `b` may occur at stage `k` after history `h`: any of the `c` ones inside the robust horizon,
afterwards the one chosen last (the nominal one if there is no robust horizon). -/
def MayOccur (c nR k : Nat) (h : List Nat) (b : Nat) : Prop :=
  if k < nR then b < c else b = h.getLastD 0

/-- History after stage `k` in which `b` occurred. -/
def extend (nR k : Nat) (h : List Nat) (b : Nat) : List Nat :=
  if k < nR then h ++ [b] else h

/-- Number of a history: its value as a base-`c` number. -/
def number (c : Nat) (h : List Nat) : Nat := h.foldl (fun a b => a * c + b) 0

end DoMpc.Spec

namespace DoMpc.Spec

/-- All sequences of `m` realisations out of `c`. -/
def allHistories (c : Nat) : Nat → List (List Nat)
  | 0 => [[]]
  | m + 1 => (allHistories c m).flatMap fun h => (List.range c).map fun b => h ++ [b]

/-- The realisations that may occur at stage `k` after `h`, as a list (compare `MayOccur`). -/
def occurring (c nR k : Nat) (h : List Nat) : List Nat :=
  if k < nR then List.range c else [h.getLastD 0]

end DoMpc.Spec
