import Verif.Model.CustomNlp
import Verif.Spec.Lifecycle

/-!
# What the user asks for when editing the optimisation problem
-/
namespace DoMpc.Custom.Spec
variable {W K : Type}

/-- `lb ≤ g(w) ≤ ub`, entry by entry -/
def Within [LE K] (g : List (W → K)) (l u : List (Bound K)) (w : W) : Prop :=
  ∀ i (hg : i < g.length) (hl : i < l.length) (hu : i < u.length), (l[i]).le (g[i] w) ∧ (u[i]).ge (g[i] w)

/-- `nlp_obj = f` -/
def objOf : Op W K → Option (W → K)
  | .setObj f => some f
  | _ => none

/-- `nlp_cons.append(v)` -/
def consOf : Op W K → Option (List (W → K))
  | .appendCons v => some v
  | _ => none

/-- `nlp_cons_lb.append(v)` -/
def lbOf : Op W K → Option (List (Bound K))
  | .appendLb v => some v
  | _ => none

/-- `nlp_cons_ub.append(v)` -/
def ubOf : Op W K → Option (List (Bound K))
  | .appendUb v => some v
  | _ => none

/-- the edits that the documentation advises: a new objective, and constraints and bounds appended -/
def Advised : Op W K → Prop
  | .setObj _ | .appendCons _ | .appendLb _ | .appendUb _ => True
  | _ => False

/-- all constraints, lower and upper bounds appended -/
def newCons (edits : List (Op W K)) : List (W → K) := (edits.filterMap consOf).flatten
def newLb (edits : List (Op W K)) : List (Bound K) := (edits.filterMap lbOf).flatten
def newUb (edits : List (Op W K)) : List (Bound K) := (edits.filterMap ubOf).flatten

/-- `nlp_cons_lb = v`, `nlp_cons_ub = v` with a vector -/
def lbAssigned : Op W K → Option (List (Bound K))
  | .setLb (.vec v) => some v
  | _ => none
def ubAssigned : Op W K → Option (List (Bound K))
  | .setUb (.vec v) => some v
  | _ => none

/-- calls that rebuild the problem -/
def Builds : Op W K → Prop
  | .prepare _ _ _ _ | .create => True
  | _ => False

end DoMpc.Custom.Spec

namespace DoMpc.Custom.Spec
variable {W K : Type}

/-- The lists `g`, `l`, `u` are the constraint functions `rows` with their bounds, entry by entry. -/
def RowsAre (rows : W → List (Row K)) (g : List (W → K)) (l u : List (Bound K)) : Prop :=
  l.length = g.length ∧ u.length = g.length ∧
    ∀ w, (rows w).length = g.length ∧ ∀ i (hg : i < g.length) (hl : i < l.length) (hu : i < u.length), (rows w)[i]? = some ⟨l[i], g[i] w, u[i]⟩

end DoMpc.Custom.Spec
