import Verif.Model.Differentiator
import Mathlib.LinearAlgebra.Matrix.Rank

/-!
# `NLPDifferentiator.status`

`/repo/do_mpc/differentiator/_nlpdifferentiator.py`, `/repo/do_mpc/differentiator/helper.py`.  Simplification: `np.linalg.matrix_rank` is the exact rank.
-/
namespace DoMpc.Diff

open scoped BigOperators

variable {K : Type} [Field K] [LinearOrder K] [IsStrictOrderedRing K]

/-- the settings for checks (`helper.py:25-49`) -/
structure Checks where
  licq : Bool
  sc : Bool
  residuals : Bool
  rank : Bool

/-- the defaults (`helper.py:25,34,40,45`) -/
def Checks.default : Checks := ⟨true, true, true, false⟩

/-- The status (`helper.py:70-117`).  `residual` is the square of the Frobenius norm, `some none` is NaN; `reduced_nlp` is `Nlp.isReduced`. -/
structure Status (K : Type) where
  licq : Option Bool
  sc : Option Bool
  residual : Option (Option K)
  lseSolved : Bool
  fullRank : Option Bool

/-- the status of a new differentiator (`helper.py:75-102`) -/
def Status.init : Status K := ⟨none, none, none, false, none⟩

/-- `np.linalg.matrix_rank` -/
noncomputable def matRank (n m : Nat) (M : Nat → Nat → K) : Nat := (Matrix.of fun (i : Fin n) (j : Fin m) => M i j).rank

/-- `_check_LICQ` (`_nlpdifferentiator.py:620-632`) -/
noncomputable def checkLICQ (N : Nlp K) (x p : Nat → K) (act : List Nat) : Bool :=
  let M := fun a j => consJac N x p (act.getD a 0) j
  if act.length = 0 then true
  else if matRank act.length N.nx M < act.length then false
  else true

/-- `_check_rank` (`_nlpdifferentiator.py:606-611`) of the reduced matrix -/
noncomputable def checkRank (N : Nlp K) (x l p : Nat → K) (act : List Nat) : Bool :=
  let keep := keepIdx N act
  decide (matRank keep.length keep.length (takeMat keep keep (kktA N x l p)) = keep.length)

/-- `_track_residuals` (`_nlpdifferentiator.py:613-618`), squared: `‖A s + B‖²`; NaN if `s` is -/
def residualOf (N : Nlp K) (x l p : Nat → K) (act : List Nat) (s : Option (Nat → Nat → K)) : Option K :=
  let keep := keepIdx N act
  s.map fun s => ∑ a ∈ Finset.range keep.length, ∑ k ∈ Finset.range N.np,
    (∑ b ∈ Finset.range keep.length, takeMat keep keep (kktA N x l p) a b * s b k + kktB N x l p (keep.getD a 0) k) ^ 2

/-- the status after `_calculate_sensitivities` (`_nlpdifferentiator.py:512-554`) -/
noncomputable def coreStatus (N : Nlp K) (S : Settings K) (C : Checks) (lin lstsq : LinSolver K) (s : Sol K) (p : Nat → K) (st : Status K) : Status K :=
  let act := consActive N S.tol s
  let sens := solveSystem N S lin lstsq s.x s.lamG p act
  { licq := if C.licq then some (checkLICQ N s.x p act) else st.licq
    sc := if C.sc then some (checkSC N S.tol s) else st.sc
    fullRank := if C.rank then some (checkRank N s.x s.lamG p act) else st.fullRank
    lseSolved := sens.isSome
    residual := if C.residuals then some (residualOf N s.x s.lamG p act sens) else st.residual }

/-- `differentiate` with its effect on `status` (`_nlpdifferentiator.py:651-708`).  The checks of the arguments come first, so that the status does not
change when one of them raises. -/
noncomputable def differentiateSt (N : Nlp K) (S : Settings K) (C : Checks) (lin lstsq : LinSolver K) (s : Sol K) (p : List K) (st : Status K) :
    Except String (Out K) × Status K :=
  match differentiate N S lin lstsq s p with
  | .error e => (.error e, st)
  | .ok o => (.ok o,
      if N.isReduced then coreStatus N.reduce S C lin lstsq (reduceSol N s) (takeIdx 0 (detIdx N.np N.depP) fun i => p.getD i 0) st
      else coreStatus N S C lin lstsq s (fun i => p.getD i 0) st)

/-- one call: settings at that time, solution and parameters -/
structure Call (K : Type) where
  set : Settings K
  checks : Checks
  sol : Sol K
  p : List K

/-- status after a history of calls -/
noncomputable def statusAfter (N : Nlp K) (lin lstsq : LinSolver K) (st : Status K) : List (Call K) → Status K
  | [] => st
  | c :: cs => statusAfter N lin lstsq (differentiateSt N c.set c.checks lin lstsq c.sol c.p st).2 cs

end DoMpc.Diff
