import Mathlib.Algebra.Order.Field.Basic
import Mathlib.Algebra.BigOperators.Group.Finset.Basic
import Mathlib.Algebra.Order.Group.Unbundled.Abs

/-!
# Parametric sensitivities: `NLPDifferentiator`

`/repo/do_mpc/differentiator/_nlpdifferentiator.py`, `/repo/do_mpc/differentiator/helper.py`.

Vectors and matrices are functions on natural numbers together with their sizes; index arrays are lists.  Simplifications: exact arithmetic;
CasADi's automatic differentiation is represented by the derivatives that belong to the NLP (`Nlp`); the linear solvers are parameters.
The status is in `Model/DiffStatus.lean` (it does not influence the result).
-/
namespace DoMpc.Diff

variable {K : Type} [Field K] [LinearOrder K] [IsStrictOrderedRing K]

/-- The NLP: sizes, which variables and parameters occur in `f` or `g` (`ca.depends_on`), bounds (`none` is infinite) and derivatives at
`(x, lam_g, p)`: `hxx`, `hxp` of the Lagrangian, `jac`, `jacP` of the constraints. -/
structure Nlp (K : Type) where
  nx : Nat
  ng : Nat
  np : Nat
  depX : Nat → Bool
  depP : Nat → Bool
  lbx : Nat → Option K
  ubx : Nat → Option K
  lbg : Nat → Option K
  ubg : Nat → Option K
  hxx : (Nat → K) → (Nat → K) → (Nat → K) → Nat → Nat → K
  hxp : (Nat → K) → (Nat → K) → (Nat → K) → Nat → Nat → K
  jac : (Nat → K) → (Nat → K) → Nat → Nat → K
  jacP : (Nat → K) → (Nat → K) → Nat → Nat → K

/-- `det_sym_idx`, `undet_sym_idx` of `_detect_undetermined_sym_var` (`_nlpdifferentiator.py:182-202`) -/
def detIdx (n : Nat) (dep : Nat → Bool) : List Nat := (List.range n).filter fun i => dep i
/-- see `detIdx` -/
def undetIdx (n : Nat) (dep : Nat → Bool) : List Nat := (List.range n).filter fun i => !dep i

/-- `v[idx]` -/
def takeIdx {α : Type} (d : α) (idx : List Nat) (v : Nat → α) : Nat → α := fun a => (idx.map v).getD a d

/-- values of the remaining variables as values of all of them; those of the removed ones do not matter -/
def embed (idx : List Nat) (v : Nat → K) : Nat → K := fun i => if i ∈ idx then v (idx.idxOf i) else 0

/-- rows and columns of a matrix -/
def takeMat (ri ci : List Nat) (M : Nat → Nat → K) : Nat → Nat → K := fun a b => M (ri.getD a 0) (ci.getD b 0)

/-- The reduced NLP of `_remove_unused_sym_vars` (`_nlpdifferentiator.py:204-240`): the same expressions in fewer variables. -/
def Nlp.reduce (N : Nlp K) : Nlp K :=
  let dx := detIdx N.nx N.depX
  let dp := detIdx N.np N.depP
  { nx := dx.length, ng := N.ng, np := dp.length
    depX := fun _ => true, depP := fun _ => true
    lbx := takeIdx none dx N.lbx, ubx := takeIdx none dx N.ubx, lbg := N.lbg, ubg := N.ubg
    hxx := fun x l p => takeMat dx dx (N.hxx (embed dx x) l (embed dp p))
    hxp := fun x l p => takeMat dx dp (N.hxp (embed dx x) l (embed dp p))
    jac := fun x p => fun c b => N.jac (embed dx x) (embed dp p) c (dx.getD b 0)
    jacP := fun x p => fun c b => N.jacP (embed dx x) (embed dp p) c (dp.getD b 0) }

/-- `status.reduced_nlp` (`_nlpdifferentiator.py:232-240`) -/
def Nlp.isReduced (N : Nlp K) : Bool := decide (0 < (undetIdx N.nx N.depX).length + (undetIdx N.np N.depP).length)

/-- the solution passed to `differentiate` -/
structure Sol (K : Type) where
  x : Nat → K
  g : Nat → K
  lamG : Nat → K
  lamX : Nat → K

/-- settings that influence the result (`helper.py:14-66`) -/
structure Settings (K : Type) where
  tol : K
  setLamZero : Bool
  lstsqFallback : Bool

/-- `np.abs(v - bound) <= tol` -/
def near (tol v : K) (b : Option K) : Prop := match b with | none => False | some b => |v - b| ≤ tol
/-- `np.abs(v - bound) > tol` -/
def far (tol v : K) (b : Option K) : Prop := match b with | none => True | some b => tol < |v - b|

instance (tol v : K) (b : Option K) : Decidable (near tol v b) := by unfold near; split <;> infer_instance
instance (tol v : K) (b : Option K) : Decidable (far tol v b) := by unfold far; split <;> infer_instance

/-- `where_…_active` (`_nlpdifferentiator.py:391-392`) -/
def whereActive (tol : K) (n : Nat) (v : Nat → K) (lb ub : Nat → Option K) : List Nat :=
  (List.range n).filter fun i => near tol (v i) (lb i) ∨ near tol (v i) (ub i)
/-- `where_…_inactive` (`_nlpdifferentiator.py:389-390`) -/
def whereInactive (tol : K) (n : Nat) (v : Nat → K) (lb ub : Nat → Option K) : List Nat :=
  (List.range n).filter fun i => far tol (v i) (lb i) ∧ far tol (v i) (ub i)

/-- `where_cons_active` (`_nlpdifferentiator.py:417-418`): constraints, then bounds -/
def consActive (N : Nlp K) (tol : K) (s : Sol K) : List Nat :=
  whereActive tol N.ng s.g N.lbg N.ubg ++ (whereActive tol N.nx s.x N.lbx N.ubx).map (· + N.ng)
/-- `where_cons_inactive` -/
def consInactive (N : Nlp K) (tol : K) (s : Sol K) : List Nat :=
  whereInactive tol N.ng s.g N.lbg N.ubg ++ (whereInactive tol N.nx s.x N.lbx N.ubx).map (· + N.ng)

/-- Jacobian of `(g, x)` with respect to `x` -/
def consJac (N : Nlp K) (x p : Nat → K) (m j : Nat) : K := if m < N.ng then N.jac x p m j else if m - N.ng = j then 1 else 0

/-- `A_func`: the Hessian of `f + lam_g' g + lam_x' x` with respect to `(x, lam_g, lam_x)` (`_nlpdifferentiator.py:287-297`) -/
def kktA (N : Nlp K) (x l p : Nat → K) (r c : Nat) : K :=
  if r < N.nx then
    if c < N.nx then N.hxx x l p r c else consJac N x p (c - N.nx) r
  else
    if c < N.nx then consJac N x p (r - N.nx) c else 0

/-- `B_func`: the derivative of the gradient with respect to `p` (`_nlpdifferentiator.py:300-301`) -/
def kktB (N : Nlp K) (x l p : Nat → K) (r k : Nat) : K :=
  if r < N.nx then N.hxp x l p r k else if r - N.nx < N.ng then N.jacP x p (r - N.nx) k else 0

/-- `where_keep_idx` (`_nlpdifferentiator.py:464`) -/
def keepIdx (N : Nlp K) (act : List Nat) : List Nat := List.range N.nx ++ act.map (· + N.nx)

/-- A linear solver: size, number of right-hand sides, matrix, right-hand side; `none` if it raises. -/
abbrev LinSolver (K : Type) := Nat → Nat → (Nat → Nat → K) → (Nat → Nat → K) → Option (Nat → Nat → K)

/-- `_calculate_sensitivities` (`_nlpdifferentiator.py:511-553`) with `_solve_linear_system` (`:469-509`): the solution of
`A s = -B` on the kept rows and columns, `none` if `status.lse_solved` is false. -/
def solveSystem (N : Nlp K) (S : Settings K) (lin lstsq : LinSolver K) (x l p : Nat → K) (act : List Nat) : Option (Nat → Nat → K) :=
  let keep := keepIdx N act
  let A := takeMat keep keep (kktA N x l p)
  let B := fun a k => kktB N x l p (keep.getD a 0) k
  let rhs := fun a k => - B a k
  match lin keep.length N.np A rhs with
  | some s => some s
  | none => if S.lstsqFallback then lstsq keep.length N.np A rhs else none

/-- `param_sens`; an entry `none` is NaN (`:503-507`) -/
def paramSens (N : Nlp K) (S : Settings K) (lin lstsq : LinSolver K) (x l p : Nat → K) (act : List Nat) : Nat → Nat → Option K :=
  fun a k => (solveSystem N S lin lstsq x l p act).map fun s => s a k

/-- `M[idx,:] = rows` -/
def scatterRows {α : Type} (idx : List Nat) (rows M : Nat → Nat → α) : Nat → Nat → α :=
  idx.zipIdx.foldl (fun M q => Function.update M q.1 (rows q.2)) M

/-- `M[ri[:,None], ci] = rows` -/
def scatterMat {α : Type} (ri ci : List Nat) (vals M : Nat → Nat → α) : Nat → Nat → α :=
  ri.zipIdx.foldl (fun M q => Function.update M q.1
    (ci.zipIdx.foldl (fun row t => Function.update row t.1 (vals q.2 t.2)) (M q.1))) M

/-- the zero matrix -/
def zeros : Nat → Nat → Option K := fun _ _ => some 0

/-- `_map_dlamdp` (`_nlpdifferentiator.py:567-579`) -/
def mapDlam (N : Nlp K) (act : List Nat) (s : Nat → Nat → Option K) : Nat → Nat → Option K :=
  scatterRows act (fun a => s (N.nx + a)) zeros

/-- Result: `dx_dp`, `dlam_dp` with their shapes, `status.lse_solved`. -/
structure Out (K : Type) where
  dx : Nat → Nat → Option K
  dlam : Nat → Nat → Option K
  rowsX : Nat
  rowsLam : Nat
  cols : Nat
  solved : Bool

/-- The part of `differentiate` between the reduction and the final mapping. -/
def core (N : Nlp K) (S : Settings K) (lin lstsq : LinSolver K) (s : Sol K) (p : Nat → K) : Out K :=
  let act := consActive N S.tol s
  let ps := paramSens N S lin lstsq s.x s.lamG p act
  ⟨ps, mapDlam N act ps, N.nx, N.ng + N.nx, N.np, (solveSystem N S lin lstsq s.x s.lamG p act).isSome⟩

/-- `_map_param_sens_to_full` (`_nlpdifferentiator.py:589-604`) -/
def mapFull (N : Nlp K) (o : Out K) : Out K :=
  let dx := detIdx N.nx N.depX
  let dp := detIdx N.np N.depP
  ⟨scatterMat dx dp o.dx zeros,
   scatterMat (List.range N.ng ++ dx.map (· + N.ng)) dp o.dlam zeros, N.nx, N.ng + N.nx, N.np, o.solved⟩

/-- `_reduce_nlp_solution_to_determined` (`_nlpdifferentiator.py:333-345`) -/
def reduceSol (N : Nlp K) (s : Sol K) : Sol K :=
  let dx := detIdx N.nx N.depX
  { s with x := takeIdx 0 dx s.x, lamX := takeIdx 0 dx s.lamX }

/-- `differentiate(nlp_sol, p_num)` (`_nlpdifferentiator.py:651-708`); `p` is the column passed by the caller.  `p_num[idx]` raises if an index is
out of range.  With `set_lam_zero` the name `lam_num` is used before it is assigned (`:420-422`). -/
def differentiate (N : Nlp K) (S : Settings K) (lin lstsq : LinSolver K) (s : Sol K) (p : List K) : Except String (Out K) :=
  let dp := detIdx N.np N.depP
  if N.isReduced then
    if dp.any fun i => decide (p.length ≤ i) then .error "RuntimeError"
    else if S.setLamZero then .error "UnboundLocalError"
    else .ok (mapFull N (core N.reduce S lin lstsq (reduceSol N s) (takeIdx 0 dp fun i => p.getD i 0)))
  else
    if p.length ≠ N.np then .error "ValueError"
    else if S.setLamZero then .error "UnboundLocalError"
    else .ok (core N S lin lstsq s fun i => p.getD i 0)

/-- `_check_SC` (`_nlpdifferentiator.py:634-649`): `status.SC` -/
def checkSC (N : Nlp K) (tol : K) (s : Sol K) : Bool :=
  (consActive N tol s).all fun m => decide (tol ≤ |if m < N.ng then s.lamG m else s.lamX (m - N.ng)|)

/-- `DoMPCDifferentiator.differentiate` (`_nlpdifferentiator.py:843-860`): rows of `dx_dp` times the scaling of the variable -/
def rescale (scaling : Nat → K) (o : Out K) : Out K := { o with dx := fun i k => (o.dx i k).map (scaling i * ·) }

/-- `DoMPCDifferentiator(optimizer).differentiate()`: `captured` is the NLP with the bounds read by the constructor (`:792-811`); the solution, the
parameters are those of the optimizer now (`:813-841`).  The bounds of the optimizer now are not read. -/
def doDifferentiate (captured : Nlp K) (scaling : Nat → K) (S : Settings K) (lin lstsq : LinSolver K) (s : Sol K) (p : List K) :
    Except String (Out K) :=
  (differentiate captured S lin lstsq s p).map (rescale scaling)

end DoMpc.Diff
