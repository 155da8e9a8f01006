import Verif.Model.Basic
import Mathlib.LinearAlgebra.Matrix.NonsingularInverse

/-!
# Two-dimensional NumPy arrays

The linear models and the LQR of do-mpc compute with `numpy.ndarray`s whose shapes are only known at run time.  An array here is a
matrix together with its shape; operations that NumPy refuses for the given shapes are errors.
-/
namespace DoMpc
variable {K : Type}

/-- a two-dimensional array -/
structure NpMat (K : Type) where
  r : Nat
  c : Nat
  val : Matrix (Fin r) (Fin c) K

/-- the array with the entries of a matrix -/
abbrev NpMat.of {r c : Nat} (A : Matrix (Fin r) (Fin c) K) : NpMat K := ⟨r, c, A⟩

/-- a column, shape `(n, 1)` -/
abbrev NpMat.col {n : Nat} (v : Vec K n) : NpMat K := ⟨n, 1, fun i _ => v i⟩

/-- a row, shape `(1, n)` -/
abbrev NpMat.row {n : Nat} (v : Vec K n) : NpMat K := ⟨1, n, fun _ i => v i⟩

/-- `a.shape` -/
def NpMat.shape (A : NpMat K) : Nat × Nat := (A.r, A.c)

/-- `a.size` -/
def NpMat.size (A : NpMat K) : Nat := A.r * A.c

/-- `np.zeros((r, c))` -/
def NpMat.zeros [Zero K] (r c : Nat) : NpMat K := ⟨r, c, 0⟩

/-- `np.identity(n)` -/
def NpMat.eye [Zero K] [One K] (n : Nat) : NpMat K := ⟨n, n, 1⟩

/-- `np.transpose(a)` -/
def NpMat.T (A : NpMat K) : NpMat K := ⟨A.c, A.r, A.val.transpose⟩

/-- `-a` -/
def NpMat.neg [Neg K] (A : NpMat K) : NpMat K := ⟨A.r, A.c, -A.val⟩

/-- `a @ b`: the inner sizes must agree -/
def NpMat.mul [Mul K] [AddCommMonoid K] (A B : NpMat K) : Except String (NpMat K) :=
  if h : A.c = B.r then .ok ⟨A.r, B.c, A.val * B.val.submatrix (Fin.cast h) id⟩ else .error "ValueError"

/-- entry of an array stretched along its axes of size 1 -/
def NpMat.bget [Zero K] (A : NpMat K) (i j : Nat) : K :=
  if h : (if A.r = 1 then 0 else i) < A.r ∧ (if A.c = 1 then 0 else j) < A.c then A.val ⟨_, h.1⟩ ⟨_, h.2⟩ else 0

/-- size of a broadcast axis -/
def bdim (a b : Nat) : Option Nat := if a = b then some a else if a = 1 then some b else if b = 1 then some a else none

/-- element-wise operation with NumPy's broadcasting -/
def NpMat.zip [Zero K] (f : K → K → K) (A B : NpMat K) : Except String (NpMat K) :=
  match bdim A.r B.r, bdim A.c B.c with
  | some r, some c => .ok ⟨r, c, fun i j => f (A.bget i j) (B.bget i j)⟩
  | _, _ => .error "ValueError"

/-- `a + b` -/
def NpMat.add [Zero K] [Add K] (A B : NpMat K) : Except String (NpMat K) := NpMat.zip (· + ·) A B

/-- `a - b` -/
def NpMat.sub [Zero K] [Sub K] (A B : NpMat K) : Except String (NpMat K) := NpMat.zip (· - ·) A B

/-- `np.linalg.inv(a)`: `LinAlgError` for matrices that are not square or singular (exact arithmetic: no rounding decides) -/
noncomputable def NpMat.inv [Field K] [DecidableEq K] (A : NpMat K) : Except String (NpMat K) :=
  if h : A.r = A.c then
    let M : Matrix (Fin A.r) (Fin A.r) K := A.val.submatrix id (Fin.cast h)
    if M.det ≠ 0 then .ok ⟨A.r, A.r, M⁻¹⟩ else .error "LinAlgError"
  else .error "LinAlgError"

/-- entries of `[[A, B], [C, D]]` -/
def blk {a b c d : Nat} (A : Matrix (Fin a) (Fin c) K) (B : Matrix (Fin a) (Fin d) K) (C : Matrix (Fin b) (Fin c) K)
    (D : Matrix (Fin b) (Fin d) K) : Matrix (Fin (a + b)) (Fin (c + d)) K :=
  fun i j => Fin.addCases (fun i' => Fin.addCases (fun j' => A i' j') (fun j' => B i' j') j)
    (fun i' => Fin.addCases (fun j' => C i' j') (fun j' => D i' j') j) i

/-- entries of `[[A], [C]]` -/
def vblk {a b c : Nat} (A : Matrix (Fin a) (Fin c) K) (C : Matrix (Fin b) (Fin c) K) : Matrix (Fin (a + b)) (Fin c) K :=
  fun i j => Fin.addCases (fun i' => A i' j) (fun i' => C i' j) i

/-- `np.block([[A, B], [C, D]])` -/
def NpMat.block (A B C D : NpMat K) : Except String (NpMat K) :=
  if h : A.r = B.r ∧ C.r = D.r ∧ A.c = C.c ∧ B.c = D.c then
    .ok ⟨A.r + C.r, A.c + B.c, blk A.val (B.val.submatrix (Fin.cast h.1) id) (C.val.submatrix id (Fin.cast h.2.2.1))
      (D.val.submatrix (Fin.cast h.2.1) (Fin.cast h.2.2.2))⟩
  else .error "ValueError"

/-- `np.block([[A], [C]])` -/
def NpMat.vstack (A C : NpMat K) : Except String (NpMat K) :=
  if h : A.c = C.c then .ok ⟨A.r + C.r, A.c, vblk A.val (C.val.submatrix id (Fin.cast h))⟩ else .error "ValueError"

/-- the entries in row-major order: what `data.update` stores after `reshape` (`/repo/do_mpc/data.py:213-218`) -/
def NpMat.flat (A : NpMat K) : List K := (List.ofFn fun i => List.ofFn fun j => A.val i j).flatten

end DoMpc
