import Verif.Model.Mpc
import Verif.Model.ScenarioTree
import Mathlib.Algebra.Polynomial.Derivative
import Mathlib.Algebra.Polynomial.Eval.Defs

/-!
# Orthogonal collocation (`/repo/do_mpc/optimizer.py:828-985`)

`tau` is `tau_root` (`[0] + collocation_points(deg, type)`, computed by CasADi and left abstract), `h = t_step/ni`.
The symbolic expression `L` and its `castools.tangent` are modelled by a polynomial and its derivative.
-/
namespace DoMpc
open Polynomial
variable {K : Type} [Field K] [LinearOrder K] {d : Dims}

/-- The Lagrange polynomial `L` of point `j` (`optimizer.py:872-876`): `L = 1`, then multiplied for every `r ≠ j`. -/
noncomputable def lagrangeL (deg : Nat) (tau : Nat → K) (j : Nat) : K[X] :=
  (List.range (deg + 1)).foldl
    (fun L r => if r ≠ j then L * ((X - C (tau r)) * C (1 / (tau j - tau r))) else L) 1

/-- `D[j] = lfcn(1.0)` (`optimizer.py:878`). -/
noncomputable def collD (deg : Nat) (tau : Nat → K) (j : Nat) : K := (lagrangeL deg tau j).eval 1

/-- `C[j, r] = tfcn(tau_root[r])` (`optimizer.py:881-883`). -/
noncomputable def collC (deg : Nat) (tau : Nat → K) (j r : Nat) : K := (derivative (lagrangeL deg tau j)).eval (tau r)

/-- An entry of `ik_split`: unset, the initial state `xk0`, or the slice of `ik` starting at an offset. -/
inductive Slot where
  | unset
  | init
  | at (o : Nat)
  deriving DecidableEq, Repr

/-- Allocation state of `optimizer.py:894-921`: `offset`, `offset_z`, `first_j`, `ik_split`, `zk_split` (as offsets into `zk`). -/
structure Alloc where
  offset : Nat
  offsetZ : Nat
  firstJ : Nat
  ik : Nat → Nat → Slot
  zk : Nat → Nat → Slot

/-- `optimizer.py:894-910`: initial condition stored, the first algebraic block taken. -/
def Alloc.start (nz : Nat) : Alloc where
  offset := 0
  offsetZ := nz
  firstJ := 1
  ik := fun i j => if i = 0 ∧ j = 0 then .init else .unset
  zk := fun i j => if i = 0 ∧ j = 0 then .at 0 else .unset

/-- One collocation point (`optimizer.py:914-919`). -/
def Alloc.point (nx nz i : Nat) (a : Alloc) (j : Nat) : Alloc where
  offset := a.offset + nx
  offsetZ := a.offsetZ + nz
  firstJ := a.firstJ
  ik := fun i' j' => if i' = i ∧ j' = j then .at a.offset else a.ik i' j'
  zk := fun i' j' => if i' = i ∧ j' = j then .at a.offsetZ else a.zk i' j'

/-- One finite element (`optimizer.py:912-922`): points `first_j … deg`, then `first_j = 0`. -/
def Alloc.element (nx nz deg : Nat) (a : Alloc) (i : Nat) : Alloc :=
  { (List.range' a.firstJ (deg + 1 - a.firstJ)).foldl (Alloc.point nx nz i) a with firstJ := 0 }

/-- All finite elements. -/
def Alloc.run (nx nz deg ni : Nat) : Alloc := (List.range ni).foldl (Alloc.element nx nz deg) (Alloc.start nz)

/-- `ik` as a flat vector: `vertcat` of the blocks (`/repo/do_mpc/controller/_mpc.py:1192-1194`). -/
def flatten {n : Nat} (xi : Nat → Vec K n) (e : Nat) : K :=
  if h : 0 < n then xi (e / n) ⟨e % n, Nat.mod_lt _ h⟩ else 0

/-- `ik[o : o+n]` -/
def sliceAt {n : Nat} (xi : Nat → Vec K n) (o : Nat) : Vec K n := fun e => flatten xi (o + e)

/-- Value of an `ik_split`/`zk_split` entry.  An unset entry would be a Python `None`/`nan` object; it is given the value 0 here and
`C11` shows that no unset entry is read. -/
def Slot.value {n : Nat} (s : Slot) (x0 : Vec K n) (xi : Nat → Vec K n) : Vec K n :=
  match s with
  | .unset => 0
  | .init => x0
  | .at o => sliceAt xi o

/-- The equations `gk` of one interval (`optimizer.py:930-977`), given the state and algebraic state at point `j` of element `i`
and the final state. -/
noncomputable def collRows (m : DaeModel K d) (sx : Vec K d.nx) (su : Vec K d.nu) (sz : Vec K d.nz) (sp : Vec K d.np)
    (deg ni : Nat) (tau : Nat → K) (h : K) (xs : Nat → Nat → Vec K d.nx) (zs : Nat → Nat → Vec K d.nz) (xkf : Vec K d.nx)
    (u : Vec K d.nu) (tv : Vec K d.ntv) (p : Vec K d.np) (w : Vec K d.nw) : List K :=
  let ffcn := fun x z => m.rhs (x * sx) (u * su) (z * sz) tv (p * sp) w / sx
  let afcn := fun x z => m.alg (x * sx) (u * su) (z * sz) tv (p * sp) w
  (List.range ni).flatMap fun i =>
    List.ofFn (afcn (xs i 0) (zs i 0)) ++
    ((List.range' 1 deg).flatMap fun j =>
      let xp : Vec K d.nx := (List.range (deg + 1)).foldl (fun acc r => acc + collC deg tau r j • xs i r) 0
      List.ofFn (h • ffcn (xs i j) (zs i j) - xp) ++ List.ofFn (afcn (xs i j) (zs i j))) ++
    (let xf : Vec K d.nx := (List.range (deg + 1)).foldl (fun acc r => acc + collD deg tau r • xs i r) 0
     List.ofFn ((if i + 1 < ni then xs (i + 1) 0 else xkf) - xf))

/-- The collocation branch of `_setup_discretization` (`optimizer.py:828-985`) with its three assertions.
`ni = 0` raises (`ik_split[0,0]` does not exist). -/
noncomputable def setupCollocation (m : DaeModel K d) (sx : Vec K d.nx) (su : Vec K d.nu) (sz : Vec K d.nz) (sp : Vec K d.np)
    (deg ni : Nat) (tau : Nat → K) (tStep : K) : Except String (Ifcn K d) :=
  if ni = 0 then .error "IndexError" else
  let h := tStep / (ni : K)
  let nIk := ni * (deg + 1) * d.nx
  let nZk := ni * (deg + 1) * d.nz
  let a := Alloc.run d.nx d.nz deg ni
  let xkfAt := a.offset
  let offset := a.offset + d.nx
  if offset ≠ nIk then .error "AssertionError" else
  if a.offsetZ ≠ nZk then .error "AssertionError" else
  let g := fun x0 (xi : Nat → Vec K d.nx) u (zeta : Nat → Vec K d.nz) tv p w =>
    collRows m sx su sz sp deg ni tau h (fun i j => (a.ik i j).value x0 xi) (fun i j => (a.zk i j).value 0 zeta)
      (sliceAt xi xkfAt) u tv p w
  if (g 0 0 0 0 0 0 0).length ≠ nIk + nZk then .error "AssertionError" else
  .ok { ncoll := (deg + 1) * ni
        g := g
        xf := fun _ xi _ _ _ _ _ => sliceAt xi xkfAt }

end DoMpc
