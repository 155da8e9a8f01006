import Mathlib.Algebra.Order.Field.Basic
import Mathlib.Algebra.BigOperators.Group.List.Basic
import Mathlib.Algebra.Order.Ring.Rat

/-!
# Common vocabulary

Vectors are functions on `Fin n`; CasADi column vectors of the code.  Numbers come from a linearly ordered field `K`
(no rounding).  Bounds may be infinite, like the `-np.inf`/`np.inf` the code uses.
-/
namespace DoMpc

/-- Column vector of length `n`. -/
abbrev Vec (K : Type) (n : Nat) := Fin n → K

/-- A bound as stored in `_x_lb`, `_x_ub`, `lb_opt_x`, …: a number or `±np.inf`
(`/repo/do_mpc/optimizer.py:233-265`). -/
inductive Bound (K : Type) where
  | ninf
  | fin (v : K)
  | pinf
  deriving DecidableEq, Repr

/-- `b ≤ v` for a lower bound `b`. -/
def Bound.le {K : Type} [LE K] : Bound K → K → Prop
  | .ninf, _ => True
  | .fin b, v => b ≤ v
  | .pinf, _ => False

/-- `v ≤ b` for an upper bound `b`. -/
def Bound.ge {K : Type} [LE K] : Bound K → K → Prop
  | .ninf, _ => False
  | .fin b, v => v ≤ b
  | .pinf, _ => True

/-- `master[cind]/opt_x_scaling.master[cind]` on one entry (`/repo/do_mpc/optimizer.py:239,265`).
As in IEEE arithmetic an infinity keeps its sign for a positive divisor and flips it for a negative one.
Simplification: division of a number by 0 gives 0 instead of ±inf/nan; all theorems assume positive scaling. -/
def Bound.divBy {K : Type} [Field K] [LinearOrder K] (b : Bound K) (s : K) : Bound K :=
  match b with
  | .fin v => .fin (v / s)
  | .ninf => if s < 0 then .pinf else .ninf
  | .pinf => if s < 0 then .ninf else .pinf

/-- Dimensions of a `do_mpc.model.Model` (`n_x`, `n_u`, … of `/repo/do_mpc/model/_model.py:1024-1033`). -/
structure Dims where
  nx : Nat
  nu : Nat
  nz : Nat
  ntv : Nat
  np : Nat
  nw : Nat := 0
  nv : Nat := 0
  ny : Nat := 0
  naux : Nat := 0

/-- The functions of a set-up model: `_rhs_fun`, `_alg_fun`, `_meas_fun`, `_aux_expression_fun`
(`/repo/do_mpc/model/_model.py:997-1009`).  CasADi functions are modelled by the functions they denote. -/
structure DaeModel (K : Type) (d : Dims) where
  rhs : Vec K d.nx → Vec K d.nu → Vec K d.nz → Vec K d.ntv → Vec K d.np → Vec K d.nw → Vec K d.nx
  alg : Vec K d.nx → Vec K d.nu → Vec K d.nz → Vec K d.ntv → Vec K d.np → Vec K d.nw → Vec K d.nz
  meas : Vec K d.nx → Vec K d.nu → Vec K d.nz → Vec K d.ntv → Vec K d.np → Vec K d.nv → Vec K d.ny
  aux : Vec K d.nx → Vec K d.nu → Vec K d.nz → Vec K d.ntv → Vec K d.np → Vec K d.naux

/-- One scalar constraint `lb ≤ val ≤ ub` of the NLP. -/
structure Row (K : Type) where
  lb : Bound K
  val : K
  ub : Bound K

/-- The row is satisfied. -/
def Row.Holds {K : Type} [LE K] (r : Row K) : Prop := r.lb.le r.val ∧ r.ub.ge r.val

/-- `val = 0`: the code appends zeros to `cons_lb` and `cons_ub`. -/
def Row.eq0 {K : Type} [Zero K] (v : K) : Row K := ⟨.fin 0, v, .fin 0⟩

/-- Arguments of one `set_nl_cons` call (`/repo/do_mpc/optimizer.py:483-541`); a vector valued expression of length
`dim`. -/
structure NlCall (K : Type) (d : Dims) where
  name : String
  dim : Nat
  expr : Vec K d.nx → Vec K d.nu → Vec K d.nz → Vec K d.ntv → Vec K d.np → Nat → K
  ub : Bound K := .pinf
  soft : Bool := false
  penalty : K
  maxViolation : Bound K := .pinf

/-- Values of the slack variables of one `_eps` block, by constraint name and component. -/
abbrev Eps (K : Type) := String → Nat → K

end DoMpc
