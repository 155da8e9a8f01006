import Verif.Model.ModelBuilder
import Verif.Model.Linearize
import Mathlib.LinearAlgebra.Matrix.NonsingularInverse

/-!
# `dae2odeconversion` (`/repo/do_mpc/model/_dae2odeconversion.py`)

The conversion of a set-up model with algebraic states into a model without.  Variables are column vectors; expressions are the functions they
denote; `castools.jacobian` is the derivative over the real numbers and `castools.inv` the inverse matrix (its value for a singular matrix is not
relied on).  Models without any input are included although CasADi may refuse the empty Jacobian.
-/
namespace DoMpc.Dae
open Matrix

/-- What the conversion reads of a set-up model (`model.x.keys()`, `model.u.keys()[1:]`, ..., `model._rhs_fun`, `model._alg_fun`,
`_dae2odeconversion.py:64-97`).  The layouts of inputs, algebraic states, parameters and noise are without their leading entry `default`. -/
structure DaeModel where
  discrete : Bool
  X : Layout
  U : Layout
  Z : Layout
  P : Layout
  TVP : Layout
  W : Layout
  rhs : (x u z tvp p w : List ℝ) → List ℝ
  alg : (x u z tvp p w : List ℝ) → List ℝ

/-- the attributes of a model that has been set up (`_model.py:975-1033`; `keys()[1:]`, `_dae2odeconversion.py:66-73`) -/
def DaeModel.ofReady (discrete : Bool) (B : Builder ℝ) (F : MFuns ℝ) : DaeModel where
  discrete := discrete
  X := B.x
  U := B.u.tail
  Z := B.z.tail
  P := B.p.tail
  TVP := B.tvp.tail
  W := B.w.tail
  rhs := F.rhs
  alg := F.alg

/-- The converted model: states, the input `q`, parameters, noise, right-hand side. -/
structure OdeModel where
  discrete : Bool
  states : Layout
  inputs : Layout
  P : Layout
  TVP : Layout
  W : Layout
  rhs : (x q tvp p w : List ℝ) → List ℝ

/-- a list as a vector of given length -/
def vecOf (n : Nat) (l : List ℝ) : Vec ℝ n := fun i => l.getD i 0

/-- `castools.jacobian` of `g` at `v` -/
noncomputable def jac {n m : Nat} (g : Vec ℝ n → Vec ℝ m) (v : Vec ℝ n) : Matrix (Fin m) (Fin n) ℝ :=
  LinearMap.toMatrix' (fderiv ℝ g v : Vec ℝ n →ₗ[ℝ] Vec ℝ m)

/-- the algebraic equations as a function of vectors -/
def DaeModel.g (M : DaeModel) (tvp p w : List ℝ) (x : Vec ℝ M.X.size) (u : Vec ℝ M.U.size) (z : Vec ℝ M.Z.size) : Vec ℝ M.Z.size :=
  vecOf _ (M.alg (List.ofFn x) (List.ofFn u) (List.ofFn z) tvp p w)

/-- `z_next` (`_dae2odeconversion.py:98`): `-inv(dg/dz) @ dg/dx @ f - inv(dg/dz) @ dg/du @ q`. -/
noncomputable def DaeModel.zNext (M : DaeModel) (tvp p w : List ℝ) (x : Vec ℝ M.X.size) (u : Vec ℝ M.U.size) (z : Vec ℝ M.Z.size)
    (f : Vec ℝ M.X.size) (q : Vec ℝ M.U.size) : Vec ℝ M.Z.size :=
  ((-(jac (M.g tvp p w x u) z)⁻¹) * jac (fun x' => M.g tvp p w x' u z) x) *ᵥ f -
    ((jac (M.g tvp p w x u) z)⁻¹ * jac (fun u' => M.g tvp p w x u' z) u) *ᵥ q

/-- The loops of `set_variable('_x', …)` (`_dae2odeconversion.py:64-69`); a name that is already a state is refused (`_model.py:595`). -/
def addStates : Layout → Layout → Except String Layout
  | acc, [] => .ok acc
  | acc, e :: rest => if e.1 ∈ acc.map (·.1) then .error "AssertionError" else addStates (acc ++ [e]) rest

/-- The noise variables of the new model, one for every state with a noise variable in the old model (`_dae2odeconversion.py:89-90`,
`_model.py:784-791`). -/
def newNoise (X W : Layout) : Layout :=
  X.filterMap fun e => if e.1 ++ "_noise" ∈ W.map (·.1) then some (e.1 ++ "_noise", e.2) else none

/-- The loop with the counter `x_count` (`_dae2odeconversion.py:87-93`): slices of the right-hand side without noise, plus the new noise
variable. -/
def xLoop (W W' : Layout) (rhs w : List ℝ) : Layout → Nat → List (String × List ℝ)
  | [], _ => []
  | e :: rest, c =>
    (e.1, if e.1 ++ "_noise" ∈ W.map (·.1) then
        (List.range e.2).map fun i => ((rhs.drop c).take e.2).getD i 0 + (W'.entry w (e.1 ++ "_noise")).getD i 0
      else (rhs.drop c).take e.2) :: xLoop W W' rhs w rest (c + e.2)

/-- The loop over the inputs (`_dae2odeconversion.py:98-99`): `set_rhs(name_j, q[j])`, the scalar `q[j]` for the `j`-th variable. -/
def uLoop (q : List ℝ) : Layout → Nat → List (String × List ℝ)
  | [], _ => []
  | e :: rest, j => (e.1, [q.getD j 0]) :: uLoop q rest (j + 1)

/-- The loop with the counter `z_count` (`_dae2odeconversion.py:101-104`). -/
def zLoop (zn : List ℝ) : Layout → Nat → List (String × List ℝ)
  | [], _ => []
  | e :: rest, c => (e.1, (zn.drop c).take e.2) :: zLoop zn rest (c + e.2)

/-- `self._rhs[name] = expr` for every state (`_model.py:966-969`): a scalar fills the whole entry. -/
def fillRhs (states : Layout) (l : List (String × List ℝ)) : List ℝ :=
  states.flatMap fun e =>
    match l.lookup e.1 with
    | some v => if v.length = 1 then List.replicate e.2 (v.getD 0 0) else v
    | none => []

/-- The right-hand side of the converted model (`_dae2odeconversion.py:77-104`): the old functions are evaluated on the parts of the new state
vector. -/
noncomputable def DaeModel.newRhs (M : DaeModel) (S W' : Layout) (ξ q tvp p w : List ℝ) : List ℝ :=
  let x := M.X.flatMap fun e => S.entry ξ e.1
  let u := M.U.flatMap fun e => S.entry ξ e.1
  let z := M.Z.flatMap fun e => S.entry ξ e.1
  let rhsNew := M.rhs x u z tvp p (List.replicate M.W.size 0)
  let rhsMod := M.rhs x u z tvp p w
  let zn := M.zNext tvp p w (vecOf _ x) (vecOf _ u) (vecOf _ z) (vecOf _ rhsMod) (vecOf _ q)
  fillRhs S (xLoop M.W W' rhsNew w M.X 0 ++ uLoop q M.U 0 ++ zLoop (List.ofFn zn) M.Z 0)

/-- `dae2odeconversion(model)` (`_dae2odeconversion.py:57-109`).  `substitute(rhs, model.w.cat, daeModel.w.cat)` needs as many new as old noise
entries. -/
noncomputable def DaeModel.convert (M : DaeModel) : Except String OdeModel :=
  match addStates [] (M.X ++ M.U ++ M.Z) with
  | .error e => .error e
  | .ok S =>
    let W' := newNoise M.X M.W
    if W'.size = M.W.size then
      .ok { discrete := M.discrete, states := S, inputs := [("q", M.U.size)], P := M.P, TVP := M.TVP, W := W', rhs := M.newRhs S W' }
    else .error "RuntimeError"

end DoMpc.Dae
