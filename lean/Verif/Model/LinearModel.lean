import Verif.Model.NpMat

/-!
# Linear models (`/repo/do_mpc/model/_linearmodel.py`, `_linearize.py`)

`LinearModel.set_rhs`/`set_meas` only accept expressions whose Jacobian with respect to states and inputs is constant
(`_linearmodel.py:136-162`), so the expressions of a linear model are affine.  An expression is the list of its affine rows.
Simplifications: parameters and time-varying parameters, on which the constant terms may depend, are fixed; the additive noise that
`LinearModel` puts on every equation is 0.
-/
namespace DoMpc
variable {K : Type} [Field K] [DecidableEq K]

/-- one row `a·x + b·u + c` -/
structure AffRow (K : Type) (nx nu : Nat) where
  a : Vec K nx
  b : Vec K nu
  c : K

/-- a column of expressions -/
abbrev AffExpr (K : Type) (nx nu : Nat) := List (AffRow K nx nu)

variable {nx nu : Nat}

/-- value of a row -/
def AffRow.eval (r : AffRow K nx nu) (x : Vec K nx) (u : Vec K nu) : K := r.a ⬝ᵥ x + r.b ⬝ᵥ u + r.c

/-- sum of two rows -/
def AffRow.add (r s : AffRow K nx nu) : AffRow K nx nu := ⟨r.a + s.a, r.b + s.b, r.c + s.c⟩

/-- `M @ self.x.cat` for an array `M`.  CasADi multiplies element-wise if `M` is 1×1, and raises if the sizes do not match. -/
def symX (M : NpMat K) : Except String (AffExpr K nx nu) :=
  if M.r = 1 ∧ M.c = 1 then .ok (List.ofFn fun i => ⟨Pi.single i (M.bget 0 0), 0, 0⟩)
  else if h : M.c = nx then .ok (List.ofFn fun i => ⟨fun j => M.val i (Fin.cast h.symm j), 0, 0⟩) else .error "RuntimeError"

/-- `M @ self.u.cat` -/
def symU (M : NpMat K) : Except String (AffExpr K nx nu) :=
  if M.r = 1 ∧ M.c = 1 then .ok (List.ofFn fun i => ⟨0, Pi.single i (M.bget 0 0), 0⟩)
  else if h : M.c = nu then .ok (List.ofFn fun i => ⟨0, fun j => M.val i (Fin.cast h.symm j), 0⟩) else .error "RuntimeError"

/-- `e + f` of CasADi: equal sizes, or one of them scalar -/
def symAdd (e f : AffExpr K nx nu) : Except String (AffExpr K nx nu) :=
  if e.length = f.length then .ok (List.zipWith AffRow.add e f)
  else match e, f with
    | [r], _ => .ok (f.map r.add)
    | _, [s] => .ok (e.map fun r => r.add s)
    | _, _ => .error "RuntimeError"

/-- A linear model before `setup`: the names and sizes of the states (their sizes add up to `nx`), and what was passed to `set_rhs` and
`set_meas` (`_linearmodel.py:136-162`), in the order of the calls. -/
structure LinBuilder (K : Type) (nx nu : Nat) where
  states : List (String × Nat)
  rhs : List (String × AffExpr K nx nu) := []
  meas : List (String × AffExpr K nx nu) := []

/-- A linear model after `setup`: type, right-hand side and measurement equation; the matrices are their Jacobians
(`_linearmodel.py:236-243`, `_model.py:992-995`). -/
structure LinModel (K : Type) (nx nu : Nat) where
  discrete : Bool
  rhs : AffExpr K nx nu
  meas : AffExpr K nx nu

/-- Jacobian with respect to the states, as an array -/
def AffExpr.jacX (e : AffExpr K nx nu) : NpMat K := ⟨e.length, nx, fun i j => (e.get i).a j⟩

/-- Jacobian with respect to the inputs -/
def AffExpr.jacU (e : AffExpr K nx nu) : NpMat K := ⟨e.length, nu, fun i j => (e.get i).b j⟩

/-- `sys_A`, `sys_B`, `sys_C`, `sys_D` -/
def LinModel.A (m : LinModel K nx nu) : NpMat K := m.rhs.jacX
/-- `sys_B` -/
def LinModel.B (m : LinModel K nx nu) : NpMat K := m.rhs.jacU
/-- `sys_C` -/
def LinModel.C (m : LinModel K nx nu) : NpMat K := m.meas.jacX
/-- `sys_D` -/
def LinModel.D (m : LinModel K nx nu) : NpMat K := m.meas.jacU

/-- value of the right-hand side -/
def LinModel.f (m : LinModel K nx nu) (x : Vec K nx) (u : Vec K nu) : List K := m.rhs.map fun r => r.eval x u

/-- value of the measurement equation -/
def LinModel.h (m : LinModel K nx nu) (x : Vec K nx) (u : Vec K nu) : List K := m.meas.map fun r => r.eval x u

/-- The measurement expression built from `C` and `D` (`_linearmodel.py:204-208`): `None + D @ u` is a `TypeError`. -/
def measOf (C D : Option (NpMat K)) : Except String (Option (AffExpr K nx nu)) :=
  match C, D with
  | none, none => .ok none
  | none, some _ => .error "TypeError"
  | some C, none => (symX C).map some
  | some C, some D => do
    let y ← symX C
    let d ← symU D
    let s ← symAdd y d
    pure (some s)

/-- The state expression built from `A` and `B` (`_linearmodel.py:213-227`). -/
def nextOf (A B : Option (NpMat K)) : Except String (Option (AffExpr K nx nu)) := do
  let a ← match A with
    | none => .ok none
    | some A => if A.shape = (nx, nx) then (symX A).map some else .error "ValueError"
  match B with
  | none => pure a
  | some B =>
    if B.shape = (nx, nu) then
      match a with
      | none => .error "TypeError"
      | some a => do
        let b ← symU B
        let s ← symAdd a b
        pure (some s)
    else .error "ValueError"

/-- `for name in self.x.keys(): self.set_rhs(name, x_next[self.x.f[name]])` (`_linearmodel.py:229-233`): the slices, in order. -/
def slices (next : AffExpr K nx nu) : List (String × Nat) → Nat → List (String × AffExpr K nx nu)
  | [], _ => []
  | (name, size) :: rest, o => (name, (next.drop o).take size) :: slices next rest (o + size)

/-- the expression set last for a name -/
def lastRhs (l : List (String × AffExpr K nx nu)) (name : String) : Option (AffExpr K nx nu) := (l.reverse).lookup name

/-- `Model.setup` on the right-hand sides (`_model.py:962-969`): one expression for every state, of its size (CasADi refuses other sizes). -/
def assemble (l : List (String × AffExpr K nx nu)) : List (String × Nat) → Except String (AffExpr K nx nu)
  | [] => .ok []
  | (name, size) :: rest =>
    match lastRhs l name with
    | none => .error "AssertionError"
    | some e => if e.length = size then (assemble l rest).map (e ++ ·) else .error "RuntimeError"

/-- the states themselves as expressions: the default measurement (`_model.py:935-938`) -/
def stateExpr : AffExpr K nx nu := List.ofFn fun i => ⟨Pi.single i 1, 0, 0⟩

/-- `self.set_meas('y', y_meas)` if there is a measurement (`_linearmodel.py:209-211`) -/
def addMeas (meas : List (String × AffExpr K nx nu)) : Option (AffExpr K nx nu) → List (String × AffExpr K nx nu)
  | none => meas
  | some y => meas ++ [("y", y)]

/-- the names of the measurements: the states by default (`_model.py:935-938`) -/
def measNames (states : List (String × Nat)) (meas : List (String × AffExpr K nx nu)) : List String :=
  if meas.isEmpty then states.map (·.1) else meas.map (·.1)

/-- the right-hand sides set when `Model.setup` is reached: those of the user, then those made from `A` and `B` (`_linearmodel.py:213-233`) -/
def LinBuilder.allRhs (b : LinBuilder K nx nu) (next : Option (AffExpr K nx nu)) : List (String × AffExpr K nx nu) :=
  match next with
  | none => b.rhs
  | some e => b.rhs ++ slices e b.states 0

/-- `setup(A, B, C, D)` (`_linearmodel.py:171-243`).  Every right-hand side and every measurement gets a noise variable named after it; `dup` is
what happens when CasADi is asked for a structure with repeated names (`_model.py:941-952`, which puts an entry `default` in front of the
measurements); it is not specified here. -/
def LinBuilder.setup (dup : Except String (LinModel K nx nu)) (b : LinBuilder K nx nu) (discrete : Bool) (A B C D : Option (NpMat K)) :
    Except String (LinModel K nx nu) := do
  let y ← measOf C D
  let meas := addMeas b.meas y
  let next ← nextOf A B
  let rhs := b.allRhs next
  if (rhs.map (·.1)).Nodup ∧ ("default" :: measNames b.states meas).Nodup then do
    let f ← assemble rhs b.states
    pure ⟨discrete, f, if meas.isEmpty then stateExpr else (meas.map (·.2)).flatten⟩
  else dup

/-- `discretize(t_step, conv_method)` (`_linearmodel.py:266-280`); `c2d` is SciPy's `cont2discrete` for the chosen method and step.
`_transfer_variables` gives the new model the same states and inputs (`_model.py:1045-1071`). -/
def LinModel.discretize (dup : Except String (LinModel K nx nu)) (m : LinModel K nx nu) (states : List (String × Nat))
    (c2d : NpMat K → NpMat K → NpMat K → NpMat K → Except String (NpMat K × NpMat K × NpMat K × NpMat K)) : Except String (LinModel K nx nu) :=
  if m.discrete then .error "AssertionError" else do
    let (A, B, C, _) ← c2d m.A m.B m.C m.D
    LinBuilder.setup dup { states := states } true (some A) (some B) (some C) none

/-- `get_steady_state(xss, uss)` (`_linearmodel.py:305-326`); `pinv` is NumPy's pseudo-inverse.  `matrix_rank(A) == n_x` is `det A ≠ 0`
(exact arithmetic).  If both are given, no branch applies and Python returns `None`. -/
noncomputable def LinModel.getSteadyState (m : LinModel K nx nu) (pinv : NpMat K → NpMat K) (xss uss : Option (NpMat K)) :
    Except String (Option (NpMat K)) :=
  if !m.discrete then .error "AssertionError" else
  match xss, uss with
  | none, u =>
    if h : m.A.r = m.A.c then
      if (m.A.val.submatrix id (Fin.cast h)).det ≠ 0 then
        match u with
        | none => .error "AssertionError"
        | some u => do
          let ia ← (NpMat.eye m.A.r).sub m.A
          let inv ← ia.inv
          let t ← inv.mul m.B
          let x ← t.mul u
          pure (some x)
      else .error "ValueError"
    else .error "ValueError"
  | some x, none =>
    if m.B.r ≠ m.B.c then do
      let ia ← (NpMat.eye m.A.r).sub m.A
      let t ← (pinv m.B).mul ia
      let u ← t.mul x
      pure (some u)
    else do
      let ia ← (NpMat.eye m.A.r).sub m.A
      let inv ← m.B.inv
      let t ← inv.mul ia
      let u ← t.mul x
      pure (some u)
  | some _, some _ => .ok none

/-- Dropping a trivial measurement equation (`_linearize.py:95-98`). -/
def dropTrivial (nx nu : Nat) (C D : NpMat K) : Option (NpMat K) × Option (NpMat K) :=
  (if h : C.r = nx ∧ C.c = nx then (if C.val.submatrix (Fin.cast h.1.symm) (Fin.cast h.2.symm) = 1 then none else some C) else some C,
   if h : D.r = nx ∧ D.c = nu then (if D.val.submatrix (Fin.cast h.1.symm) (Fin.cast h.2.symm) = 0 then none else some D) else some D)

/-- `linearize(model, xss, uss)` (`_linearize.py:69-102`) for a model without algebraic states whose Jacobians at the given point are the
arrays `A, B, C, D` (`get_linear_system_matrices`, `_model.py:1074-1128`). -/
def linearizeWith (dup : Except String (LinModel K nx nu)) (states : List (String × Nat)) (discrete : Bool) (A B C D : NpMat K) : Except String (LinModel K nx nu) :=
  LinBuilder.setup dup { states := states } discrete (some A) (some B) (dropTrivial nx nu C D).1 (dropTrivial nx nu C D).2

end DoMpc
