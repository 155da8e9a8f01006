import Verif.Model.NpMat
import Verif.Model.Data

/-!
# The LQR (`/repo/do_mpc/controller/_lqr.py`)
-/
namespace DoMpc
variable {K : Type} [Field K] [LinearOrder K]

/-- One pass of the loop in `discrete_gain` (`_lqr.py:166-169`): the gain and the next cost matrix.  `A @ B @ C` associates to the left. -/
noncomputable def riccatiPass (A B Q R P : NpMat K) : Except String (NpMat K × NpMat K) := do
  let BtP ← B.T.mul P
  let BtPB ← BtP.mul B
  let G ← BtPB.add R
  let Gi ← G.inv
  let k1 ← Gi.neg.mul B.T
  let k2 ← k1.mul P
  let gain ← k2.mul A
  let AtP ← A.T.mul P
  let AtPA ← AtP.mul A
  let s1 ← Q.add AtPA
  let AtPB ← AtP.mul B
  let t1 ← AtPB.mul Gi
  let t2 ← t1.mul B.T
  let t3 ← t2.mul P
  let t4 ← t3.mul A
  let next ← s1.sub t4
  pure (gain, next)

/-- The loop over `range(n_horizon)`; `g` is the value of the variable `K` (unassigned before the first pass) (`_lqr.py:165-170`). -/
noncomputable def gainLoop (A B Q R : NpMat K) : Nat → NpMat K → Option (NpMat K) → Except String (NpMat K)
  | 0, _, none => .error "UnboundLocalError"
  | 0, _, some g => .ok g
  | n + 1, P, _ => do
    let (gain, next) ← riccatiPass A B Q R P
    gainLoop A B Q R n next (some gain)

/-- `−inv(BᵀΠB + R) Bᵀ Π A` for the solution `Π` of the algebraic Riccati equation (`_lqr.py:173-176`). -/
noncomputable def areGain (A B R Pi : NpMat K) : Except String (NpMat K) := do
  let BtP ← B.T.mul Pi
  let BtPB ← BtP.mul B
  let G ← BtPB.add R
  let Gi ← G.inv
  let k1 ← Gi.neg.mul B.T
  let k2 ← k1.mul Pi
  k2.mul A

/-- `mode` -/
inductive LqrMode where
  | standard
  | rate
  deriving DecidableEq, Repr

/-- What the LQR is built on: the discrete linear model (its sizes and `_A`, `_B`) and SciPy's `solve_discrete_are`. -/
structure LqrEnv (K : Type) where
  nx : Nat
  nu : Nat
  A : Matrix (Fin nx) (Fin nx) K
  B : Matrix (Fin nx) (Fin nu) K
  dare : NpMat K → NpMat K → NpMat K → NpMat K → Except String (NpMat K)

/-- Attributes of the LQR object; `none` where the attribute does not exist (or is Python's `None`, for `P` and `n_horizon`). -/
structure LqrSt (K : Type) where
  horizon : Option Nat := none
  tStep : Option K := none
  mode : LqrMode := .standard
  Q : Option (NpMat K) := none
  R : Option (NpMat K) := none
  P : Option (NpMat K) := none
  delR : Option (NpMat K) := none
  rated : Option (NpMat K × NpMat K) := none
  gain : Option (NpMat K) := none
  xss : Option (NpMat K) := none
  uss : Option (NpMat K) := none
  setup : Bool := false
  t0 : K
  x0 : NpMat K
  u0 : NpMat K
  data : Data K

/-- The fields of `do_mpc.data.Data(model)` the LQR writes to, with their widths (`/repo/do_mpc/data.py:55-80`).  Simplification: the
other five fields are left out; the LQR never writes them. -/
def lqrFields (nx nu : Nat) : List (String × Nat) := [("_time", 1), ("_x", nx), ("_u", nu)]

variable (E : LqrEnv K)

/-- The constructor (`_lqr.py:101-119`) after its assertions: a set-up discrete linear model. -/
def LqrEnv.new : LqrSt K := { t0 := 0, x0 := NpMat.zeros E.nx 1, u0 := NpMat.zeros E.nu 1, data := Data.new (lqrFields E.nx E.nu) }

/-- `discrete_gain(A, B)` (`_lqr.py:159-176`) -/
noncomputable def LqrEnv.discreteGain (st : LqrSt K) (A B : NpMat K) : Except String (NpMat K) :=
  match st.Q, st.R with
  | some Q, some R =>
    if Q.size ≠ 0 ∧ R.size ≠ 0 then
      match st.horizon with
      | some N =>
        match st.P with
        | none => .error "AttributeError"
        | some P => if P.size ≠ 0 then gainLoop A B Q R N P none else .error "AssertionError"
      | none => do
        let Pi ← E.dare A B Q R
        areGain A B R Pi
    else .error "AssertionError"
  | _, _ => .error "AttributeError"

/-- `set_objective(Q, R, P)` (`_lqr.py:398-422`): assigned first, checked afterwards. -/
def LqrEnv.setObjective (st : LqrSt K) (Q R : NpMat K) (P : Option (NpMat K)) : LqrSt K × Option String :=
  if st.setup then (st, some "AssertionError") else
  let P' := match P, st.horizon with
    | none, some _ => some Q
    | p, _ => p
  let st' := { st with Q := some Q, R := some R, P := P' }
  if Q.shape ≠ (E.nx, E.nx) then (st', some "AssertionError") else
  if R.shape ≠ (E.nu, E.nu) then (st', some "AssertionError") else
  match st.horizon with
  | none => (st', none)
  | some _ =>
    match P' with
    | none => (st', some "AttributeError")
    | some p => if p.shape = Q.shape then (st', none) else (st', some "AssertionError")

/-- `[[A, B], [0, I]]` of `set_rterm` (`_lqr.py:219-221`) -/
def LqrEnv.aRated : Matrix (Fin (E.nx + E.nu)) (Fin (E.nx + E.nu)) K := blk E.A E.B 0 1

/-- `[[B], [I]]` of `set_rterm` (`_lqr.py:222`) -/
def LqrEnv.bRated : Matrix (Fin (E.nx + E.nu)) (Fin E.nu) K := vblk E.B 1

/-- `set_rterm(delR)` (`_lqr.py:217-226`): neither the shape nor the setup flag is checked. -/
def LqrEnv.setRterm (st : LqrSt K) (delR : NpMat K) : LqrSt K :=
  { st with rated := some (.of E.aRated, .of E.bRated), delR := some delR, mode := .rate }

/-- `setup()` (`_lqr.py:471-498`).  The weights are augmented in place, before the gain is computed; an error later leaves them
augmented. -/
noncomputable def LqrEnv.setupCall (st : LqrSt K) : LqrSt K × Option String :=
  match st.tStep with
  | none => (st, some "ValueError")
  | some _ =>
    match st.mode with
    | .standard =>
      match E.discreteGain st (.of E.A) (.of E.B) with
      | .ok g => ({ st with gain := some g, setup := true }, none)
      | .error e => (st, some e)
    | .rate =>
      match st.Q, st.R with
      | some Q, some R =>
        match NpMat.block Q (NpMat.zeros Q.r R.c) (NpMat.zeros R.r Q.c) R with
        | .error e => (st, some e)
        | .ok Q' =>
          let st1 := { st with Q := some Q' }
          let p : Except String (Option (NpMat K)) := match st.horizon with
            | none => .ok st.P
            | some _ => match st.P with
              | none => .error "ValueError"
              | some P => (NpMat.block P (NpMat.zeros Q.r R.c) (NpMat.zeros R.r Q.c) R).map some
          match p with
          | .error e => (st1, some e)
          | .ok P' =>
            let st2 := { st1 with P := P', R := st.delR }
            match st.rated with
            | none => (st2, some "AttributeError")
            | some (Ar, Br) =>
              match E.discreteGain st2 Ar Br with
              | .ok g => ({ st2 with gain := some g, setup := true }, none)
              | .error e => (st2, some e)
      | _, _ => (st, some "AttributeError")

/-- `set_setpoint(xss, uss)` (`_lqr.py:443-469`); an argument that is not an array counts as not given. -/
def LqrEnv.setSetpoint (st : LqrSt K) (xss uss : Option (NpMat K)) : LqrSt K × Option String :=
  if !st.setup then (st, some "AssertionError") else
  let x := (xss.or st.xss).getD (NpMat.zeros E.nx 1)
  let u := (uss.or st.uss).getD (NpMat.zeros E.nu 1)
  match st.mode with
  | .rate =>
    match NpMat.vstack x u with
    | .error e => ({ st with xss := some x, uss := some u }, some e)
    | .ok xa =>
      let st' := { st with xss := some xa, uss := some (NpMat.zeros E.nu 1) }
      if xa.shape = (E.nx + E.nu, 1) then (st', none) else (st', some "AssertionError")
  | .standard =>
    let st' := { st with xss := some x, uss := some u }
    if x.shape ≠ (E.nx, 1) then (st', some "AssertionError")
    else if u.shape ≠ (E.nu, 1) then (st', some "AssertionError") else (st', none)

/-- The input `make_step` computes (`_lqr.py:292-306`) from the gain, the set points and the previous input. -/
def lqrLaw (mode : LqrMode) (gain xss uss x0 uPrev : NpMat K) : Except String (NpMat K) :=
  match mode with
  | .standard =>
    if xss.size ≠ 0 ∧ uss.size ≠ 0 then do
      let e ← x0.sub xss
      let g ← gain.mul e
      g.add uss
    else .error "UnboundLocalError"
  | .rate => do
    let xa ← x0.vstack uPrev
    let e ← xa.sub xss
    let g ← gain.mul e
    let v ← g.add uss
    v.add uPrev

/-- `data.update(key = row)` -/
def LqrSt.log (st : LqrSt K) (key : String) (row : List K) : LqrSt K × Option String :=
  let (D, e) := st.data.update [(key, .arr row)]
  ({ st with data := D }, e)

/-- The part of `make_step` after the law (`_lqr.py:309-321`): three updates of the record, then time, state and input.  CasADi
structures refuse values of a wrong size (`RuntimeError`). -/
def LqrEnv.record (st : LqrSt K) (x0 u : NpMat K) : LqrSt K × Except String (NpMat K) :=
  match st.log "_x" x0.flat with
  | (st1, some e) => (st1, .error e)
  | (st1, none) =>
    match st1.log "_u" u.flat with
    | (st2, some e) => (st2, .error e)
    | (st2, none) =>
      match st2.log "_time" [st.t0] with
      | (st3, some e) => (st3, .error e)
      | (st3, none) =>
        match st.tStep with
        | none => (st3, .error "TypeError")
        | some h =>
          let st4 := { st3 with t0 := st.t0 + h }
          if x0.shape = (E.nx, 1) then
            let st5 := { st4 with x0 := x0 }
            if u.shape = (E.nu, 1) then ({ st5 with u0 := u }, .ok u) else (st5, .error "RuntimeError")
          else (st4, .error "RuntimeError")

/-- `make_step(x0)` (`_lqr.py:270-321`) for an array `x0` -/
def LqrEnv.makeStep (st : LqrSt K) (x0 : NpMat K) : LqrSt K × Except String (NpMat K) :=
  if !st.setup then (st, .error "AssertionError") else
  let (st1, err) := if st.xss.isNone ∧ st.uss.isNone then E.setSetpoint st none none else (st, none)
  match err with
  | some e => (st1, .error e)
  | none =>
    match st1.gain, st1.xss, st1.uss with
    | some g, some xs, some us =>
      match lqrLaw st1.mode g xs us x0 st1.u0 with
      | .error e => (st1, .error e)
      | .ok u => E.record st1 x0 u
    | _, _, _ => (st1, .error "AttributeError")

/-- the API calls -/
inductive LqrOp (K : Type) where
  | setHorizon (N : Option Nat)
  | setTStep (h : K)
  | setObjective (Q R : NpMat K) (P : Option (NpMat K))
  | setRterm (delR : NpMat K)
  | setup
  | setSetpoint (xss uss : Option (NpMat K))
  | makeStep (x0 : NpMat K)
  | setU0 (u : NpMat K)
  | resetHistory

/-- One call: the new state, the error, and the input returned by `make_step`.  `set_param`/`settings` (`_lqr.py:228-268`) are never
refused; `u0 = …` checks the size (`/repo/do_mpc/model/_iteratedvariables.py:149-151`); `reset_history` `_lqr.py:121-125`. -/
noncomputable def LqrEnv.exec (st : LqrSt K) : LqrOp K → LqrSt K × Option String × Option (NpMat K)
  | .setHorizon N => ({ st with horizon := N }, none, none)
  | .setTStep h => ({ st with tStep := some h }, none, none)
  | .setObjective Q R P => let r := E.setObjective st Q R P; (r.1, r.2, none)
  | .setRterm dR => (E.setRterm st dR, none, none)
  | .setup => let r := E.setupCall st; (r.1, r.2, none)
  | .setSetpoint x u => let r := E.setSetpoint st x u; (r.1, r.2, none)
  | .makeStep x => match E.makeStep st x with
    | (st', .ok u) => (st', none, some u)
    | (st', .error e) => (st', some e, none)
  | .setU0 u => if u.shape = (E.nu, 1) then ({ st with u0 := u }, none, none) else (st, some "AssertionError", none)
  | .resetHistory => ({ st with t0 := 0, data := st.data.initStorage }, none, none)

/-- A sequence of calls; errors are caught by the caller. -/
noncomputable def LqrEnv.run (st : LqrSt K) : List (LqrOp K) → LqrSt K
  | [] => st
  | op :: rest => LqrEnv.run (E.exec st op).1 rest

/-- the results of the calls -/
noncomputable def LqrEnv.trace (st : LqrSt K) : List (LqrOp K) → List (Option String × Option (NpMat K))
  | [] => []
  | op :: rest => (E.exec st op).2 :: LqrEnv.trace (E.exec st op).1 rest

end DoMpc
