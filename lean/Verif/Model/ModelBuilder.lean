import Verif.Model.Files
import Verif.Model.Mhe

/-!
# `Model`: configuration and setup (`/repo/do_mpc/model/_model.py`)

Symbolic expressions are modelled by the functions they denote: from the values of the variables (by kind and name) to the value of
every entry.  Variables and expressions are column vectors (`shape` is the number of rows).  Type checks of the arguments are not
modelled.
-/
namespace DoMpc

/-- the five kinds of variables -/
inductive MKind where
  | x | u | z | p | tvp
  deriving DecidableEq, Repr

/-- values of all variables: kind, name, index -/
abbrev MVal (K : Type) := MKind → String → Nat → K

/-- A symbolic expression in `_x`, `_u`, `_z`, `_tvp`, `_p`. -/
structure MExpr (K : Type) where
  rows : Nat
  eval : MVal K → Nat → K

/-- An expression with optional additive noise variable, `expr += var` (`_model.py:717-722,784-792`). -/
structure MEq (K : Type) where
  expr : MExpr K
  noise : Option String

/-- `s.replace(old, new)` of Python, for non-empty `old`: non-overlapping occurrences from the left. -/
def pyReplace (old new : List Char) : List Char → List Char
  | [] => []
  | c :: cs =>
    if old ≠ [] ∧ old <+: c :: cs then new ++ pyReplace old new ((c :: cs).drop old.length) else c :: pyReplace old new cs
  termination_by s => s.length
  decreasing_by
    · rename_i h
      have : 0 < old.length := List.length_pos_iff.2 h.1
      simp only [List.length_drop, List.length_cons]; omega
    · simp

/-- The chain of replacements (`_model.py:586-590`). -/
def shortType (s : List Char) : List Char :=
  pyReplace "timevarying_parameter".toList "_tvp".toList <|
  pyReplace "parameter".toList "_p".toList <|
  pyReplace "algebraic".toList "_z".toList <|
  pyReplace "inputs".toList "_u".toList <|
  pyReplace "states".toList "_x".toList s

/-- The kind of variable meant by `var_type`, `none` if refused (`_model.py:586-593`). -/
def varKind (s : String) : Option MKind :=
  let t := shortType s.toList
  if t = "_x".toList then some .x else if t = "_u".toList then some .u else if t = "_z".toList then some .z
  else if t = "_p".toList then some .p else if t = "_tvp".toList then some .tvp else none

/-- The attributes of a model that is being configured (`_model.py:101-121`). -/
structure Builder (K : Type) [Zero K] where
  x : Layout := []
  u : Layout := [("default", 0)]
  z : Layout := [("default", 0)]
  p : Layout := [("default", 0)]
  tvp : Layout := [("default", 0)]
  w : Layout := [("default", 0)]
  v : Layout := [("default", 0)]
  /-- `_aux_expression` (`_aux` has the same names and shapes) -/
  aux : List (String × MExpr K) := [("default", ⟨1, fun _ _ => 0⟩)]
  /-- `_y_expression`; `_y` has an additional entry `default` of size 0 in front -/
  y : List (String × MEq K) := []
  rhs : List (String × MEq K) := []
  alg : List (String × MExpr K) := [("default", ⟨0, fun _ _ => 0⟩)]

variable {K : Type} [Zero K]

/-- the layout of a kind -/
def Builder.layout (B : Builder K) : MKind → Layout
  | .x => B.x | .u => B.u | .z => B.z | .p => B.p | .tvp => B.tvp

/-- append a variable (`_model.py:602-603`) -/
def Builder.addVar (B : Builder K) (k : MKind) (e : String × Nat) : Builder K :=
  match k with
  | .x => { B with x := B.x ++ [e] }
  | .u => { B with u := B.u ++ [e] }
  | .z => { B with z := B.z ++ [e] }
  | .p => { B with p := B.p ++ [e] }
  | .tvp => { B with tvp := B.tvp ++ [e] }

/-- A configuration call. -/
inductive MOp (K : Type) where
  | setVar (varType name : String) (rows : Nat)
  | setExpr (name : String) (e : MExpr K)
  | setMeas (name : String) (e : MExpr K) (noise : Bool)
  | setRhs (name : String) (e : MExpr K) (noise : Bool)
  | setAlg (name : String) (e : MExpr K)

/-- `set_variable` (`_model.py:580-605`). -/
def Builder.setVar (B : Builder K) (varType name : String) (rows : Nat) : Except String (Builder K) :=
  match varKind varType with
  | none => .error "AssertionError"
  | some k => if name ∈ (B.layout k).map (·.1) then .error "AssertionError" else .ok (B.addVar k (name, rows))

/-- `set_meas` (`_model.py:711-731`). -/
def Builder.setMeas (B : Builder K) (name : String) (e : MExpr K) (noise : Bool) : Builder K :=
  if noise then { B with v := B.v ++ [(name ++ "_noise", e.rows)], y := B.y ++ [(name, ⟨e, some (name ++ "_noise")⟩)] }
  else { B with y := B.y ++ [(name, ⟨e, none⟩)] }

/-- `set_rhs` (`_model.py:778-793`). -/
def Builder.setRhs (B : Builder K) (name : String) (e : MExpr K) (noise : Bool) : Except String (Builder K) :=
  if name ∈ B.x.map (·.1) then
    .ok (if noise then { B with w := B.w ++ [(name ++ "_noise", e.rows)], rhs := B.rhs ++ [(name, ⟨e, some (name ++ "_noise")⟩)] }
      else { B with rhs := B.rhs ++ [(name, ⟨e, none⟩)] })
  else .error "AssertionError"

/-- A call before `setup`: `set_variable`, `set_expression` (`_model.py:641-652`), `set_meas`, `set_rhs`, `set_alg`
(`_model.py:820-824`). -/
def Builder.exec (B : Builder K) : MOp K → Except String (Builder K)
  | .setVar t n r => B.setVar t n r
  | .setExpr n e => .ok { B with aux := B.aux ++ [(n, e)] }
  | .setMeas n e noise => .ok (B.setMeas n e noise)
  | .setRhs n e noise => B.setRhs n e noise
  | .setAlg n e => .ok { B with alg := B.alg ++ [(n, e)] }

/-- What a set-up model provides (`_model.py:997-1033`). -/
structure MFuns (K : Type) where
  nx : Nat
  nu : Nat
  nz : Nat
  ntvp : Nat
  np : Nat
  ny : Nat
  naux : Nat
  nw : Nat
  nv : Nat
  rhs : (x u z tvp p w : List K) → List K
  alg : (x u z tvp p w : List K) → List K
  aux : (x u z tvp p : List K) → List K
  meas : (x u z tvp p v : List K) → List K

/-- The values of the variables when the structures have the given flat vectors (`_substitute_struct_vars`, `_model.py:857-886`). -/
def Builder.vals (B : Builder K) (x u z tvp p : List K) : MVal K
  | .x, n, i => (B.x.entry x n).getD i 0
  | .u, n, i => (B.u.entry u n).getD i 0
  | .z, n, i => (B.z.entry z n).getD i 0
  | .tvp, n, i => (B.tvp.entry tvp n).getD i 0
  | .p, n, i => (B.p.entry p n).getD i 0

/-- Value of an equation with noise vector `w` of layout `W`. -/
def MEq.value [Add K] (e : MEq K) (W : Layout) (vals : MVal K) (w : List K) (i : Nat) : K :=
  match e.noise with
  | none => e.expr.eval vals i
  | some n => e.expr.eval vals i + (W.entry w n).getD i 0

/-- Default measurements, added by `setup` if there are none (`_model.py:936-938`). -/
def Builder.defaultMeas (B : Builder K) : Builder K :=
  if B.y.isEmpty then B.x.foldl (fun B e => B.setMeas e.1 ⟨e.2, fun vals i => vals .x e.1 i⟩ true) B else B

/-- All names are different within each structure. -/
def Builder.Distinct (B : Builder K) : Prop :=
  (B.w.map (·.1)).Nodup ∧ (B.v.map (·.1)).Nodup ∧ ("default" :: B.y.map (·.1)).Nodup ∧ (B.aux.map (·.1)).Nodup ∧ (B.alg.map (·.1)).Nodup

instance (B : Builder K) : Decidable B.Distinct := by unfold Builder.Distinct; infer_instance

/-- The loop that fills `_rhs` (`_model.py:966-969`): an expression per state, a wrong number of rows raises.  (CasADi also accepts a
scalar for a vector; not modelled.) -/
def rhsLoop (X : Layout) : List (String × MEq K) → List (String × MEq K) → Except String (List (String × MEq K))
  | [], acc => .ok acc
  | (n, e) :: rest, acc => if X.lookup n = some e.expr.rows then rhsLoop X rest (dictSet acc n e) else .error "Exception"

/-- Total number of rows. -/
def rowsOf (l : List (String × MExpr K)) : Nat := (l.map (·.2.rows)).sum

/-- The functions created by `setup` from the filled right-hand side `R` (`_model.py:997-1033`). -/
def Builder.funs [Add K] (B : Builder K) (R : List (String × MEq K)) : MFuns K where
  nx := B.x.size
  nu := B.u.size
  nz := B.z.size
  ntvp := B.tvp.size
  np := B.p.size
  ny := (B.y.map (·.2.expr.rows)).sum
  naux := rowsOf B.aux
  nw := B.w.size
  nv := B.v.size
  rhs := fun x u z tvp p w => B.x.flatMap fun s => (List.range s.2).map fun i =>
    match R.lookup s.1 with
    | some e => e.value B.w (B.vals x u z tvp p) w i
    | none => 0
  alg := fun x u z tvp p _ => B.alg.flatMap fun e => (List.range e.2.rows).map (e.2.eval (B.vals x u z tvp p))
  aux := fun x u z tvp p => B.aux.flatMap fun e => (List.range e.2.rows).map (e.2.eval (B.vals x u z tvp p))
  meas := fun x u z tvp p v => B.y.flatMap fun e => (List.range e.2.expr.rows).map (e.2.value B.v (B.vals x u z tvp p) v)

/-- `setup` (`_model.py:935-1042`).  `dup` is what happens when CasADi is asked for a structure with repeated names; it is not
specified here. -/
def Builder.setup [Add K] (B : Builder K) (dup : Builder K → Except String (MFuns K)) : Except String (MFuns K) :=
  let B := B.defaultMeas
  if B.Distinct then
    match rhsLoop B.x B.rhs [] with
    | .error e => .error e
    | .ok R =>
      if ∀ s ∈ B.x, (R.lookup s.1).isSome = true then
        if B.z.size = rowsOf B.alg then .ok (B.funs R) else .error "AssertionError"
      else .error "AssertionError"
  else dup B

/-- A model object: being configured, set up, or unusable after a failed `setup` (its attributes are then partly converted;
further calls are not modelled and reported as errors here). -/
inductive ModelObj (K : Type) [Zero K] where
  | building (B : Builder K)
  | ready (B : Builder K) (F : MFuns K)
  | failed

/-- A call of the API. -/
inductive MCall (K : Type) where
  | op (o : MOp K)
  | setup

/-- Effect of a call.  After `setup` every configuration call fails the assertion on `flags['setup']`
(`_model.py:580,641,711,778,820`); `setup` itself fails in `_convert2struct` because `_x` is no longer a dictionary (`:852-854`). -/
def ModelObj.exec [Add K] (dup : Builder K → Except String (MFuns K)) (M : ModelObj K) : MCall K → ModelObj K × Option String
  | .op o =>
    match M with
    | .building B =>
      match B.exec o with
      | .ok B' => (.building B', none)
      | .error e => (.building B, some e)
    | .ready B F => (.ready B F, some "AssertionError")
    | .failed => (.failed, some "Exception")
  | .setup =>
    match M with
    | .building B =>
      match B.setup dup with
      | .ok F => (.ready B.defaultMeas F, none)
      | .error e => (.failed, some e)
    | .ready B F => (.ready B F, some "Exception")
    | .failed => (.failed, some "Exception")

/-- a history of calls; exceptions are caught by the user -/
def ModelObj.run [Add K] (dup : Builder K → Except String (MFuns K)) (M : ModelObj K) : List (MCall K) → ModelObj K
  | [] => M
  | c :: cs => (M.exec dup c).1.run dup cs

end DoMpc
