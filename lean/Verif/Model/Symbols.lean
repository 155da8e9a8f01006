import Verif.Model.ModelBuilder

/-!
# Symbols of a model: substitution, exported variables, pickling (`/repo/do_mpc/model/_model.py`)

`Model/ModelBuilder.lean` describes an expression by the function it denotes.  Here expressions are trees with symbols, and the steps of `setup` that
replace the symbols handed out by `set_variable` are modelled one by one.
-/
namespace DoMpc.Sym
variable {K : Type}

/-- A CasADi expression, a column vector: a symbol with a number of rows, or an operation applied to expressions.  (Operations are arbitrary functions
of the values of their arguments.) -/
inductive SExpr (K : Type) where
  | sym (s rows : Nat)
  | op (rows n : Nat) (f : (Fin n → Nat → K) → Nat → K) (args : Fin n → SExpr K)

/-- number of rows -/
def SExpr.rows : SExpr K → Nat
  | .sym _ r => r
  | .op r _ _ _ => r

/-- value under an assignment of vectors to symbols -/
def SExpr.eval (ρ : Nat → Nat → K) : SExpr K → Nat → K
  | .sym s _ => ρ s
  | .op _ _ f args => f fun j => (args j).eval ρ

/-- the occurrences of symbols in an expression, with their numbers of rows -/
def SExpr.leaves : SExpr K → List (Nat × Nat)
  | .sym s r => [(s, r)]
  | .op _ _ _ args => (List.ofFn fun j => (args j).leaves).flatten

/-- the symbols of an expression -/
def SExpr.syms (e : SExpr K) : List Nat := e.leaves.map (·.1)

/-- `castools.substitute(expr, v, t)` (used at `_model.py:879`) -/
def SExpr.subst (v : Nat) (t : SExpr K) : SExpr K → SExpr K
  | .sym s r => if s = v then t else .sym s r
  | .op r n f args => .op r n f fun j => SExpr.subst v t (args j)

/-- the structures of symbols that `setup` creates (`_model.py:972-973`) -/
inductive SKind where
  | x | w | v | u | z | p | tvp
  deriving DecidableEq, Repr

/-- in the order of `var_dict_list` (`_model.py:972`) -/
def SKind.all : List SKind := [.x, .w, .v, .u, .z, .p, .tvp]

/-- position in the list -/
def SKind.idx : SKind → Nat
  | .x => 0 | .w => 1 | .v => 2 | .u => 3 | .z => 4 | .p => 5 | .tvp => 6

/-- the kinds a user can declare -/
def SKind.ofM : MKind → SKind
  | .x => .x | .u => .u | .z => .z | .p => .p | .tvp => .tvp

/-- a variable: name, symbol, rows -/
structure SVar where
  name : String
  id : Nat
  rows : Nat
  deriving DecidableEq, Repr

/-- An equation: the given expression and the noise symbol added to it, if any (`expr += var`, `_model.py:717-722,784-792`). -/
structure SEq (K : Type) where
  expr : SExpr K
  noise : Option SVar

variable [Zero K]

/-- the constant zero with `rows` rows -/
def zeroExpr (rows : Nat) : SExpr K := .op rows 0 (fun _ _ => 0) (fun j => j.elim0)

/-- The attributes of a model that is being configured (`_model.py:101-121`).  Symbols are numbered in the order of their creation, `next` is the
next number.  The constructor creates the symbols `default`. -/
structure SBuilder (K : Type) where
  next : Nat
  vars : SKind → List SVar
  aux : List (String × SExpr K)
  y : List (String × SEq K)
  rhs : List (String × SEq K)
  alg : List (String × SExpr K)

/-- after the constructor (`_model.py:101-121`) -/
def SBuilder.init : SBuilder K where
  next := 8
  vars := fun
    | .x => []
    | .u => [⟨"default", 0, 0⟩]
    | .z => [⟨"default", 1, 0⟩]
    | .p => [⟨"default", 2, 0⟩]
    | .tvp => [⟨"default", 3, 0⟩]
    | .w => [⟨"default", 5, 0⟩]
    | .v => [⟨"default", 6, 0⟩]
  aux := [("default", zeroExpr 1)]
  y := []
  rhs := []
  alg := [("default", zeroExpr 0)]

/-- names and sizes of the variables of a kind -/
def SBuilder.layout (B : SBuilder K) (k : SKind) : Layout := (B.vars k).map fun a => (a.name, a.rows)

/-- append a variable -/
def SBuilder.addVar (B : SBuilder K) (k : SKind) (name : String) (rows : Nat) : SBuilder K :=
  { B with next := B.next + 1, vars := Function.update B.vars k (B.vars k ++ [⟨name, B.next, rows⟩]) }

/-- A configuration call; expressions are made of the symbols the model has handed out (or of others). -/
inductive SOp (K : Type) where
  | setVar (varType name : String) (rows : Nat)
  | setExpr (name : String) (e : SExpr K)
  | setMeas (name : String) (e : SExpr K) (noise : Bool)
  | setRhs (name : String) (e : SExpr K) (noise : Bool)
  | setAlg (name : String) (e : SExpr K)

/-- `set_variable` (`_model.py:580-605`); the variable that is returned is the new symbol `B.next`. -/
def SBuilder.setVar (B : SBuilder K) (varType name : String) (rows : Nat) : Except String (SBuilder K) :=
  match varKind varType with
  | none => .error "AssertionError"
  | some k => if name ∈ (B.layout (.ofM k)).map (·.1) then .error "AssertionError" else .ok (B.addVar (.ofM k) name rows)

/-- `set_meas` (`_model.py:711-731`): a noise symbol and a symbol for `_y` -/
def SBuilder.setMeas (B : SBuilder K) (name : String) (e : SExpr K) (noise : Bool) : SBuilder K :=
  if noise then
    let B' := B.addVar .v (name ++ "_noise") e.rows
    { B' with next := B'.next + 1, y := B.y ++ [(name, ⟨e, some ⟨name ++ "_noise", B.next, e.rows⟩⟩)] }
  else { B with next := B.next + 1, y := B.y ++ [(name, ⟨e, none⟩)] }

/-- `set_rhs` (`_model.py:778-793`) -/
def SBuilder.setRhs (B : SBuilder K) (name : String) (e : SExpr K) (noise : Bool) : Except String (SBuilder K) :=
  if name ∈ (B.layout .x).map (·.1) then
    .ok (if noise then
        { B.addVar .w (name ++ "_noise") e.rows with rhs := B.rhs ++ [(name, ⟨e, some ⟨name ++ "_noise", B.next, e.rows⟩⟩)] }
      else { B with rhs := B.rhs ++ [(name, ⟨e, none⟩)] })
  else .error "AssertionError"

/-- a call before `setup` (`_model.py:580-605,641-652,711-731,778-793,820-824`); `set_expression` creates a symbol for `_aux` -/
def SBuilder.exec (B : SBuilder K) : SOp K → Except String (SBuilder K)
  | .setVar t n r => B.setVar t n r
  | .setExpr n e => .ok { B with next := B.next + 1, aux := B.aux ++ [(n, e)] }
  | .setMeas n e noise => .ok (B.setMeas n e noise)
  | .setRhs n e noise => B.setRhs n e noise
  | .setAlg n e => .ok { B with alg := B.alg ++ [(n, e)] }

/-- a history of calls; the first error ends it -/
def SBuilder.runOps (B : SBuilder K) : List (SOp K) → Except String (SBuilder K)
  | [] => .ok B
  | op :: ops =>
    match B.exec op with
    | .ok B' => B'.runOps ops
    | .error e => .error e

/-- `_y_expression` is empty: every state is a measurement with noise (`_model.py:936-938`) -/
def SBuilder.defaultMeas (B : SBuilder K) : SBuilder K :=
  if B.y.isEmpty then (B.vars .x).foldl (fun B a => B.setMeas a.name (.sym a.id a.rows) true) B else B

/-- The symbol of the structure of kind `k`: `_convert2struct` (`_model.py:827-855`) introduces new symbols, here one for each structure. -/
def SBuilder.master (B : SBuilder K) (k : SKind) : Nat := B.next + k.idx

/-- `sym_struct[name]`: an entry of the structure with layout `L` and symbol `m` -/
def entryExpr (L : Layout) (m : Nat) (name : String) : SExpr K :=
  .op ((L.lookup name).getD 0) 1 (fun a i => (L.entry ((List.range L.size).map (a 0)) name).getD i 0) (fun _ => .sym m L.size)

/-- The substitutions of `_substitute_struct_vars`, in order (`_model.py:875-879`): every variable by the entry of its structure. -/
def SBuilder.subs (B : SBuilder K) : List (Nat × SExpr K) :=
  SKind.all.flatMap fun k => (B.vars k).map fun a => (a.id, entryExpr (B.layout k) (B.master k) a.name)

/-- `_substitute_struct_vars` (`_model.py:857-886`): one variable after the other -/
def SBuilder.substAll (B : SBuilder K) (e : SExpr K) : SExpr K := B.subs.foldl (fun e s => SExpr.subst s.1 s.2 e) e

/-- `castools.Function(name, inputs, exprs)`: a symbol that is not an input raises; otherwise the values of the expressions, one below the other. -/
def mkFun (inputs : List Nat) (exprs : List (SExpr K)) : Except String (List (List K) → List K) :=
  if ∀ e ∈ exprs, ∀ s ∈ e.syms, s ∈ inputs then
    .ok fun args => exprs.flatMap fun e =>
      (List.range e.rows).map (e.eval fun s i => (((inputs.zip args).lookup s).getD []).getD i 0)
  else .error "RuntimeError"

/-- the expression of an equation with its noise -/
def SEq.full [Add K] (e : SEq K) : SExpr K :=
  match e.noise with
  | none => e.expr
  | some a => .op e.expr.rows 2 (fun b i => b 0 i + b 1 i) (fun j => if j = 0 then e.expr else .sym a.id a.rows)

/-- The loop that fills `_rhs` (`_model.py:966-969`). -/
def fillRhs (X : Layout) : List (String × SExpr K) → List (String × SExpr K) → Except String (List (String × SExpr K))
  | [], acc => .ok acc
  | (n, e) :: rest, acc => if X.lookup n = some e.rows then fillRhs X rest (dictSet acc n e) else .error "Exception"

/-- A model that has been set up: names and sizes, the symbols of the structures, the expressions and the functions (`_model.py:980-1042`). -/
structure SModel (K : Type) where
  layout : SKind → Layout
  master : SKind → Nat
  rhs : List (SExpr K)
  alg : List (SExpr K)
  aux : List (SExpr K)
  y : List (SExpr K)
  rhsFun : List (List K) → List K
  algFun : List (List K) → List K
  auxFun : List (List K) → List K
  measFun : List (List K) → List K

/-- dimensions and functions of a model that has been set up, in the form of `Model/ModelBuilder.lean` (`_model.py:1011-1033`) -/
def SModel.funs (M : SModel K) : MFuns K where
  nx := (M.layout .x).size
  nu := (M.layout .u).size
  nz := (M.layout .z).size
  ntvp := (M.layout .tvp).size
  np := (M.layout .p).size
  ny := (M.y.map SExpr.rows).sum
  naux := (M.aux.map SExpr.rows).sum
  nw := (M.layout .w).size
  nv := (M.layout .v).size
  rhs := fun x u z tvp p w => M.rhsFun [x, u, z, tvp, p, w]
  alg := fun x u z tvp p w => M.algFun [x, u, z, tvp, p, w]
  aux := fun x u z tvp p => M.auxFun [x, u, z, tvp, p]
  meas := fun x u z tvp p v => M.measFun [x, u, z, tvp, p, v]

/-- inputs of `_rhs_fun` and `_alg_fun` (`_model.py:998-1003`) -/
def rhsInputs (m : SKind → Nat) : List Nat := [m .x, m .u, m .z, m .tvp, m .p, m .w]
/-- inputs of `_aux_expression_fun` (`_model.py:1004-1006`) -/
def auxInputs (m : SKind → Nat) : List Nat := [m .x, m .u, m .z, m .tvp, m .p]
/-- inputs of `_meas_fun` (`_model.py:1007-1009`) -/
def measInputs (m : SKind → Nat) : List Nat := [m .x, m .u, m .z, m .tvp, m .p, m .v]

/-- All names are different within each structure. -/
def SBuilder.Distinct (B : SBuilder K) : Prop :=
  ((B.layout .w).map (·.1)).Nodup ∧ ((B.layout .v).map (·.1)).Nodup ∧ ("default" :: B.y.map (·.1)).Nodup ∧ (B.aux.map (·.1)).Nodup ∧
  (B.alg.map (·.1)).Nodup

instance (B : SBuilder K) : Decidable B.Distinct := by unfold SBuilder.Distinct; infer_instance

/-- the right-hand sides by state (`_model.py:961,966-969`) -/
def SBuilder.rhsExprs (B : SBuilder K) (R : List (String × SExpr K)) : List (SExpr K) :=
  (B.layout .x).map fun s => match R.lookup s.1 with
    | some e => e
    | none => zeroExpr s.2

/-- `setup` (`_model.py:935-1042`).  Not specified for repeated names (`dup`), as in `Builder.setup`. -/
def SBuilder.setup [Add K] (B : SBuilder K) (dup : SBuilder K → Except String (SModel K)) : Except String (SModel K) :=
  let B := B.defaultMeas
  if B.Distinct then do
    let R ← fillRhs (B.layout .x) (B.rhs.map fun e => (e.1, e.2.full)) []
    if ∀ s ∈ B.layout .x, (R.lookup s.1).isSome = true then
      let rhs := (B.rhsExprs R).map B.substAll
      let alg := B.alg.map fun e => B.substAll e.2
      let aux := B.aux.map fun e => B.substAll e.2
      let y := B.y.map fun e => B.substAll e.2.full
      let rhsFun ← mkFun (rhsInputs B.master) rhs
      let algFun ← mkFun (rhsInputs B.master) alg
      let auxFun ← mkFun (auxInputs B.master) aux
      let measFun ← mkFun (measInputs B.master) y
      if (B.layout .z).size = (alg.map SExpr.rows).sum then
        return { layout := B.layout, master := B.master, rhs := rhs, alg := alg, aux := aux, y := y,
                 rhsFun := rhsFun, algFun := algFun, auxFun := auxFun, measFun := measFun }
      else Except.error "AssertionError"
    else Except.error "AssertionError"
  else dup B

/-- What `set_variable` returned, used after `setup`: `_substitute_exported_vars` (`_model.py:888-918`) makes the object refer to the entry of the
structure, which is also what `model.x[name]` gives (`_getvar`, `_model.py:194-195`). -/
def SModel.exported (M : SModel K) (k : SKind) (name : String) : SExpr K := entryExpr (M.layout k) (M.master k) name

/-- An expression that is written with the objects returned by `set_variable`, evaluated in Python after `setup`: `σ` tells which variable is meant
by a symbol. -/
def SModel.again (M : SModel K) (σ : Nat → SKind × String) : SExpr K → SExpr K
  | .sym s _ => M.exported (σ s).1 (σ s).2
  | .op r n f args => .op r n f fun j => M.again σ (args j)

/-! ## Pickling (`_model.py:127-158`) -/

/-- `__getstate__` (`_model.py:127-146`): `mx` is `symvar_type == 'MX'`; `none` is a model that is not set up. -/
def getState (mx : Bool) (M : Option (SModel K)) : Except String (SModel K) :=
  if mx then .error "Exception" else
  match M with
  | none => .error "Exception"
  | some M => .ok M

/-- A call of a function with symbols as arguments: an expression. -/
def callFun (f : List (List K) → List K) (rows : Nat) (args : List (Nat × Nat)) : SExpr K :=
  .op rows args.length (fun a i => (f (List.ofFn fun j : Fin args.length => (List.range args[j].2).map (a j))).getD i 0)
    (fun j => .sym args[j].1 args[j].2)

/-- `__setstate__` (`_model.py:148-158`): the structures get new symbols (`next`, …), the expressions are the functions applied to them. -/
def setState (next : Nat) (M : SModel K) : SModel K :=
  let m : SKind → Nat := fun k => next + k.idx
  let a (k : SKind) : Nat × Nat := (m k, (M.layout k).size)
  { M with
    master := m
    rhs := [callFun M.rhsFun (M.rhs.map SExpr.rows).sum [a .x, a .u, a .z, a .tvp, a .p, a .w]]
    alg := [callFun M.algFun (M.alg.map SExpr.rows).sum [a .x, a .u, a .z, a .tvp, a .p, a .w]]
    aux := [callFun M.auxFun (M.aux.map SExpr.rows).sum [a .x, a .u, a .z, a .tvp, a .p]]
    y := [callFun M.measFun (M.y.map SExpr.rows).sum [a .x, a .u, a .z, a .tvp, a .p, a .v]] }

/-! ## Queries (`_model.py:161-188`) -/

/-- the attributes of the model that are structures (`_model.py:212-527`) -/
def attributes : List String := ["x", "u", "z", "p", "tvp", "y", "aux", "w", "v"]

/-- `var_names` of `__getitem__` (`_model.py:178`) -/
def tupleNames : List String := ["x", "u", "z", "p", "tvp", "y", "aux", "w"]

/-- `model[name]` (`_model.py:185-188`); `get` is what the attribute gives.  Simplification: other attributes of the object are not modelled. -/
def getOne {α : Type} (get : String → α) (name : String) : Except String α :=
  if name ∈ attributes then .ok (get name) else .error "AttributeError"

/-- `model[name1, name2, …]` (`_model.py:179-184`) -/
def getTuple {α : Type} (get : String → α) : List String → Except String (List α)
  | [] => .ok []
  | n :: ns =>
    if n ∈ tupleNames then do
      let v ← getOne get n
      let vs ← getTuple get ns
      return v :: vs
    else .error "AssertionError"

end DoMpc.Sym
