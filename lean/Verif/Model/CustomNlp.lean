import Verif.Model.Basic

/-!
# Editing the optimisation problem between `prepare_nlp` and `create_nlp`

`/repo/do_mpc/optimizer.py:82-215` (`nlp_obj`, `nlp_cons`, `nlp_cons_lb`, `nlp_cons_ub`), `:752-776` (`solve`), `:1038-1082` (`prepare_nlp`,
`create_nlp`), `/repo/do_mpc/controller/_mpc.py:1268-1310`, `/repo/do_mpc/estimator/_mhe.py:1180-1236`; the same code for MPC and MHE.

`W` is the type of pairs (`opt_x`, `opt_p`); a symbolic column vector is the list of its entries, functions of `W`.

Simplifications: the aliasing of the Python lists is visible only through `append` on the attribute (a reference kept by the user in another variable is
left out); functions that contain unknown symbols (which `nlpsol` refuses) do not exist in the model.
-/
namespace DoMpc
namespace Custom
variable {W K : Type}

/-- The value of `nlp_cons`, `nlp_cons_lb` or `nlp_cons_ub`: a Python list of column vectors, or one CasADi vector. -/
inductive Blocks (α : Type) where
  | list (l : List (List α))
  | vec (v : List α)

/-- `_nlp_obj`, `_nlp_cons`, `_nlp_cons_lb`, `_nlp_cons_ub` (`_mpc.py:1269-1273`, `_mhe.py:1181-1185`) -/
structure Attrs (W K : Type) where
  obj : W → K
  cons : Blocks (W → K)
  lb : Blocks (Bound K)
  ub : Blocks (Bound K)

/-- The part of an MPC or MHE object that these methods use.  `attrs` exists iff `flags['prepare_nlp']`; `solver` is `'f'` and `'g'` of `self.nlp`. -/
structure Obj (W K : Type) where
  attrs : Option (Attrs W K)
  solver : Option ((W → K) × List (W → K))
  setup : Bool

/-- The calls.  `prepare` carries the objective and the three lists that `_prepare_nlp` computes from the configuration. -/
inductive Op (W K : Type) where
  | prepare (obj : W → K) (cons : List (List (W → K))) (lb ub : List (List (Bound K)))
  | setObj (f : W → K)
  | setCons (g : Blocks (W → K))
  | setLb (b : Blocks (Bound K))
  | setUb (b : Blocks (Bound K))
  | appendCons (v : List (W → K))
  | appendLb (v : List (Bound K))
  | appendUb (v : List (Bound K))
  | create

/-- `attr.append(v)`: CasADi vectors have no such method. -/
def Blocks.append {α : Type} : Blocks α → List α → Except String (Blocks α)
  | .list l, v => .ok (.list (l ++ [v]))
  | .vec _, _ => .error "AttributeError"

/-- `vertcat(*attr)`: CasADi vectors refuse to be iterated over. -/
def Blocks.vertcat {α : Type} : Blocks α → Except String (List α)
  | .list l => .ok l.flatten
  | .vec _ => .error "Exception"

/-- `_create_nlp` (`_mpc.py:1284-1310`, `_mhe.py:1195-1236`): the three attributes are replaced one after the other, then the solver is created. -/
def Obj.create (o : Obj W K) : Obj W K × Option String :=
  match o.attrs with
  | none => (o, some "AttributeError")
  | some A =>
    match A.cons.vertcat with
    | .error e => (o, some e)
    | .ok g =>
      match A.lb.vertcat with
      | .error e => ({ o with attrs := some { A with cons := .vec g } }, some e)
      | .ok l =>
        match A.ub.vertcat with
        | .error e => ({ o with attrs := some { A with cons := .vec g, lb := .vec l } }, some e)
        | .ok u => ({ attrs := some ⟨A.obj, .vec g, .vec l, .vec u⟩, solver := some (A.obj, g), setup := true }, none)

/-- One call: the object afterwards and the error.  Setters `optimizer.py:111-116,160-164,186-189,211-214`; the getters used by `append` only need
`flags['prepare_nlp']` (`:108-109,156-158,182-184,207-209`). -/
def Obj.exec (o : Obj W K) : Op W K → Obj W K × Option String
  | .prepare f g l u => ({ o with attrs := some ⟨f, .list g, .list l, .list u⟩ }, none)
  | .setObj f =>
    match o.attrs with
    | none => (o, some "AssertionError")
    | some A => if o.setup then (o, some "AssertionError") else ({ o with attrs := some { A with obj := f } }, none)
  | .setCons g =>
    match o.attrs with
    | none => (o, some "AssertionError")
    | some A => if o.setup then (o, some "AssertionError") else ({ o with attrs := some { A with cons := g } }, none)
  | .setLb b =>
    match o.attrs with
    | none => (o, some "AssertionError")
    | some A => ({ o with attrs := some { A with lb := b } }, none)
  | .setUb b =>
    match o.attrs with
    | none => (o, some "AssertionError")
    | some A => ({ o with attrs := some { A with ub := b } }, none)
  | .appendCons v =>
    match o.attrs with
    | none => (o, some "AssertionError")
    | some A =>
      match A.cons.append v with
      | .error e => (o, some e)
      | .ok g => ({ o with attrs := some { A with cons := g } }, none)
  | .appendLb v =>
    match o.attrs with
    | none => (o, some "AssertionError")
    | some A =>
      match A.lb.append v with
      | .error e => (o, some e)
      | .ok b => ({ o with attrs := some { A with lb := b } }, none)
  | .appendUb v =>
    match o.attrs with
    | none => (o, some "AssertionError")
    | some A =>
      match A.ub.append v with
      | .error e => (o, some e)
      | .ok b => ({ o with attrs := some { A with ub := b } }, none)
  | .create => o.create

/-- A sequence of calls; errors are caught by the caller. -/
def Obj.run (o : Obj W K) : List (Op W K) → Obj W K
  | [] => o
  | op :: rest => Obj.run (o.exec op).1 rest

/-- A new object: neither prepared nor set up (`_mpc.py:143-180`, `_mhe.py:151-225`). -/
def Obj.new : Obj W K := ⟨none, none, false⟩

/-- How CasADi reads an argument where a column of `n` entries is expected: such a column as it is, an empty vector as zeros, a single number for all entries;
everything else is an error.  A Python list of vectors is not accepted. -/
def readArg [Zero K] (n : Nat) : Blocks (Bound K) → Except String (List (Bound K))
  | .list _ => .error "NotImplementedError"
  | .vec v =>
    if v.length = n then .ok v
    else match v with
      | [] => .ok (List.replicate n (.fin 0))
      | [b] => .ok (List.replicate n b)
      | _ => .error "RuntimeError"

/-- The problem that `solve` hands to the solver, as far as `'f'`, `'g'`, `lbg` and `ubg` are concerned (`optimizer.py:752-776`). -/
structure Problem (W K : Type) where
  obj : W → K
  g : List (W → K)
  lbg : List (Bound K)
  ubg : List (Bound K)

/-- `solve` (`optimizer.py:752-776`) up to the call of the solver -/
def Obj.solve [Zero K] (o : Obj W K) : Except String (Problem W K) :=
  if o.setup = false then .error "AssertionError" else
  match o.solver, o.attrs with
  | some (f, g), some A => do
    let l ← readArg g.length A.lb
    let u ← readArg g.length A.ub
    return ⟨f, g, l, u⟩
  | _, _ => .error "AttributeError"

end Custom
end DoMpc
