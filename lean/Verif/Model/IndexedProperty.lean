import Mathlib.Logic.Function.Basic

/-!
# Properties with an index: `bounds`, `scaling`, `lb_opt_x`, `ub_opt_x`, `terminal_bounds`

`/repo/do_mpc/tools/_indexedproperty.py` and its uses `@IndexedProperty` in `/repo/do_mpc/optimizer.py:217,243,268,356` and
`/repo/do_mpc/controller/_mpc.py:398`.  One descriptor exists per property and *class*; all objects of the class (and of its subclasses) share it,
and `__get__` stores the object that was accessed last on the descriptor.

Expressions and statements follow Python's evaluation order
(`https://docs.python.org/3/reference/expressions.html#evaluation-order`, assignments: right-hand side first, then the target; augmented
assignments: the target's object and index first).

Simplifications: one type of values serves as index and as value; the getters and setters do not raise; a plain value that was assigned to the
property's name behaves like a dictionary.
-/
namespace DoMpc.IP

variable {Obj Pr V σ : Type} [DecidableEq Obj] [DecidableEq Pr]

/-- The functions decorated with `@IndexedProperty` and `@….setter`: `fget(self, ind)`, `fset(self, ind, val)`. -/
structure Access (Pr V σ : Type) where
  fget : Pr → σ → V → V
  fset : Pr → σ → V → V → σ

/-- `st`: the attributes of the objects; `cur`: `self.obj` of the descriptors (`_indexedproperty.py:25`); `inst`: the entries of the
instance dictionaries `o.__dict__` under the names of properties, which take precedence because `IndexedProperty` has no `__set__`. -/
structure World (Obj Pr V σ : Type) where
  st : Obj → σ
  cur : Pr → Option Obj
  inst : Obj → Pr → Option (V → V)

/-- Python expressions: literals, `o.P[i]` and applications. -/
inductive Expr (Obj Pr V : Type) where
  | lit (v : V)
  | item (o : Obj) (P : Pr) (i : Expr Obj Pr V)
  | op (f : V → V → V) (a b : Expr Obj Pr V)

/-- Python statements.  `held o P i e` is `b[i] = e` for a variable `b` that was bound earlier with `b = o.P`. -/
inductive Stmt (Obj Pr V : Type) where
  | assign (o : Obj) (P : Pr) (i e : Expr Obj Pr V)
  | aug (o : Obj) (P : Pr) (i : Expr Obj Pr V) (f : V → V → V) (e : Expr Obj Pr V)
  | expr (e : Expr Obj Pr V)
  | held (o : Obj) (P : Pr) (i e : Expr Obj Pr V)
  | whole (o : Obj) (P : Pr) (t : V → V)

/-- the expression `o.P` -/
def World.access (w : World Obj Pr V σ) (o : Obj) (P : Pr) : World Obj Pr V σ :=
  match w.inst o P with
  | some _ => w
  | none => { w with cur := Function.update w.cur P (some o) }

/-- `__getitem__` of the descriptor (`_indexedproperty.py:28-29`); `none` if no object was stored (cannot happen after an access) -/
def World.getItem (A : Access Pr V σ) (w : World Obj Pr V σ) (o : Obj) (P : Pr) (i : V) : V :=
  match w.inst o P with
  | some t => t i
  | none =>
    match w.cur P with
    | some o' => A.fget P (w.st o') i
    | none => A.fget P (w.st o) i

/-- `__setitem__` of the descriptor (`_indexedproperty.py:31-32`) -/
def World.setItem [DecidableEq V] (A : Access Pr V σ) (w : World Obj Pr V σ) (o : Obj) (P : Pr) (i v : V) : World Obj Pr V σ :=
  match w.inst o P with
  | some t => { w with inst := Function.update w.inst o (Function.update (w.inst o) P (some (Function.update t i v))) }
  | none =>
    match w.cur P with
    | some o' => { w with st := Function.update w.st o' (A.fset P (w.st o') i v) }
    | none => w

/-- Evaluation of an expression. -/
def Expr.eval (A : Access Pr V σ) : Expr Obj Pr V → World Obj Pr V σ → V × World Obj Pr V σ
  | .lit v, w => (v, w)
  | .item o P i, w =>
    let r := i.eval A (w.access o P)
    (r.2.getItem A o P r.1, r.2)
  | .op f a b, w =>
    let r := a.eval A w
    let s := b.eval A r.2
    (f r.1 s.1, s.2)

/-- Execution of a statement. -/
def Stmt.exec [DecidableEq V] (A : Access Pr V σ) (w : World Obj Pr V σ) : Stmt Obj Pr V → World Obj Pr V σ
  | .assign o P i e =>
    let r := e.eval A w
    let s := i.eval A (r.2.access o P)
    s.2.setItem A o P s.1 r.1
  | .aug o P i f e =>
    let s := i.eval A (w.access o P)
    let old := s.2.getItem A o P s.1
    let r := e.eval A s.2
    r.2.setItem A o P s.1 (f old r.1)
  | .expr e => (e.eval A w).2
  | .held o P i e =>
    let r := e.eval A w
    let s := i.eval A r.2
    s.2.setItem A o P s.1 r.1
  | .whole o P t => { w with inst := Function.update w.inst o (Function.update (w.inst o) P (some t)) }

/-- A program. -/
def run [DecidableEq V] (A : Access Pr V σ) (w : World Obj Pr V σ) (prog : List (Stmt Obj Pr V)) : World Obj Pr V σ :=
  prog.foldl (fun w s => s.exec A w) w

/-- The two steps of `o.P[i] = v` with literals, between which another thread can run: the attribute access (`LOAD_ATTR`) and the item assignment
(`STORE_SUBSCR`). -/
inductive Instr (Obj Pr V : Type) where
  | load (o : Obj) (P : Pr)
  | store (o : Obj) (P : Pr) (i v : V)

/-- one instruction -/
def Instr.exec [DecidableEq V] (A : Access Pr V σ) (w : World Obj Pr V σ) : Instr Obj Pr V → World Obj Pr V σ
  | .load o P => w.access o P
  | .store o P i v => w.setItem A o P i v

end DoMpc.IP
