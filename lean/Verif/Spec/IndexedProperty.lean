import Verif.Model.IndexedProperty

/-! # What `o.P[i]` should mean: it reads and writes the attributes of `o` -/
namespace DoMpc.IP
variable {Obj Pr V σ : Type} [DecidableEq Obj]

/-- the value of an expression when every `o.P[i]` reads object `o` -/
def Expr.value (A : Access Pr V σ) (st : Obj → σ) : Expr Obj Pr V → V
  | .lit v => v
  | .item o P i => A.fget P (st o) (i.value A st)
  | .op f a b => f (a.value A st) (b.value A st)

/-- the attributes of the objects after a statement when every assignment to `o.P[i]` writes to object `o` -/
def Stmt.effect (A : Access Pr V σ) (st : Obj → σ) : Stmt Obj Pr V → (Obj → σ)
  | .assign o P i e => Function.update st o (A.fset P (st o) (i.value A st) (e.value A st))
  | .aug o P i f e => Function.update st o (A.fset P (st o) (i.value A st) (f (A.fget P (st o) (i.value A st)) (e.value A st)))
  | .expr _ => st
  | .held o P i e => Function.update st o (A.fset P (st o) (i.value A st) (e.value A st))
  | .whole _ _ _ => st

end DoMpc.IP
