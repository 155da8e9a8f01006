import Verif.Spec.IndexedProperty

/-! # C39: indexed properties act on their own object -/
set_option linter.unusedSectionVars false
namespace DoMpc.IP
variable {Obj Pr V σ : Type} [DecidableEq Obj] [DecidableEq Pr] [DecidableEq V] (A : Access Pr V σ)

/-- the object through which property `P` is accessed last when the expression is evaluated -/
def Expr.last (P : Pr) : Expr Obj Pr V → Option Obj
  | .lit _ => none
  | .item o Q i => (i.last P).or (if Q = P then some o else none)
  | .op _ a b => (b.last P).or (a.last P)

/-- every index expression in `o.P[…]` accesses `P` through `o` at last, or not at all -/
def Expr.Plain : Expr Obj Pr V → Prop
  | .lit _ => True
  | .item o P i => i.Plain ∧ (∀ o', i.last P = some o' → o' = o)
  | .op _ a b => a.Plain ∧ b.Plain

/-- the statements covered: no use of a held reference, no assignment to the property itself; the index accesses the property through no other object,
and neither does the right-hand side of an *augmented* assignment -/
def Stmt.Plain : Stmt Obj Pr V → Prop
  | .assign o P i e => i.Plain ∧ e.Plain ∧ ∀ o', i.last P = some o' → o' = o
  | .aug o P i _ e => i.Plain ∧ e.Plain ∧ (∀ o', i.last P = some o' → o' = o) ∧ ∀ o', e.last P = some o' → o' = o
  | .expr e => e.Plain
  | .held _ _ _ _ => False
  | .whole _ _ _ => False

theorem access_none (w : World Obj Pr V σ) (hi : ∀ o P, w.inst o P = none) (o : Obj) (P : Pr) :
    w.access o P = { w with cur := Function.update w.cur P (some o) } := by
  simp [World.access, hi o P]

theorem eval_plain (e : Expr Obj Pr V) : ∀ (w : World Obj Pr V σ), (∀ o P, w.inst o P = none) → e.Plain →
    e.eval A w = (e.value A w.st, { w with cur := fun P => (e.last P).or (w.cur P) }) := by
  induction e with
  | lit v => intro w _ _; simp [Expr.eval, Expr.value, Expr.last]
  | item o P i ih =>
    intro w hi hp
    simp only [Expr.eval]
    rw [access_none w hi, ih _ (by exact hi) hp.1]
    simp only [World.getItem, hi, Expr.value, Function.update_self]
    have hcur : (i.last P).or (some o) = some o := by
      cases h : i.last P with
      | none => rfl
      | some o' => rw [hp.2 o' h]; rfl
    rw [hcur]
    simp only [Prod.mk.injEq, true_and, World.mk.injEq, and_true]
    funext Q
    simp only [Expr.last]
    by_cases hQ : Q = P
    · subst hQ; simp [hcur]
    · rw [Function.update_of_ne hQ, if_neg (fun h => hQ h.symm), Option.or_none]
  | op f a b iha ihb =>
    intro w hi hp
    simp only [Expr.eval]
    rw [iha w hi hp.1]
    dsimp only
    rw [ihb _ (by exact hi) hp.2]
    simp only [Expr.value, Expr.last, Prod.mk.injEq, true_and, World.mk.injEq, and_true]
    funext P
    rw [Option.or_assoc]

theorem or_eq (x : Option Obj) (o : Obj) (h : ∀ o', x = some o' → o' = o) : x.or (some o) = some o := by
  cases hx : x with
  | none => rfl
  | some o' => rw [h o' hx]; rfl

/-- **C39, partial (one statement).**  Whatever object was accessed before, a plain statement changes the attributes of its own object only, and
uses the values of the objects named in the expressions: a bound assigned to one controller does not land on another one.  The right-hand side of
an assignment may access the property of any objects.  Missing: see `Stmt.Plain` and the counterexamples. -/
theorem C39_statement_partial (w : World Obj Pr V σ) (hi : ∀ o P, w.inst o P = none) (s : Stmt Obj Pr V) (hs : s.Plain) :
    (s.exec A w).st = s.effect A w.st ∧ ∀ o P, (s.exec A w).inst o P = none := by
  cases s with
  | assign o P i e =>
    simp only [Stmt.exec]
    rw [eval_plain A e w hi hs.2.1]
    dsimp only
    rw [access_none _ (by exact hi), eval_plain A i _ (by exact hi) hs.1]
    simp only [World.setItem, hi, Function.update_self, or_eq _ o hs.2.2]
    exact ⟨rfl, fun _ _ => trivial⟩
  | aug o P i f e =>
    simp only [Stmt.exec]
    rw [access_none w hi, eval_plain A i _ (by exact hi) hs.1]
    dsimp only
    rw [eval_plain A e _ (by exact hi) hs.2.1]
    simp only [World.setItem, World.getItem, hi, Function.update_self, or_eq _ o hs.2.2.1, or_eq _ o hs.2.2.2]
    exact ⟨rfl, fun _ _ => trivial⟩
  | expr e =>
    simp only [Stmt.exec]
    rw [eval_plain A e w hi hs]
    exact ⟨rfl, hi⟩
  | held o P i e => exact hs.elim
  | whole o P t => exact hs.elim

/-- **C39, partial (histories).**  After every program of plain statements, on any number of objects, the attributes of all objects are those that
result when every statement acts on its own object. -/
theorem C39_partial (prog : List (Stmt Obj Pr V)) : ∀ (w : World Obj Pr V σ), (∀ o P, w.inst o P = none) → (∀ s ∈ prog, s.Plain) →
    (run A w prog).st = prog.foldl (fun st s => s.effect A st) w.st := by
  induction prog with
  | nil => intro w _ _; rfl
  | cons s prog ih =>
    intro w hi hp
    obtain ⟨a, b⟩ := C39_statement_partial A w hi s (hp s (by simp))
    have := ih (s.exec A w) b (fun t ht => hp t (by simp [ht]))
    rw [List.foldl_cons, ← a]
    exact this

/-- Consequence: an object that is not the target of any statement keeps all its attributes. -/
theorem C39_others_untouched (prog : List (Stmt Obj Pr V)) (w : World Obj Pr V σ) (hi : ∀ o P, w.inst o P = none) (hp : ∀ s ∈ prog, s.Plain) (x : Obj)
    (hx : ∀ o P i e, .assign o P i e ∈ prog → o ≠ x) (hx' : ∀ o P i f e, .aug o P i f e ∈ prog → o ≠ x) : (run A w prog).st x = w.st x := by
  rw [C39_partial A prog w hi hp]
  have key : ∀ (prog : List (Stmt Obj Pr V)) (st : Obj → σ), (∀ s ∈ prog, s.Plain) → (∀ o P i e, .assign o P i e ∈ prog → o ≠ x) →
      (∀ o P i f e, .aug o P i f e ∈ prog → o ≠ x) → prog.foldl (fun st s => s.effect A st) st x = st x := by
    intro prog
    induction prog with
    | nil => intros; rfl
    | cons s prog ih =>
      intro st hp h1 h2
      rw [List.foldl_cons, ih _ (fun t ht => hp t (by simp [ht])) (fun o P i e hm => h1 o P i e (List.mem_cons_of_mem _ hm))
        (fun o P i f e hm => h2 o P i f e (List.mem_cons_of_mem _ hm))]
      cases s with
      | assign o P i e => exact Function.update_of_ne (h1 o P i e (by simp)).symm _ _
      | aug o P i f e => exact Function.update_of_ne (h2 o P i f e (by simp)).symm _ _
      | expr e => rfl
      | held o P i e => exact False.elim (hp (.held o P i e) (by simp))
      | whole o P t => exact False.elim (hp (.whole o P t) (by simp))
  exact key prog w.st hp hx hx'

/-- **C39 is false for augmented assignments**: `o1.P[i] += o2.P[j]` leaves `o1` as it was and writes the result to `o2`. -/
theorem C39_fails_augmented_assignment (w : World Obj Pr V σ) (hi : ∀ o P, w.inst o P = none) (o1 o2 : Obj) (hne : o1 ≠ o2) (P : Pr) (i j : V)
    (f : V → V → V) :
    let w' := (Stmt.aug o1 P (.lit i) f (.item o2 P (.lit j))).exec A w
    w'.st o1 = w.st o1 ∧ w'.st o2 = A.fset P (w.st o2) i (f (A.fget P (w.st o1) i) (A.fget P (w.st o2) j)) := by
  simp [Stmt.exec, Expr.eval, World.access, World.getItem, World.setItem, hi, Function.update_of_ne hne]

/-- **C39 is false for held references**: after `b = o1.P`, a read of `o2.P[j]` redirects `b[i] = v` to `o2`. -/
theorem C39_fails_held_reference (w : World Obj Pr V σ) (hi : ∀ o P, w.inst o P = none) (o1 o2 : Obj) (hne : o1 ≠ o2) (P : Pr) (i j v : V) :
    let w' := run A (w.access o1 P) [.expr (.item o2 P (.lit j)), .held o1 P (.lit i) (.lit v)]
    w'.st o1 = w.st o1 ∧ w'.st o2 = A.fset P (w.st o2) i v := by
  simp [run, Stmt.exec, Expr.eval, World.access, World.setItem, hi, Function.update_of_ne hne]

/-- **C39 is false for index expressions**: `o1.P[o2.P[j]] = v` writes to `o2`. -/
theorem C39_fails_index_expression (w : World Obj Pr V σ) (hi : ∀ o P, w.inst o P = none) (o1 o2 : Obj) (hne : o1 ≠ o2) (P : Pr) (j v : V) :
    let w' := (Stmt.assign o1 P (.item o2 P (.lit j)) (.lit v)).exec A w
    w'.st o1 = w.st o1 ∧ w'.st o2 = A.fset P (w.st o2) (A.fget P (w.st o2) j) v := by
  simp [Stmt.exec, Expr.eval, World.access, World.getItem, World.setItem, hi, Function.update_of_ne hne]

/-- … also for reading: `o1.P[o2.P[j]]` reads from `o2`. -/
theorem C39_fails_index_read (w : World Obj Pr V σ) (hi : ∀ o P, w.inst o P = none) (o1 o2 : Obj) (P : Pr) (j : V) :
    ((Expr.item o1 P (.item o2 P (.lit j))).eval A w).1 = A.fget P (w.st o2) (A.fget P (w.st o2) j) := by
  simp [Expr.eval, World.access, World.getItem, hi]

/-- **C39 is false for threads**: two threads execute `o1.P[i] = v` and `o2.P[j] = u` (two controllers in the threads of two real-time triggers); in
this schedule both values land on `o2` and `o1` keeps its old ones. -/
theorem C39_fails_threads (w : World Obj Pr V σ) (hi : ∀ o P, w.inst o P = none) (o1 o2 : Obj) (hne : o1 ≠ o2) (P : Pr) (i j v u : V) :
    let w' := ([.load o1 P, .load o2 P, .store o2 P j u, .store o1 P i v] : List (Instr Obj Pr V)).foldl (fun w s => s.exec A w) w
    w'.st o1 = w.st o1 ∧ w'.st o2 = A.fset P (A.fset P (w.st o2) j u) i v := by
  simp [Instr.exec, World.access, World.setItem, hi, Function.update_of_ne hne]

/-- **C39 is false for an assignment to the property itself**: `o.P = t` (without index) raises no error, and no later statement `o.P[i] = e` changes an
attribute of any object. -/
theorem C39_fails_whole_assignment (w : World Obj Pr V σ) (o : Obj) (P : Pr) (t : V → V) (as : List (V × V)) :
    (run A w (.whole o P t :: as.map fun a => .assign o P (.lit a.1) (.lit a.2))).st = w.st := by
  have key : ∀ (as : List (V × V)) (w : World Obj Pr V σ), (∃ t, w.inst o P = some t) →
      (run A w (as.map fun a => .assign o P (.lit a.1) (.lit a.2))).st = w.st := by
    intro as
    induction as with
    | nil => intro w _; rfl
    | cons a as ih =>
      intro w h
      obtain ⟨t, ht⟩ := h
      have e : (Stmt.assign o P (.lit a.1) (.lit a.2)).exec A w =
          { w with inst := Function.update w.inst o (Function.update (w.inst o) P (some (Function.update t a.1 a.2))) } := by
        simp [Stmt.exec, Expr.eval, World.access, World.setItem, ht]
      show (run A ((Stmt.assign o P (.lit a.1) (.lit a.2)).exec A w) _).st = w.st
      rw [ih _ (by rw [e]; exact ⟨_, by simp; rfl⟩), e]
  exact key as _ ⟨t, by simp [Stmt.exec]⟩

/-! ## Non-vacuity: two controllers with attributes `Nat → Nat`; `m1.P[0] = m2.P[1] + 1; m2.P[1] += m2.P[0]` is a plain program -/
namespace Example
def acc : Access Unit Nat (Nat → Nat) := ⟨fun _ s i => s i, fun _ s i v => Function.update s i v⟩
def prog : List (Stmt Bool Unit Nat) :=
  [.assign true () (.lit 0) (.op (· + ·) (.item false () (.lit 1)) (.lit 1)), .aug false () (.lit 1) (· + ·) (.item false () (.lit 0))]
def w : World Bool Unit Nat (Nat → Nat) := ⟨fun o i => if o then i else i + 10, fun _ => some false, fun _ _ => none⟩
example : (∀ s ∈ prog, s.Plain) ∧ ∀ o P, w.inst o P = none := by
  refine ⟨fun s hs => ?_, fun _ _ => rfl⟩
  simp only [prog, List.mem_cons, List.not_mem_nil, or_false] at hs
  rcases hs with rfl | rfl
  · exact ⟨trivial, ⟨⟨trivial, by simp [Expr.last]⟩, trivial⟩, by simp [Expr.last]⟩
  · exact ⟨trivial, ⟨trivial, by simp [Expr.last]⟩, by simp [Expr.last], by simp [Expr.last]⟩
example : (run acc w prog).st true 0 = 12 ∧ (run acc w prog).st false 1 = 21 ∧ (run acc w prog).st false 0 = 10 := by decide +kernel
end Example
end DoMpc.IP
