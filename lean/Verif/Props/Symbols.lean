import Verif.Model.Symbols
import Verif.Props.ModelBuilder

/-!
# C89: symbols of a model
-/
set_option linter.unusedSectionVars false
namespace DoMpc.Sym
variable {K : Type}

/-! ### Substitution -/

theorem lookup_mem {α β : Type} [DecidableEq α] (l : List (α × β)) (a : α) (b : β) (h : l.lookup a = some b) : (a, b) ∈ l := by
  induction l with
  | nil => simp at h
  | cons p l ih =>
    obtain ⟨c, d⟩ := p
    rw [List.lookup_cons] at h
    by_cases hc : a = c
    · subst hc
      simp only [beq_self_eq_true, if_true, Option.some.injEq] at h
      subst h
      exact List.mem_cons_self
    · rw [show (a == c) = false from by simpa using hc] at h
      exact List.mem_cons_of_mem _ (ih h)

theorem mem_syms_op {r n : Nat} {f : (Fin n → Nat → K) → Nat → K} {args : Fin n → SExpr K} {s : Nat} :
    s ∈ (SExpr.op r n f args).syms ↔ ∃ j, s ∈ (args j).syms := by
  simp only [SExpr.syms, SExpr.leaves, List.mem_map, List.mem_flatten, List.mem_ofFn]
  constructor
  · rintro ⟨l, ⟨_, ⟨j, rfl⟩, hl⟩, rfl⟩
    exact ⟨j, l, hl, rfl⟩
  · rintro ⟨j, l, hl, rfl⟩
    exact ⟨l, ⟨_, ⟨j, rfl⟩, hl⟩, rfl⟩

theorem mem_syms_sym {s r t : Nat} : t ∈ (SExpr.sym s r : SExpr K).syms ↔ t = s := by simp [SExpr.syms, SExpr.leaves]

theorem eval_congr (e : SExpr K) (ρ ρ' : Nat → Nat → K) (h : ∀ s ∈ e.syms, ρ s = ρ' s) : e.eval ρ = e.eval ρ' := by
  induction e with
  | sym s r => exact h s (mem_syms_sym.2 rfl)
  | op r n f args ih =>
    simp only [SExpr.eval]
    congr 1
    funext j
    exact ih j fun s hs => h s (mem_syms_op.2 ⟨j, hs⟩)

theorem eval_subst (v : Nat) (t e : SExpr K) (ρ : Nat → Nat → K) :
    (SExpr.subst v t e).eval ρ = e.eval (Function.update ρ v (t.eval ρ)) := by
  induction e with
  | sym s r =>
    simp only [SExpr.subst, SExpr.eval]
    by_cases h : s = v
    · subst h; simp
    · rw [if_neg h, Function.update_of_ne h]; rfl
  | op r n f args ih =>
    simp only [SExpr.subst, SExpr.eval]
    congr 1
    funext j
    exact ih j

theorem syms_subst (v : Nat) (t e : SExpr K) (s : Nat) (h : s ∈ (SExpr.subst v t e).syms) :
    (s ∈ e.syms ∧ s ≠ v) ∨ (v ∈ e.syms ∧ s ∈ t.syms) := by
  induction e with
  | sym s' r =>
    simp only [SExpr.subst] at h
    by_cases hv : s' = v
    · rw [if_pos hv] at h
      exact .inr ⟨mem_syms_sym.2 hv.symm, h⟩
    · rw [if_neg hv] at h
      exact .inl ⟨h, fun e => hv ((mem_syms_sym.1 h).symm.trans e)⟩
  | op r n f args ih =>
    simp only [SExpr.subst] at h
    obtain ⟨j, hj⟩ := mem_syms_op.1 h
    rcases ih j hj with ⟨a, b⟩ | ⟨a, b⟩
    · exact .inl ⟨mem_syms_op.2 ⟨j, a⟩, b⟩
    · exact .inr ⟨mem_syms_op.2 ⟨j, a⟩, b⟩

theorem mem_syms_subst (v : Nat) (t e : SExpr K) (s : Nat) (hs : s ∈ e.syms) (hv : s ≠ v) : s ∈ (SExpr.subst v t e).syms := by
  induction e with
  | sym s' r =>
    have := mem_syms_sym.1 hs
    subst this
    simp only [SExpr.subst, if_neg hv]
    exact hs
  | op r n f args ih =>
    obtain ⟨j, hj⟩ := mem_syms_op.1 hs
    exact mem_syms_op.2 ⟨j, ih j hj⟩

/-- The assignment after the substitutions `l`. -/
def subsEnv (l : List (Nat × SExpr K)) (ρ : Nat → Nat → K) : Nat → Nat → K := fun s =>
  match l.lookup s with
  | some t => t.eval ρ
  | none => ρ s

/-- One substitution after the other is the simultaneous substitution if no replacement contains a symbol that is replaced. -/
theorem eval_substs (l : List (Nat × SExpr K)) (hl : ∀ p ∈ l, ∀ q ∈ l, q.1 ∉ p.2.syms) (e : SExpr K) (ρ : Nat → Nat → K) :
    (l.foldl (fun e s => SExpr.subst s.1 s.2 e) e).eval ρ = e.eval (subsEnv l ρ) := by
  induction l generalizing e with
  | nil => rfl
  | cons p l ih =>
    rw [List.foldl_cons, ih (fun a ha b hb => hl a (List.mem_cons_of_mem _ ha) b (List.mem_cons_of_mem _ hb)), eval_subst]
    congr 1
    funext s
    have hp : p.2.eval (subsEnv l ρ) = p.2.eval ρ := by
      apply eval_congr
      intro s hs
      unfold subsEnv
      rcases h : l.lookup s with _ | t
      · rfl
      · have hm : (s, t) ∈ l := lookup_mem l s t h
        exact absurd hs (hl p List.mem_cons_self (s, t) (List.mem_cons_of_mem _ hm))
    by_cases hs : s = p.1
    · subst hs
      rw [Function.update_self, hp]
      unfold subsEnv
      obtain ⟨a, b⟩ := p
      simp [List.lookup_cons]
    · rw [Function.update_of_ne hs]
      unfold subsEnv
      obtain ⟨a, b⟩ := p
      rw [List.lookup_cons, show (s == a) = false from by simpa using hs]

theorem syms_substs (l : List (Nat × SExpr K)) (hl : ∀ p ∈ l, ∀ q ∈ l, q.1 ∉ p.2.syms) (e : SExpr K) (s : Nat)
    (h : s ∈ (l.foldl (fun e s => SExpr.subst s.1 s.2 e) e).syms) :
    (s ∈ e.syms ∧ ∀ p ∈ l, p.1 ≠ s) ∨ ∃ p ∈ l, p.1 ∈ e.syms ∧ s ∈ p.2.syms := by
  induction l generalizing e with
  | nil => exact .inl ⟨h, by simp⟩
  | cons p l ih =>
    rw [List.foldl_cons] at h
    rcases ih (fun a ha b hb => hl a (List.mem_cons_of_mem _ ha) b (List.mem_cons_of_mem _ hb)) _ h with ⟨a, b⟩ | ⟨q, hq, a, b⟩
    · rcases syms_subst _ _ _ _ a with ⟨c, d⟩ | ⟨c, d⟩
      · refine .inl ⟨c, ?_⟩
        intro q hq
        rcases List.mem_cons.1 hq with rfl | hq
        · exact fun e => d e.symm
        · exact b q hq
      · exact .inr ⟨p, List.mem_cons_self, c, d⟩
    · rcases syms_subst _ _ _ _ a with ⟨c, d⟩ | ⟨c, d⟩
      · exact .inr ⟨q, List.mem_cons_of_mem _ hq, c, b⟩
      · exact absurd d (hl p List.mem_cons_self q (List.mem_cons_of_mem _ hq))

/-- A symbol that is not replaced stays. -/
theorem syms_substs_stay (l : List (Nat × SExpr K)) (e : SExpr K) (s : Nat) (hs : s ∈ e.syms) (hn : ∀ p ∈ l, p.1 ≠ s) :
    s ∈ (l.foldl (fun e s => SExpr.subst s.1 s.2 e) e).syms := by
  induction l generalizing e with
  | nil => exact hs
  | cons p l ih =>
    exact ih _ (mem_syms_subst _ _ _ _ hs (fun h => hn p List.mem_cons_self h.symm)) fun q hq => hn q (List.mem_cons_of_mem _ hq)

variable [Zero K]

/-! ### The invariant of a model that is being configured -/

/-- The expression is made of variables that the user has declared (`_x`, `_u`, `_z`, `_tvp`, `_p`), with their sizes. -/
def Scoped (B : SBuilder K) (e : SExpr K) : Prop := ∀ l ∈ e.leaves, ∃ (k : MKind) (n : String), (⟨n, l.1, l.2⟩ : SVar) ∈ B.vars (.ofM k)

/-- What holds after every history of calls. -/
structure WF (B : SBuilder K) : Prop where
  fresh : ∀ k, ∀ a ∈ B.vars k, a.id < B.next
  inj : ∀ k k' a a', a ∈ B.vars k → a' ∈ B.vars k' → a.id = a'.id → k = k' ∧ a = a'
  names : ∀ k : MKind, ((B.layout (.ofM k)).map (·.1)).Nodup
  aux : ∀ e ∈ B.aux, Scoped B e.2
  alg : ∀ e ∈ B.alg, Scoped B e.2
  rhs : ∀ e ∈ B.rhs, Scoped B e.2.expr ∧ ∀ a, e.2.noise = some a → a ∈ B.vars .w ∧ a.rows = e.2.expr.rows
  y : ∀ e ∈ B.y, Scoped B e.2.expr ∧ ∀ a, e.2.noise = some a → a ∈ B.vars .v ∧ a.rows = e.2.expr.rows

/-- the declared variables -/
def table (B : SBuilder K) : List (Nat × MKind × String) :=
  [MKind.x, .u, .z, .p, .tvp].flatMap fun k => (B.vars (.ofM k)).map fun a => (a.id, k, a.name)

/-- assignment of values to the symbols that belong to declared variables -/
def env (B : SBuilder K) (vals : MVal K) : Nat → Nat → K := fun s i =>
  match (table B).lookup s with
  | some (k, n) => vals k n i
  | none => 0

theorem mem_table {B : SBuilder K} {s : Nat} {k : MKind} {n : String} :
    (s, k, n) ∈ table B ↔ ∃ a ∈ B.vars (.ofM k), a.id = s ∧ a.name = n := by
  simp only [table, List.mem_flatMap, List.mem_map, Prod.mk.injEq]
  constructor
  · rintro ⟨k', -, a, ha, h1, h2, h3⟩
    subst h2
    exact ⟨a, ha, h1, h3⟩
  · rintro ⟨a, ha, h1, h2⟩
    exact ⟨k, by cases k <;> simp, a, ha, h1, rfl, h2⟩

theorem ofM_inj {k k' : MKind} (h : SKind.ofM k = SKind.ofM k') : k = k' := by cases k <;> cases k' <;> simp_all [SKind.ofM]

theorem env_of_mem {B : SBuilder K} (hB : WF B) (vals : MVal K) {k : MKind} {a : SVar} (ha : a ∈ B.vars (.ofM k)) :
    env B vals a.id = vals k a.name := by
  funext i
  unfold env
  have hm : (a.id, k, a.name) ∈ table B := mem_table.2 ⟨a, ha, rfl, rfl⟩
  rcases hl : (table B).lookup a.id with _ | ⟨k', n'⟩
  · exfalso
    rw [List.lookup_eq_none_iff] at hl
    have := hl _ hm
    simp at this
  · obtain ⟨a', ha', h1, h2⟩ := mem_table.1 (lookup_mem _ _ _ hl)
    obtain ⟨h3, h4⟩ := hB.inj _ _ _ _ ha' ha h1
    subst h4
    rw [ofM_inj h3, h2]

/-- the function an expression denotes -/
def denoteE (B : SBuilder K) (e : SExpr K) : MExpr K := ⟨e.rows, fun vals => e.eval (env B vals)⟩

theorem denoteE_rows (B : SBuilder K) (e : SExpr K) : (denoteE B e).rows = e.rows := rfl

/-- the equation -/
def denoteEq (B : SBuilder K) (e : SEq K) : MEq K := ⟨denoteE B e.expr, e.noise.map SVar.name⟩

/-- **The model of `Model/ModelBuilder.lean` that a model with symbols denotes**: names and sizes of the variables, and expressions as functions of
the values of the variables. -/
def denote (B : SBuilder K) : Builder K where
  x := B.layout .x
  u := B.layout .u
  z := B.layout .z
  p := B.layout .p
  tvp := B.layout .tvp
  w := B.layout .w
  v := B.layout .v
  aux := B.aux.map fun e => (e.1, denoteE B e.2)
  y := B.y.map fun e => (e.1, denoteEq B e.2)
  rhs := B.rhs.map fun e => (e.1, denoteEq B e.2)
  alg := B.alg.map fun e => (e.1, denoteE B e.2)

/-- the call that a call with symbols denotes -/
def denoteOp (B : SBuilder K) : SOp K → MOp K
  | .setVar t n r => .setVar t n r
  | .setExpr n e => .setExpr n (denoteE B e)
  | .setMeas n e b => .setMeas n (denoteE B e) b
  | .setRhs n e b => .setRhs n (denoteE B e) b
  | .setAlg n e => .setAlg n (denoteE B e)

theorem Scoped.mono {B B' : SBuilder K} (h : ∀ k a, a ∈ B.vars k → a ∈ B'.vars k) {e : SExpr K} (he : Scoped B e) : Scoped B' e := by
  intro l hl
  obtain ⟨k, n, hm⟩ := he l hl
  exact ⟨k, n, h _ _ hm⟩

theorem denoteE_mono {B B' : SBuilder K} (hB : WF B) (hB' : WF B') (h : ∀ k a, a ∈ B.vars k → a ∈ B'.vars k) {e : SExpr K} (he : Scoped B e) :
    denoteE B' e = denoteE B e := by
  unfold denoteE
  congr 1
  funext vals
  apply eval_congr
  intro s hs
  obtain ⟨l, hl, rfl⟩ := List.mem_map.1 hs
  obtain ⟨k, n, hm⟩ := he l hl
  rw [env_of_mem hB' vals (h _ _ hm), env_of_mem hB vals hm]

theorem denoteEq_mono {B B' : SBuilder K} (hB : WF B) (hB' : WF B') (h : ∀ k a, a ∈ B.vars k → a ∈ B'.vars k) {e : SEq K}
    (he : Scoped B e.expr) : denoteEq B' e = denoteEq B e := by
  unfold denoteEq
  rw [denoteE_mono hB hB' h he]

/-- a new symbol -/
theorem WF.addVar {B : SBuilder K} (hB : WF B) (k : SKind) (name : String) (rows : Nat)
    (hn : ∀ m : MKind, k = .ofM m → name ∉ (B.layout k).map (·.1)) : WF (B.addVar k name rows) := by
  have hmono : ∀ k' a, a ∈ B.vars k' → a ∈ (B.addVar k name rows).vars k' := by
    intro k' a ha
    simp only [SBuilder.addVar]
    by_cases h : k' = k
    · subst h; simp [ha]
    · rw [Function.update_of_ne h]; exact ha
  have hinv : ∀ k' a, a ∈ (B.addVar k name rows).vars k' → a ∈ B.vars k' ∨ (k' = k ∧ a = ⟨name, B.next, rows⟩) := by
    intro k' a ha
    simp only [SBuilder.addVar] at ha
    by_cases h : k' = k
    · subst h
      simp only [Function.update_self, List.mem_append, List.mem_singleton] at ha
      rcases ha with ha | ha
      · exact .inl ha
      · exact .inr ⟨rfl, ha⟩
    · rw [Function.update_of_ne h] at ha; exact .inl ha
  refine ⟨?_, ?_, ?_, ?_, ?_, ?_, ?_⟩
  · intro k' a ha
    rcases hinv k' a ha with ha | ⟨-, rfl⟩
    · exact Nat.lt_succ_of_lt (hB.fresh _ _ ha)
    · exact Nat.lt_succ_self _
  · intro k1 k2 a1 a2 h1 h2 he
    rcases hinv k1 a1 h1 with g1 | ⟨e1, f1⟩ <;> rcases hinv k2 a2 h2 with g2 | ⟨e2, f2⟩
    · exact hB.inj _ _ _ _ g1 g2 he
    · rw [f2] at he
      exact absurd he (Nat.ne_of_lt (hB.fresh _ _ g1))
    · rw [f1] at he
      exact absurd he.symm (Nat.ne_of_lt (hB.fresh _ _ g2))
    · exact ⟨e1.trans e2.symm, f1.trans f2.symm⟩
  · intro m
    by_cases h : SKind.ofM m = k
    · subst h
      have e1 : (B.addVar (.ofM m) name rows).layout (.ofM m) = B.layout (.ofM m) ++ [(name, rows)] := by
        simp [SBuilder.layout, SBuilder.addVar]
      rw [e1, List.map_append, List.nodup_append]
      refine ⟨hB.names m, by simp, ?_⟩
      intro a ha b hb
      simp only [List.map_cons, List.map_nil, List.mem_singleton] at hb
      subst hb
      intro e
      subst e
      exact hn m rfl ha
    · have e1 : (B.addVar k name rows).layout (.ofM m) = B.layout (.ofM m) := by
        simp [SBuilder.layout, SBuilder.addVar, Function.update_of_ne h]
      rw [e1]
      exact hB.names m
  · exact fun e he => (hB.aux e he).mono hmono
  · exact fun e he => (hB.alg e he).mono hmono
  · exact fun e he => ⟨(hB.rhs e he).1.mono hmono, fun a ha => ⟨hmono _ _ ((hB.rhs e he).2 a ha).1, ((hB.rhs e he).2 a ha).2⟩⟩
  · exact fun e he => ⟨(hB.y e he).1.mono hmono, fun a ha => ⟨hmono _ _ ((hB.y e he).2 a ha).1, ((hB.y e he).2 a ha).2⟩⟩

theorem addVar_mono (B : SBuilder K) (k : SKind) (name : String) (rows : Nat) (k' : SKind) (a : SVar) (ha : a ∈ B.vars k') :
    a ∈ (B.addVar k name rows).vars k' := by
  simp only [SBuilder.addVar]
  by_cases h : k' = k
  · subst h; simp [ha]
  · rw [Function.update_of_ne h]; exact ha

theorem addVar_new (B : SBuilder K) (k : SKind) (name : String) (rows : Nat) : (⟨name, B.next, rows⟩ : SVar) ∈ (B.addVar k name rows).vars k := by
  simp [SBuilder.addVar]

theorem layout_addVar (B : SBuilder K) (k k' : SKind) (name : String) (rows : Nat) :
    (B.addVar k name rows).layout k' = if k' = k then B.layout k' ++ [(name, rows)] else B.layout k' := by
  by_cases h : k' = k
  · subst h; simp [SBuilder.layout, SBuilder.addVar]
  · simp [SBuilder.layout, SBuilder.addVar, Function.update_of_ne h, h]

/-- The lists of equations denote the same in an extended model. -/
theorem denote_lists {B B' : SBuilder K} (hB : WF B) (hB' : WF B') (h : ∀ k a, a ∈ B.vars k → a ∈ B'.vars k) :
    (B.aux.map fun e => (e.1, denoteE B' e.2)) = (denote B).aux ∧ (B.alg.map fun e => (e.1, denoteE B' e.2)) = (denote B).alg ∧
    (B.y.map fun e => (e.1, denoteEq B' e.2)) = (denote B).y ∧ (B.rhs.map fun e => (e.1, denoteEq B' e.2)) = (denote B).rhs := by
  refine ⟨?_, ?_, ?_, ?_⟩
  · exact List.map_congr_left fun e he => by rw [denoteE_mono hB hB' h (hB.aux e he)]
  · exact List.map_congr_left fun e he => by rw [denoteE_mono hB hB' h (hB.alg e he)]
  · exact List.map_congr_left fun e he => by rw [denoteEq_mono hB hB' h (hB.y e he).1]
  · exact List.map_congr_left fun e he => by rw [denoteEq_mono hB hB' h (hB.rhs e he).1]

/-- the expression of a call is made of declared variables -/
def ScopedOp (B : SBuilder K) : SOp K → Prop
  | .setVar _ _ _ => True
  | .setExpr _ e => Scoped B e
  | .setMeas _ e _ => Scoped B e
  | .setRhs _ e _ => Scoped B e
  | .setAlg _ e => Scoped B e

theorem WF.setMeas {B : SBuilder K} (hB : WF B) (n : String) (e : SExpr K) (noise : Bool) (he : Scoped B e) :
    WF (B.setMeas n e noise) ∧ denote (B.setMeas n e noise) = (denote B).setMeas n (denoteE B e) noise ∧
    (∀ k a, a ∈ B.vars k → a ∈ (B.setMeas n e noise).vars k) ∧ (B.setMeas n e noise).vars .x = B.vars .x := by
  cases noise with
  | false =>
    have hm : ∀ k a, a ∈ B.vars k → a ∈ (B.setMeas n e false).vars k := fun k a ha => ha
    have hw : WF (B.setMeas n e false) := by
      refine ⟨fun k a ha => Nat.lt_succ_of_lt (hB.fresh k a ha), hB.inj, hB.names, hB.aux, hB.alg, hB.rhs, ?_⟩
      intro e' he'
      simp only [SBuilder.setMeas, Bool.false_eq_true, if_false, List.mem_append, List.mem_singleton] at he'
      rcases he' with he' | rfl
      · exact hB.y e' he'
      · exact ⟨he, by simp⟩
    refine ⟨hw, ?_, hm, rfl⟩
    obtain ⟨d1, d2, d3, d4⟩ := denote_lists hB hw hm
    have hee := denoteE_mono hB hw hm he
    have hlay : ∀ k, (B.setMeas n e false).layout k = B.layout k := fun k => rfl
    have hy : (B.setMeas n e false).y = B.y ++ [(n, ⟨e, none⟩)] := rfl
    have haux : (B.setMeas n e false).aux = B.aux := rfl
    have halg : (B.setMeas n e false).alg = B.alg := rfl
    have hrhs : (B.setMeas n e false).rhs = B.rhs := rfl
    unfold denote Builder.setMeas
    simp only [hlay, hy, haux, halg, hrhs, List.map_append, d1, d2, d3, d4]
    simp [denote, denoteEq, hee]
  | true =>
    have hm : ∀ k a, a ∈ B.vars k → a ∈ (B.setMeas n e true).vars k := fun k a ha => addVar_mono B .v _ _ k a ha
    have h1 := hB.addVar .v (n ++ "_noise") e.rows (by intro m hk; cases m <;> simp [SKind.ofM] at hk)
    have hw : WF (B.setMeas n e true) := by
      refine ⟨fun k a ha => Nat.lt_succ_of_lt (h1.fresh k a ha), h1.inj, h1.names, h1.aux, h1.alg, h1.rhs, ?_⟩
      intro e' he'
      simp only [SBuilder.setMeas, if_true, List.mem_append, List.mem_singleton] at he'
      rcases he' with he' | rfl
      · exact h1.y e' he'
      · refine ⟨he.mono hm, ?_⟩
        intro a ha
        simp only [Option.some.injEq] at ha
        subst ha
        exact ⟨addVar_new B .v _ _, rfl⟩
    refine ⟨hw, ?_, hm, ?_⟩
    · obtain ⟨d1, d2, d3, d4⟩ := denote_lists hB hw hm
      have hlay : ∀ k, (B.setMeas n e true).layout k = (B.addVar .v (n ++ "_noise") e.rows).layout k := fun k => rfl
      have hy : (B.setMeas n e true).y = B.y ++ [(n, ⟨e, some ⟨n ++ "_noise", B.next, e.rows⟩⟩)] := rfl
      have haux : (B.setMeas n e true).aux = B.aux := rfl
      have halg : (B.setMeas n e true).alg = B.alg := rfl
      have hrhs : (B.setMeas n e true).rhs = B.rhs := rfl
      unfold denote Builder.setMeas
      simp only [hlay, layout_addVar, hy, haux, halg, hrhs, List.map_append, d1, d2, d3, d4, if_true]
      simp [denote, denoteEq, denoteE_mono hB hw hm he, denoteE_rows]
    · simp [SBuilder.setMeas, SBuilder.addVar, Function.update_of_ne (show SKind.x ≠ SKind.v by decide)]

/-- One call: the model with symbols and the model it denotes accept it or refuse it alike, and the result denotes the result. -/
theorem exec_denote {B : SBuilder K} (hB : WF B) (op : SOp K) (hop : ScopedOp B op) :
    (∀ B', B.exec op = .ok B' → WF B' ∧ (denote B).exec (denoteOp B op) = .ok (denote B') ∧ ∀ k a, a ∈ B.vars k → a ∈ B'.vars k) ∧
    ∀ e, B.exec op = .error e → (denote B).exec (denoteOp B op) = .error e := by
  cases op with
  | setVar t n r =>
    have hlay : ∀ k : MKind, (denote B).layout k = B.layout (.ofM k) := by intro k; cases k <;> rfl
    simp only [SBuilder.exec, SBuilder.setVar, denoteOp, Builder.exec, Builder.setVar]
    rcases varKind t with _ | k
    · simp
    · dsimp only
      rw [hlay]
      by_cases hn : n ∈ (B.layout (.ofM k)).map (·.1)
      · simp only [if_pos hn]; simp
      · simp only [if_neg hn]
        refine ⟨?_, by simp⟩
        intro B' h
        simp only [Except.ok.injEq] at h
        subst h
        have hw := hB.addVar (.ofM k) n r (fun m hm => hn)
        have hm := addVar_mono B (.ofM k) n r
        refine ⟨hw, ?_, hm⟩
        congr 1
        obtain ⟨d1, d2, d3, d4⟩ := denote_lists hB hw hm
        have haux : (B.addVar (.ofM k) n r).aux = B.aux := rfl
        have halg : (B.addVar (.ofM k) n r).alg = B.alg := rfl
        have hrhs : (B.addVar (.ofM k) n r).rhs = B.rhs := rfl
        have hy : (B.addVar (.ofM k) n r).y = B.y := rfl
        unfold denote Builder.addVar
        simp only [layout_addVar, haux, halg, hrhs, hy, d1, d2, d3, d4]
        cases k <;> simp [denote, SKind.ofM]
  | setExpr n e =>
    refine ⟨?_, by simp [SBuilder.exec]⟩
    intro B' h
    simp only [SBuilder.exec, Except.ok.injEq] at h
    subst h
    have hw : WF { B with next := B.next + 1, aux := B.aux ++ [(n, e)] } := by
      refine ⟨fun k a ha => Nat.lt_succ_of_lt (hB.fresh k a ha), hB.inj, hB.names, ?_, hB.alg, hB.rhs, hB.y⟩
      intro e' he'
      rcases List.mem_append.1 he' with he' | he'
      · exact hB.aux e' he'
      · rw [List.mem_singleton.1 he']; exact hop
    refine ⟨hw, ?_, fun _ _ h => h⟩
    simp only [denoteOp, Builder.exec, Except.ok.injEq]
    obtain ⟨d1, d2, d3, d4⟩ := denote_lists hB hw (fun _ _ h => h)
    have hee := denoteE_mono hB hw (fun _ _ h => h) hop
    unfold denote
    simp only [List.map_append, d1, d2, d3, d4, hee]
    simp [denote, SBuilder.layout, hee]
  | setMeas n e b =>
    refine ⟨?_, by simp [SBuilder.exec]⟩
    intro B' h
    simp only [SBuilder.exec, Except.ok.injEq] at h
    subst h
    obtain ⟨h1, h2, h3, -⟩ := hB.setMeas n e b hop
    exact ⟨h1, by simp [denoteOp, Builder.exec, h2], h3⟩
  | setRhs n e b =>
    simp only [SBuilder.exec, SBuilder.setRhs, denoteOp, Builder.exec, Builder.setRhs]
    have hx : (denote B).x = B.layout .x := rfl
    rw [hx]
    by_cases hn : n ∈ (B.layout .x).map (·.1)
    · simp only [if_pos hn]
      refine ⟨?_, by simp⟩
      intro B' h
      simp only [Except.ok.injEq] at h
      subst h
      cases b with
      | false =>
        simp only [Bool.false_eq_true, if_false]
        have hw : WF { B with rhs := B.rhs ++ [(n, ⟨e, none⟩)] } := by
          refine ⟨hB.fresh, hB.inj, hB.names, hB.aux, hB.alg, ?_, hB.y⟩
          intro e' he'
          rcases List.mem_append.1 he' with he' | he'
          · exact hB.rhs e' he'
          · rw [List.mem_singleton.1 he']; exact ⟨hop, by simp⟩
        refine ⟨hw, ?_, fun _ _ h => h⟩
        obtain ⟨d1, d2, d3, d4⟩ := denote_lists hB hw (fun _ _ h => h)
        have hee := denoteE_mono hB hw (fun _ _ h => h) hop
        congr 1
        unfold denote
        simp only [List.map_append, d1, d2, d3, d4]
        simp [denote, SBuilder.layout, denoteEq, hee]
      | true =>
        simp only [if_true]
        have hm : ∀ k a, a ∈ B.vars k → a ∈ (B.addVar .w (n ++ "_noise") e.rows).vars k := addVar_mono B .w _ _
        have h1 := hB.addVar .w (n ++ "_noise") e.rows (by intro m hk; cases m <;> simp [SKind.ofM] at hk)
        have hw : WF { B.addVar .w (n ++ "_noise") e.rows with
            rhs := B.rhs ++ [(n, ⟨e, some ⟨n ++ "_noise", B.next, e.rows⟩⟩)] } := by
          refine ⟨h1.fresh, h1.inj, h1.names, h1.aux, h1.alg, ?_, h1.y⟩
          intro e' he'
          rcases List.mem_append.1 he' with he' | he'
          · exact h1.rhs e' he'
          · rw [List.mem_singleton.1 he']
            refine ⟨Scoped.mono hm hop, ?_⟩
            intro a ha
            simp only [Option.some.injEq] at ha
            subst ha
            exact ⟨addVar_new B .w _ _, rfl⟩
        refine ⟨hw, ?_, hm⟩
        congr 1
        have key : ∀ B1 : SBuilder K, WF B1 → B1.vars = (B.addVar .w (n ++ "_noise") e.rows).vars → B1.aux = B.aux → B1.alg = B.alg → B1.y = B.y →
            B1.rhs = B.rhs ++ [(n, ⟨e, some ⟨n ++ "_noise", B.next, e.rows⟩⟩)] →
            ({ denote B with w := (denote B).w ++ [(n ++ "_noise", (denoteE B e).rows)]
                             rhs := (denote B).rhs ++ [(n, ⟨denoteE B e, some (n ++ "_noise")⟩)] } : Builder K) = denote B1 := by
          intro B1 hw1 hv haux halg hy hrhs
          have hm1 : ∀ k a, a ∈ B.vars k → a ∈ B1.vars k := by rw [hv]; exact hm
          obtain ⟨d1, d2, d3, d4⟩ := denote_lists hB hw1 hm1
          have hee := denoteE_mono hB hw1 hm1 hop
          have hlay : ∀ k, B1.layout k = (B.addVar .w (n ++ "_noise") e.rows).layout k := fun k => by simp only [SBuilder.layout, hv]
          unfold denote
          simp only [hlay, layout_addVar, haux, halg, hy, hrhs, List.map_append, d1, d2, d3, d4]
          simp [denote, denoteEq, hee, denoteE_rows]
        exact key _ hw rfl rfl rfl rfl rfl
    · simp only [if_neg hn]; simp
  | setAlg n e =>
    refine ⟨?_, by simp [SBuilder.exec]⟩
    intro B' h
    simp only [SBuilder.exec, Except.ok.injEq] at h
    subst h
    have hw : WF { B with alg := B.alg ++ [(n, e)] } := by
      refine ⟨hB.fresh, hB.inj, hB.names, hB.aux, ?_, hB.rhs, hB.y⟩
      intro e' he'
      rcases List.mem_append.1 he' with he' | he'
      · exact hB.alg e' he'
      · rw [List.mem_singleton.1 he']; exact hop
    refine ⟨hw, ?_, fun _ _ h => h⟩
    simp only [denoteOp, Builder.exec, Except.ok.injEq]
    obtain ⟨d1, d2, d3, d4⟩ := denote_lists hB hw (fun _ _ h => h)
    have hee := denoteE_mono hB hw (fun _ _ h => h) hop
    unfold denote
    simp only [List.map_append, d1, d2, d3, d4, hee]
    simp [denote, SBuilder.layout, hee]

/-- after the constructor -/
theorem WF.init : WF (SBuilder.init : SBuilder K) := by
  refine ⟨?_, ?_, ?_, ?_, ?_, ?_, ?_⟩
  · intro k a ha
    cases k <;> simp [SBuilder.init] at ha ⊢ <;> subst ha <;> simp
  · intro k k' a a' h h' he
    cases k <;> cases k' <;> simp [SBuilder.init] at h h' <;> subst h <;> subst h' <;> simp at he ⊢
  · intro k
    cases k <;> simp [SBuilder.layout, SBuilder.init, SKind.ofM]
  · intro e he
    simp only [SBuilder.init, List.mem_singleton] at he
    subst he
    intro l hl
    simp [zeroExpr, SExpr.leaves] at hl
  · intro e he
    simp only [SBuilder.init, List.mem_singleton] at he
    subst he
    intro l hl
    simp [zeroExpr, SExpr.leaves] at hl
  · intro e he; simp [SBuilder.init] at he
  · intro e he; simp [SBuilder.init] at he

theorem denote_init : denote (SBuilder.init : SBuilder K) = {} := by
  simp only [denote, SBuilder.init, SBuilder.layout, List.map_cons, List.map_nil, denoteE, zeroExpr, SExpr.rows, SExpr.eval]

/-- every expression is made of variables declared before -/
def ScopedOps (B : SBuilder K) : List (SOp K) → Prop
  | [] => True
  | op :: ops => ScopedOp B op ∧ ∀ B', B.exec op = .ok B' → ScopedOps B' ops

theorem denoteOp_mono {B B' : SBuilder K} (hB : WF B) (hB' : WF B') (h : ∀ k a, a ∈ B.vars k → a ∈ B'.vars k) (op : SOp K) (ho : ScopedOp B op) :
    denoteOp B' op = denoteOp B op := by
  cases op with
  | setVar t n r => rfl
  | setExpr n e => simp only [denoteOp]; rw [denoteE_mono hB hB' h ho]
  | setMeas n e b => simp only [denoteOp]; rw [denoteE_mono hB hB' h ho]
  | setRhs n e b => simp only [denoteOp]; rw [denoteE_mono hB hB' h ho]
  | setAlg n e => simp only [denoteOp]; rw [denoteE_mono hB hB' h ho]

theorem runOps_denote {B B' : SBuilder K} (hB : WF B) (ops : List (SOp K)) (hs : ScopedOps B ops) (h : B.runOps ops = .ok B') :
    WF B' ∧ (∀ k a, a ∈ B.vars k → a ∈ B'.vars k) ∧ (denote B).runOps (ops.map (denoteOp B')) = .ok (denote B') := by
  induction ops generalizing B with
  | nil =>
    simp only [SBuilder.runOps, Except.ok.injEq] at h
    subst h
    exact ⟨hB, fun _ _ h => h, rfl⟩
  | cons op ops ih =>
    simp only [SBuilder.runOps] at h
    rcases he : B.exec op with e | B1
    · simp [he] at h
    · rw [he] at h
      obtain ⟨w1, w2, w3⟩ := (exec_denote hB op hs.1).1 B1 he
      obtain ⟨i1, i2, i3⟩ := ih w1 (hs.2 B1 he) h
      refine ⟨i1, fun k a ha => i2 k a (w3 k a ha), ?_⟩
      simp only [List.map_cons, Builder.runOps]
      rw [denoteOp_mono hB i1 (fun k a ha => i2 k a (w3 k a ha)) op hs.1, w2]
      exact i3

/-! ### `setup` -/

theorem default_denote {B : SBuilder K} (hB : WF B) : WF B.defaultMeas ∧ denote B.defaultMeas = (denote B).defaultMeas := by
  unfold SBuilder.defaultMeas Builder.defaultMeas
  have hy : (denote B).y.isEmpty = B.y.isEmpty := by simp [denote]
  rw [hy]
  by_cases h : B.y.isEmpty = true
  · rw [if_pos h, if_pos h]
    have key : ∀ (l : List SVar) (B1 : SBuilder K), WF B1 → (∀ a ∈ l, a ∈ B1.vars .x) →
        WF (l.foldl (fun B a => B.setMeas a.name (.sym a.id a.rows) true) B1) ∧
        denote (l.foldl (fun B a => B.setMeas a.name (.sym a.id a.rows) true) B1) =
          (l.map fun a => (a.name, a.rows)).foldl (fun B e => B.setMeas e.1 ⟨e.2, fun vals i => vals .x e.1 i⟩ true) (denote B1) := by
      intro l
      induction l with
      | nil => exact fun B1 h1 _ => ⟨h1, rfl⟩
      | cons a l ih =>
        intro B1 h1 hl
        have ha := hl a List.mem_cons_self
        have hsc : Scoped B1 (.sym a.id a.rows) := by
          intro p hp
          simp only [SExpr.leaves, List.mem_singleton] at hp
          subst hp
          exact ⟨.x, a.name, ha⟩
        obtain ⟨m1, m2, m3, m4⟩ := h1.setMeas a.name (.sym a.id a.rows) true hsc
        obtain ⟨i1, i2⟩ := ih _ m1 (by rw [m4]; exact fun b hb => hl b (List.mem_cons_of_mem _ hb))
        refine ⟨i1, ?_⟩
        simp only [List.foldl_cons, List.map_cons]
        rw [i2, m2]
        congr 2
        unfold denoteE
        simp only [SExpr.rows, SExpr.eval]
        congr 1
        funext vals
        exact env_of_mem h1 vals ha
    exact key (B.vars .x) B hB (fun a ha => ha)
  · rw [if_neg h, if_neg h]
    exact ⟨hB, rfl⟩

theorem master_inj {B : SBuilder K} {k k' : SKind} (h : B.master k = B.master k') : k = k' := by
  unfold SBuilder.master at h
  cases k <;> cases k' <;> simp [SKind.idx] at h ⊢

theorem mem_subs {B : SBuilder K} {p : Nat × SExpr K} :
    p ∈ B.subs ↔ ∃ k, ∃ a ∈ B.vars k, p = (a.id, entryExpr (B.layout k) (B.master k) a.name) := by
  simp only [SBuilder.subs, List.mem_flatMap, List.mem_map]
  constructor
  · rintro ⟨k, -, a, ha, rfl⟩
    exact ⟨k, a, ha, rfl⟩
  · rintro ⟨k, a, ha, rfl⟩
    exact ⟨k, by cases k <;> simp [SKind.all], a, ha, rfl⟩

theorem syms_entry (L : Layout) (m : Nat) (n : String) (s : Nat) : s ∈ (entryExpr L m n : SExpr K).syms ↔ s = m := by
  unfold entryExpr
  rw [mem_syms_op]
  simp only [mem_syms_sym]
  exact ⟨fun ⟨_, h⟩ => h, fun h => ⟨0, h⟩⟩

theorem subs_fresh {B : SBuilder K} (hB : WF B) : ∀ p ∈ B.subs, ∀ q ∈ B.subs, q.1 ∉ p.2.syms := by
  intro p hp q hq h
  obtain ⟨k, a, ha, rfl⟩ := mem_subs.1 hp
  obtain ⟨k', a', ha', rfl⟩ := mem_subs.1 hq
  rw [syms_entry] at h
  have := hB.fresh k' a' ha'
  unfold SBuilder.master at h
  simp only at h
  omega

/-- A variable is replaced by the entry of its structure. -/
theorem lookup_subs {B : SBuilder K} (hB : WF B) {k : SKind} {a : SVar} (ha : a ∈ B.vars k) :
    B.subs.lookup a.id = some (entryExpr (B.layout k) (B.master k) a.name) := by
  rcases h : B.subs.lookup a.id with _ | t
  · exfalso
    rw [List.lookup_eq_none_iff] at h
    have := h _ (mem_subs.2 ⟨k, a, ha, rfl⟩)
    simp at this
  · obtain ⟨k', a', ha', he⟩ := mem_subs.1 (lookup_mem _ _ _ h)
    simp only [Prod.mk.injEq] at he
    obtain ⟨h1, h2⟩ := he
    obtain ⟨rfl, rfl⟩ := hB.inj _ _ _ _ ha ha' h1
    rw [h2]

/-- a vector brought to the size of its structure -/
theorem entry_pad (L : Layout) (f : List K) (n : String) (i : Nat) :
    (L.entry ((List.range L.size).map fun j => f.getD j 0) n).getD i 0 = (L.entry f n).getD i 0 := by
  induction L generalizing f with
  | nil => rfl
  | cons e L ih =>
    obtain ⟨m, r⟩ := e
    have hsz : Layout.size ((m, r) :: L) = r + Layout.size L := by simp [Layout.size]
    have hl : ((List.range (r + Layout.size L)).map fun j => f.getD j 0) =
        ((List.range r).map fun j => f.getD j 0) ++ (List.range (Layout.size L)).map fun j => (f.drop r).getD j 0 := by
      rw [List.range_add, List.map_append, List.map_map]
      congr 1
      apply List.map_congr_left
      intro j _
      simp [List.getD_eq_getElem?_getD]
    rw [hsz, hl]
    simp only [Layout.entry]
    by_cases h : m = n
    · rw [if_pos h, if_pos h]
      rw [List.take_left' (by simp)]
      simp only [List.getD_eq_getElem?_getD, List.getElem?_map, List.getElem?_take]
      by_cases hi : i < r
      · simp [hi, List.getElem?_range hi]
      · simp [hi, List.getElem?_eq_none]
    · rw [if_neg h, if_neg h, List.drop_left' (by simp), ih]

theorem eval_entry (L : Layout) (m : Nat) (n : String) (ρ : Nat → Nat → K) (f : List K) (h : ρ m = fun i => f.getD i 0) :
    (entryExpr L m n).eval ρ = fun i => (L.entry f n).getD i 0 := by
  funext i
  simp only [entryExpr, SExpr.eval, h]
  exact entry_pad L f n i

/-- values of the structures -/
def argOf (x u z tvp p w v : List K) : SKind → List K
  | .x => x | .u => u | .z => z | .tvp => tvp | .p => p | .w => w | .v => v

/-- An expression in variables, evaluated after the substitutions, when the structures in `ks` have the given values. -/
theorem eval_substAll {B : SBuilder K} (hB : WF B) (e : SExpr K) (ρ ρ' : Nat → Nat → K) (arg : SKind → List K)
    (he : ∀ s ∈ e.syms, ∃ k, ∃ a ∈ B.vars k, a.id = s ∧ (ρ (B.master k) = fun i => (arg k).getD i 0) ∧
      ρ' s = fun i => ((B.layout k).entry (arg k) a.name).getD i 0) :
    (B.substAll e).eval ρ = e.eval ρ' := by
  unfold SBuilder.substAll
  rw [eval_substs _ (subs_fresh hB)]
  apply eval_congr
  intro s hs
  obtain ⟨k, a, ha, rfl, h1, h2⟩ := he s hs
  unfold subsEnv
  rw [lookup_subs hB ha]
  dsimp only
  rw [eval_entry _ _ _ _ _ h1, h2]

theorem syms_substAll {B : SBuilder K} (hB : WF B) (e : SExpr K) (he : ∀ s ∈ e.syms, ∃ k, ∃ a ∈ B.vars k, a.id = s) (s : Nat)
    (hs : s ∈ (B.substAll e).syms) : ∃ k, ∃ a ∈ B.vars k, a.id ∈ e.syms ∧ s = B.master k := by
  rcases syms_substs _ (subs_fresh hB) e s hs with ⟨h1, h2⟩ | ⟨p, hp, h1, h2⟩
  · obtain ⟨k, a, ha, rfl⟩ := he s h1
    exact absurd rfl (h2 _ (mem_subs.2 ⟨k, a, ha, rfl⟩))
  · obtain ⟨k, a, ha, rfl⟩ := mem_subs.1 hp
    rw [syms_entry] at h2
    exact ⟨k, a, ha, h1, h2⟩

theorem lookup_layout {B : SBuilder K} {k : SKind} (hn : ((B.layout k).map (·.1)).Nodup) {a : SVar} (ha : a ∈ B.vars k) :
    (B.layout k).lookup a.name = some a.rows := by
  have hm : (a.name, a.rows) ∈ B.layout k := List.mem_map.2 ⟨a, ha, rfl⟩
  exact (lookup_eq_some_of_nodup _ hn _ _).2 hm

/-- Sizes do not change. -/
theorem rows_substAll {B : SBuilder K} (hB : WF B) (e : SExpr K) (he : Scoped B e) : (B.substAll e).rows = e.rows := by
  have hop : ∀ (l : List (Nat × SExpr K)) (r n : Nat) f (args : Fin n → SExpr K),
      (l.foldl (fun e s => SExpr.subst s.1 s.2 e) (.op r n f args)).rows = r := by
    intro l
    induction l with
    | nil => intros; rfl
    | cons p l ih => intro r n f args; exact ih r n f _
  have hsym : ∀ (l : List (Nat × SExpr K)) (s r : Nat),
      (∀ p ∈ l, p.1 = s → p.2.rows = r ∧ ∃ r' n f args, p.2 = .op r' n f args) →
      (l.foldl (fun e s => SExpr.subst s.1 s.2 e) (.sym s r)).rows = r := by
    intro l
    induction l with
    | nil => intros; rfl
    | cons p l ih =>
      intro s r h
      rw [List.foldl_cons]
      simp only [SExpr.subst]
      by_cases hs : s = p.1
      · rw [if_pos hs]
        obtain ⟨h1, r', n, f, args, h2⟩ := h p List.mem_cons_self hs.symm
        rw [h2, hop]
        rw [h2] at h1
        exact h1
      · rw [if_neg hs]
        exact ih s r fun q hq => h q (List.mem_cons_of_mem _ hq)
  cases e with
  | op r n f args => exact hop _ _ _ _ _
  | sym s r =>
    apply hsym
    intro p hp hps
    obtain ⟨k, n, hm⟩ := he (s, r) (by simp [SExpr.leaves])
    obtain ⟨k', a, ha, rfl⟩ := mem_subs.1 hp
    obtain ⟨rfl, rfl⟩ := hB.inj _ _ _ _ ha hm hps
    refine ⟨?_, _, _, _, _, rfl⟩
    simp only [entryExpr, SExpr.rows]
    rw [lookup_layout (hB.names k) hm]
    rfl

/-! ### The functions -/

theorem rows_fold_op (l : List (Nat × SExpr K)) (r n : Nat) (f) (args : Fin n → SExpr K) :
    (l.foldl (fun e s => SExpr.subst s.1 s.2 e) (.op r n f args)).rows = r := by
  induction l generalizing args with
  | nil => rfl
  | cons p l ih => exact ih _

theorem eval_substAll' {B : SBuilder K} (hB : WF B) (e : SExpr K) (ρ : Nat → Nat → K) : (B.substAll e).eval ρ = e.eval (subsEnv B.subs ρ) :=
  eval_substs _ (subs_fresh hB) e ρ

theorem subsEnv_var {B : SBuilder K} (hB : WF B) {k : SKind} {a : SVar} (ha : a ∈ B.vars k) (ρ : Nat → Nat → K) (f : List K)
    (h : ρ (B.master k) = fun i => f.getD i 0) : subsEnv B.subs ρ a.id = fun i => ((B.layout k).entry f a.name).getD i 0 := by
  unfold subsEnv
  rw [lookup_subs hB ha]
  exact eval_entry _ _ _ _ _ h

theorem vals_denote (B : SBuilder K) (x u z tvp p w v : List K) (k : MKind) (n : String) :
    (denote B).vals x u z tvp p k n = fun i => ((B.layout (.ofM k)).entry (argOf x u z tvp p w v (.ofM k)) n).getD i 0 := by
  cases k <;> rfl

/-- An expression made of declared variables, with the values of the structures. -/
theorem value_scoped {B : SBuilder K} (hB : WF B) (e : SExpr K) (he : Scoped B e) (x u z tvp p w v : List K) (ρ : Nat → Nat → K)
    (h : ∀ k : MKind, ρ (B.master (.ofM k)) = fun i => (argOf x u z tvp p w v (.ofM k)).getD i 0) :
    (B.substAll e).eval ρ = (denoteE B e).eval ((denote B).vals x u z tvp p) := by
  rw [eval_substAll' hB]
  unfold denoteE
  apply eval_congr
  intro s hs
  obtain ⟨l, hl, rfl⟩ := List.mem_map.1 hs
  obtain ⟨k, n, hm⟩ := he l hl
  have e1 := subsEnv_var hB hm ρ _ (h k)
  have e2 := env_of_mem hB ((denote B).vals x u z tvp p) hm
  rw [vals_denote B x u z tvp p w v] at e2
  exact e1.trans e2.symm

/-- The equation satisfies what `WF` says, with noise of kind `kn`. -/
def EqOk (B : SBuilder K) (kn : SKind) (e : SEq K) : Prop := Scoped B e.expr ∧ ∀ a, e.noise = some a → a ∈ B.vars kn ∧ a.rows = e.expr.rows

theorem rows_full [Add K] {B : SBuilder K} (hB : WF B) {kn : SKind} (e : SEq K) (he : EqOk B kn e) : (B.substAll e.full).rows = e.expr.rows := by
  unfold SEq.full
  rcases h : e.noise with _ | a
  · exact rows_substAll hB _ he.1
  · exact rows_fold_op _ _ _ _ _

theorem value_full [Add K] {B : SBuilder K} (hB : WF B) {kn : SKind} (e : SEq K) (he : EqOk B kn e) (x u z tvp p w v : List K) (ρ : Nat → Nat → K)
    (h : ∀ k : MKind, ρ (B.master (.ofM k)) = fun i => (argOf x u z tvp p w v (.ofM k)).getD i 0)
    (hn : ρ (B.master kn) = fun i => (argOf x u z tvp p w v kn).getD i 0) :
    (B.substAll e.full).eval ρ = (denoteEq B e).value (B.layout kn) ((denote B).vals x u z tvp p) (argOf x u z tvp p w v kn) := by
  have h0 := value_scoped hB e.expr he.1 x u z tvp p w v ρ h
  funext i
  unfold SEq.full MEq.value denoteEq
  rcases hno : e.noise with _ | a
  · simp only [Option.map_none, h0]
  · simp only [Option.map_some]
    rw [eval_substAll' hB] at h0 ⊢
    simp only [SExpr.eval, if_true]
    rw [h0, if_neg (by decide)]
    simp only [SExpr.eval]
    rw [subsEnv_var hB (he.2 a hno).1 ρ _ hn]

theorem syms_scoped {B : SBuilder K} (hB : WF B) (e : SExpr K) (he : Scoped B e) (s : Nat) (hs : s ∈ (B.substAll e).syms) :
    ∃ k : MKind, s = B.master (.ofM k) := by
  have hv : ∀ s ∈ e.syms, ∃ k : MKind, ∃ a ∈ B.vars (.ofM k), a.id = s := by
    intro s hs
    obtain ⟨l, hl, rfl⟩ := List.mem_map.1 hs
    obtain ⟨k, n, hm⟩ := he l hl
    exact ⟨k, _, hm, rfl⟩
  obtain ⟨k, a, ha, h1, h2⟩ := syms_substAll hB e (fun s hs => by obtain ⟨k, a, ha, h⟩ := hv s hs; exact ⟨_, a, ha, h⟩) s hs
  obtain ⟨k', a', ha', h'⟩ := hv _ h1
  obtain ⟨rfl, -⟩ := hB.inj _ _ _ _ ha ha' h'.symm
  exact ⟨k', h2⟩

theorem syms_full [Add K] {B : SBuilder K} (hB : WF B) {kn : SKind} (e : SEq K) (he : EqOk B kn e) (s : Nat)
    (hs : s ∈ (B.substAll e.full).syms) : (∃ k : MKind, s = B.master (.ofM k)) ∨ s = B.master kn := by
  have hv : ∀ s ∈ e.full.syms, ∃ k, (k = kn ∨ ∃ m, k = SKind.ofM m) ∧ ∃ a ∈ B.vars k, a.id = s := by
    intro s hs
    have hsc : ∀ s ∈ e.expr.syms, ∃ k, (k = kn ∨ ∃ m, k = SKind.ofM m) ∧ ∃ a ∈ B.vars k, a.id = s := by
      intro s hs
      obtain ⟨l, hl, rfl⟩ := List.mem_map.1 hs
      obtain ⟨k, n, hm⟩ := he.1 l hl
      exact ⟨_, .inr ⟨k, rfl⟩, _, hm, rfl⟩
    unfold SEq.full at hs
    rcases hno : e.noise with _ | a
    · rw [hno] at hs
      exact hsc s hs
    · rw [hno] at hs
      obtain ⟨j, hj⟩ := mem_syms_op.1 hs
      by_cases h0 : j = 0
      · rw [if_pos h0] at hj
        exact hsc s hj
      · rw [if_neg h0] at hj
        exact ⟨kn, .inl rfl, a, (he.2 a hno).1, (mem_syms_sym.1 hj).symm⟩
  obtain ⟨k, a, ha, h1, h2⟩ := syms_substAll hB e.full (fun s hs => by obtain ⟨k, -, a, ha, h⟩ := hv s hs; exact ⟨_, a, ha, h⟩) s hs
  obtain ⟨k', hk', a', ha', h'⟩ := hv _ h1
  obtain ⟨rfl, -⟩ := hB.inj _ _ _ _ ha ha' h'.symm
  rcases hk' with rfl | ⟨m, rfl⟩
  · exact .inr h2
  · exact .inl ⟨m, h2⟩

/-- the assignment inside a function: `inputs` have the values `args` -/
def argEnv (inputs : List Nat) (args : List (List K)) : Nat → Nat → K := fun s i => (((inputs.zip args).lookup s).getD []).getD i 0

theorem env_rhs (m : SKind → Nat) (hm : Function.Injective m) (x u z tvp p w v : List K) (k : SKind) (hk : k ≠ .v) :
    argEnv (rhsInputs m) [x, u, z, tvp, p, w] (m k) = fun i => (argOf x u z tvp p w v k).getD i 0 := by
  funext i
  cases k <;> simp [argEnv, rhsInputs, lookup_cons_ite, hm.eq_iff, argOf] at hk ⊢

theorem env_meas (m : SKind → Nat) (hm : Function.Injective m) (x u z tvp p w v : List K) (k : SKind) (hk : k ≠ .w) :
    argEnv (measInputs m) [x, u, z, tvp, p, v] (m k) = fun i => (argOf x u z tvp p w v k).getD i 0 := by
  funext i
  cases k <;> simp [argEnv, measInputs, lookup_cons_ite, hm.eq_iff, argOf] at hk ⊢

theorem env_aux (m : SKind → Nat) (hm : Function.Injective m) (x u z tvp p w v : List K) (k : MKind) :
    argEnv (auxInputs m) [x, u, z, tvp, p] (m (.ofM k)) = fun i => (argOf x u z tvp p w v (.ofM k)).getD i 0 := by
  funext i
  cases k <;> simp [argEnv, auxInputs, lookup_cons_ite, hm.eq_iff, argOf, SKind.ofM]

theorem master_mem_rhs (m : SKind → Nat) (k : SKind) (hk : k ≠ .v) : m k ∈ rhsInputs m := by cases k <;> simp [rhsInputs] at hk ⊢
theorem master_mem_meas (m : SKind → Nat) (k : SKind) (hk : k ≠ .w) : m k ∈ measInputs m := by cases k <;> simp [measInputs] at hk ⊢
theorem master_mem_aux (m : SKind → Nat) (k : MKind) : m (.ofM k) ∈ auxInputs m := by cases k <;> simp [auxInputs, SKind.ofM]

/-- The loop over the right-hand sides with equations kept as pairs. -/
def fillEq (X : Layout) : List (String × SEq K) → List (String × SEq K) → Except String (List (String × SEq K))
  | [], acc => .ok acc
  | (n, e) :: rest, acc => if X.lookup n = some e.expr.rows then fillEq X rest (dictSet acc n e) else .error "Exception"

theorem dictSet_map {α β : Type} (g : α → β) (d : List (String × α)) (n : String) (a : α) :
    dictSet (d.map fun e => (e.1, g e.2)) n (g a) = (dictSet d n a).map fun e => (e.1, g e.2) := by
  unfold dictSet
  have : (d.map fun e => (e.1, g e.2)).any (fun e => e.1 = n) = d.any (fun e => e.1 = n) := by rw [List.any_map]; rfl
  rw [this]
  split
  · rw [List.map_map, List.map_map]
    apply List.map_congr_left
    intro e _
    simp only [Function.comp]
    split_ifs <;> rfl
  · simp

theorem lookup_map {α β : Type} (g : α → β) (d : List (String × α)) (n : String) : (d.map fun e => (e.1, g e.2)).lookup n = (d.lookup n).map g := by
  induction d with
  | nil => rfl
  | cons e d ih =>
    rw [List.map_cons, lookup_cons_ite, lookup_cons_ite, ih]
    split_ifs <;> rfl

theorem full_rows [Add K] (e : SEq K) : e.full.rows = e.expr.rows := by
  unfold SEq.full
  cases e.noise <;> rfl

theorem fillRhs_eq [Add K] (X : Layout) (l acc : List (String × SEq K)) :
    fillRhs X (l.map fun e => (e.1, e.2.full)) (acc.map fun e => (e.1, e.2.full)) = (fillEq X l acc).map fun R => R.map fun e => (e.1, e.2.full) := by
  induction l generalizing acc with
  | nil => rfl
  | cons e l ih =>
    obtain ⟨n, e⟩ := e
    simp only [List.map_cons, fillRhs, fillEq, full_rows]
    split_ifs
    · rw [← ih, ← dictSet_map SEq.full]
    · rfl

theorem rhsLoop_eq (B : SBuilder K) (X : Layout) (l acc : List (String × SEq K)) :
    rhsLoop X (l.map fun e => (e.1, denoteEq B e.2)) (acc.map fun e => (e.1, denoteEq B e.2)) =
      (fillEq X l acc).map fun R => R.map fun e => (e.1, denoteEq B e.2) := by
  induction l generalizing acc with
  | nil => rfl
  | cons e l ih =>
    obtain ⟨n, e⟩ := e
    simp only [List.map_cons, rhsLoop, fillEq]
    have : (denoteEq B e).expr.rows = e.expr.rows := rfl
    rw [this]
    split_ifs
    · rw [← ih, ← dictSet_map (denoteEq B)]
    · rfl

theorem mem_dictSet {α : Type} (d : List (String × α)) (n : String) (a : α) (e : String × α) (he : e ∈ dictSet d n a) : e = (n, a) ∨ e ∈ d := by
  unfold dictSet at he
  split at he
  · obtain ⟨q, hq, rfl⟩ := List.mem_map.1 he
    split_ifs
    · exact .inl rfl
    · exact .inr hq
  · rcases List.mem_append.1 he with h | h
    · exact .inr h
    · exact .inl (List.mem_singleton.1 h)

theorem fillEq_ok (X : Layout) (l acc R : List (String × SEq K)) (h : fillEq X l acc = .ok R) (ha : ∀ e ∈ acc, X.lookup e.1 = some e.2.expr.rows) :
    ∀ e ∈ R, (e ∈ l ∨ e ∈ acc) ∧ X.lookup e.1 = some e.2.expr.rows := by
  induction l generalizing acc with
  | nil =>
    simp only [fillEq, Except.ok.injEq] at h
    subst h
    exact fun e he => ⟨.inr he, ha e he⟩
  | cons q l ih =>
    obtain ⟨n, q⟩ := q
    simp only [fillEq] at h
    split at h
    · rename_i hq
      intro e he
      obtain ⟨h1, h2⟩ := ih (dictSet acc n q) h (by
        intro e he
        rcases mem_dictSet _ _ _ _ he with rfl | he
        · exact hq
        · exact ha e he) e he
      refine ⟨?_, h2⟩
      rcases h1 with h1 | h1
      · exact .inl (List.mem_cons_of_mem _ h1)
      · rcases mem_dictSet _ _ _ _ h1 with rfl | h1
        · exact .inl List.mem_cons_self
        · exact .inr h1
    · simp at h

theorem mkFun_ok (inputs : List Nat) (exprs : List (SExpr K)) (h : ∀ e ∈ exprs, ∀ s ∈ e.syms, s ∈ inputs) :
    mkFun inputs exprs = .ok fun args => exprs.flatMap fun e => (List.range e.rows).map (e.eval (argEnv inputs args)) := if_pos h

theorem master_injective (B : SBuilder K) : Function.Injective B.master := fun _ _ h => master_inj h

theorem distinct_denote (B : SBuilder K) : (denote B).Distinct ↔ B.Distinct := by
  unfold Builder.Distinct SBuilder.Distinct denote
  simp only [List.map_map, Function.comp_def]

/-- `setup` of the model with symbols is `setup` of the model it denotes. -/
theorem setup_denote [Add K] {B : SBuilder K} (hB : WF B) (hd : B.defaultMeas.Distinct) (dup : SBuilder K → Except String (SModel K))
    (dup' : Builder K → Except String (MFuns K)) : (B.setup dup).map SModel.funs = (denote B).setup dup' := by
  obtain ⟨hW, hden⟩ := default_denote hB
  unfold SBuilder.setup Builder.setup
  rw [← hden]
  dsimp only
  generalize B.defaultMeas = D at hd hW hden ⊢
  rw [if_pos hd, if_pos ((distinct_denote D).2 hd)]
  have h1 := fillRhs_eq (D.layout .x) D.rhs []
  have h2 := rhsLoop_eq D (D.layout .x) D.rhs []
  simp only [List.map_nil] at h1 h2
  rw [h1, show (denote D).rhs = D.rhs.map fun e => (e.1, denoteEq D e.2) from rfl, show (denote D).x = D.layout .x from rfl, h2]
  rcases hR : fillEq (D.layout .x) D.rhs [] with e | R
  · rfl
  · simp only [Except.map, bind, Except.bind]
    have hRok := fillEq_ok _ _ _ _ hR (by simp)
    have hEq : ∀ e ∈ R, EqOk D .w e.2 := by
      intro e he
      rcases (hRok e he).1 with h | h
      · exact hW.rhs e h
      · simp at h
    have hiff : (∀ s ∈ D.layout .x, ((R.map fun e => (e.1, e.2.full)).lookup s.1).isSome = true) ↔
        ∀ s ∈ D.layout .x, ((R.map fun e => (e.1, denoteEq D e.2)).lookup s.1).isSome = true := by
      constructor <;> intro h s hs <;> have := h s hs <;> rw [lookup_map, Option.isSome_map] at this ⊢ <;> exact this
    by_cases hc : ∀ s ∈ D.layout .x, ((R.map fun e => (e.1, denoteEq D e.2)).lookup s.1).isSome = true
    · rw [if_pos (hiff.2 hc), if_pos hc]
      have hlook : ∀ s ∈ D.layout .x, ∃ e, R.lookup s.1 = some e ∧ EqOk D .w e ∧ e.expr.rows = s.2 := by
        intro s hs
        have := hc s hs
        rw [lookup_map, Option.isSome_map] at this
        obtain ⟨e, he⟩ := Option.isSome_iff_exists.1 this
        have hm := lookup_mem _ _ _ he
        refine ⟨e, he, hEq _ hm, ?_⟩
        have a1 := (hRok _ hm).2
        have a2 := (lookup_eq_some_of_nodup _ (hW.names .x) s.1 s.2).2 hs
        have a3 : some s.2 = some e.expr.rows := a2.symm.trans a1
        exact (Option.some.inj a3).symm
      have hrhs : (D.rhsExprs (R.map fun e => (e.1, e.2.full))).map D.substAll = (D.layout .x).map fun s =>
          match R.lookup s.1 with
          | some e => D.substAll e.full
          | none => D.substAll (zeroExpr s.2) := by
        unfold SBuilder.rhsExprs
        rw [List.map_map]
        apply List.map_congr_left
        intro s _
        simp only [Function.comp, lookup_map]
        rcases R.lookup s.1 with _ | e <;> rfl
      rw [mkFun_ok (rhsInputs D.master), mkFun_ok (rhsInputs D.master), mkFun_ok (auxInputs D.master), mkFun_ok (measInputs D.master)]
      · dsimp only
        have hz : (D.alg.map fun e => D.substAll e.2).map SExpr.rows = D.alg.map fun e => e.2.rows := by
          rw [List.map_map]
          exact List.map_congr_left fun e he => rows_substAll hW _ (hW.alg e he)
        have hz' : rowsOf (denote D).alg = (D.alg.map fun e => e.2.rows).sum := by
          simp only [rowsOf, denote, List.map_map, Function.comp_def]; rfl
        rw [hz, hz', show (denote D).z = D.layout .z from rfl]
        split_ifs with hcz
        · simp only [pure, Except.pure, Except.ok.injEq, SModel.funs, Builder.funs]
          congr 1
          · rw [List.map_map, show (denote D).y = D.y.map fun e => (e.1, denoteEq D e.2) from rfl, List.map_map]
            congr 1
            exact List.map_congr_left fun e he => rows_full hW _ (hW.y e he)
          · rw [List.map_map, rowsOf, show (denote D).aux = D.aux.map fun e => (e.1, denoteE D e.2) from rfl, List.map_map]
            congr 1
            exact List.map_congr_left fun e he => rows_substAll hW _ (hW.aux e he)
          · funext x u z tvp p w
            rw [hrhs, List.flatMap_map]
            apply List.flatMap_congr
            intro s hs
            obtain ⟨e, he, hok, hr⟩ := hlook s hs
            rw [lookup_map, he]
            simp only [Option.map_some]
            rw [rows_full hW e hok, hr]
            exact congrArg (fun g => (List.range s.2).map g) (value_full hW e hok x u z tvp p w [] _
              (fun k => env_rhs _ (master_injective D) x u z tvp p w [] _ (by cases k <;> simp [SKind.ofM]))
              (env_rhs _ (master_injective D) x u z tvp p w [] _ (by simp)))
          · funext x u z tvp p w
            rw [List.flatMap_map, show (denote D).alg = D.alg.map fun e => (e.1, denoteE D e.2) from rfl, List.flatMap_map]
            apply List.flatMap_congr
            intro e he
            rw [rows_substAll hW _ (hW.alg e he)]
            exact congrArg (fun g => (List.range e.2.rows).map g) (value_scoped hW e.2 (hW.alg e he) x u z tvp p w [] _
              (fun k => env_rhs _ (master_injective D) x u z tvp p w [] _ (by cases k <;> simp [SKind.ofM])))
          · funext x u z tvp p
            rw [List.flatMap_map, show (denote D).aux = D.aux.map fun e => (e.1, denoteE D e.2) from rfl, List.flatMap_map]
            apply List.flatMap_congr
            intro e he
            rw [rows_substAll hW _ (hW.aux e he)]
            exact congrArg (fun g => (List.range e.2.rows).map g) (value_scoped hW e.2 (hW.aux e he) x u z tvp p [] [] _
              (fun k => env_aux _ (master_injective D) x u z tvp p [] [] _))
          · funext x u z tvp p v
            rw [List.flatMap_map, show (denote D).y = D.y.map fun e => (e.1, denoteEq D e.2) from rfl, List.flatMap_map]
            apply List.flatMap_congr
            intro e he
            rw [rows_full hW _ (hW.y e he)]
            exact congrArg (fun g => (List.range e.2.expr.rows).map g) (value_full hW e.2 (hW.y e he) x u z tvp p [] v _
              (fun k => env_meas _ (master_injective D) x u z tvp p [] v _ (by cases k <;> simp [SKind.ofM]))
              (env_meas _ (master_injective D) x u z tvp p [] v _ (by simp)))
        · rfl
      · intro e he s hs
        obtain ⟨q, hq, rfl⟩ := List.mem_map.1 he
        rcases syms_full hW _ (hW.y q hq) s hs with ⟨k, rfl⟩ | rfl
        · exact master_mem_meas _ _ (by cases k <;> simp [SKind.ofM])
        · exact master_mem_meas _ _ (by simp)
      · intro e he s hs
        obtain ⟨q, hq, rfl⟩ := List.mem_map.1 he
        obtain ⟨k, rfl⟩ := syms_scoped hW _ (hW.aux q hq) s hs
        exact master_mem_aux _ _
      · intro e he s hs
        obtain ⟨q, hq, rfl⟩ := List.mem_map.1 he
        obtain ⟨k, rfl⟩ := syms_scoped hW _ (hW.alg q hq) s hs
        exact master_mem_rhs _ _ (by cases k <;> simp [SKind.ofM])
      · intro e he s hs
        rw [hrhs] at he
        obtain ⟨q, hq, rfl⟩ := List.mem_map.1 he
        obtain ⟨e, he, hok, hr⟩ := hlook q hq
        rw [he] at hs
        rcases syms_full hW _ hok s hs with ⟨k, rfl⟩ | rfl
        · exact master_mem_rhs _ _ (by cases k <;> simp [SKind.ofM])
        · exact master_mem_rhs _ _ (by simp)
    · rw [if_neg (fun h => hc (hiff.1 h)), if_neg hc]

/-! ### The theorems -/

theorem ScopedOps.all {B B' : SBuilder K} (hB : WF B) (ops : List (SOp K)) (hs : ScopedOps B ops) (h : B.runOps ops = .ok B') :
    ∀ op ∈ ops, ScopedOp B' op := by
  induction ops generalizing B with
  | nil => simp
  | cons op ops ih =>
    simp only [SBuilder.runOps] at h
    rcases he : B.exec op with e | B1
    · simp [he] at h
    · rw [he] at h
      obtain ⟨w1, w2, w3⟩ := (exec_denote hB op hs.1).1 B1 he
      obtain ⟨i1, i2, i3⟩ := runOps_denote w1 ops (hs.2 B1 he) h
      intro o ho
      rcases List.mem_cons.1 ho with rfl | ho
      · have hm : ∀ k a, a ∈ B.vars k → a ∈ B'.vars k := fun k a ha => i2 k a (w3 k a ha)
        have h1 := hs.1
        cases o with
        | setVar t n r => trivial
        | setExpr n e => exact Scoped.mono hm h1
        | setMeas n e b => exact Scoped.mono hm h1
        | setRhs n e b => exact Scoped.mono hm h1
        | setAlg n e => exact Scoped.mono hm h1
      · exact ih w1 (hs.2 B1 he) h o ho

/-- the expression of a call -/
def opExpr : SOp K → Option (SExpr K)
  | .setVar _ _ _ => none
  | .setExpr _ e => some e
  | .setMeas _ e _ => some e
  | .setRhs _ e _ => some e
  | .setAlg _ e => some e

/-- Operations use only the entries their arguments have. -/
def Proper : SExpr K → Prop
  | .sym _ _ => True
  | .op r _ f args => (∀ j, Proper (args j)) ∧ ∀ a b, (∀ j i, i < (args j).rows → a j i = b j i) → ∀ i < r, f a i = f b i

open Spec

theorem uses_declared {SB : SBuilder K} (hW : WF SB) (mops : List (MOp K)) (h : ({} : Builder K).runOps mops = .ok (denote SB)) (e : SExpr K)
    (he : Scoped SB e) (hp : Proper e) : UsesDeclared mops (denoteE SB e) := by
  have hdecl : ∀ (k : MKind) (n : String) (r i : Nat), i < r → (n, r) ∈ SB.layout (.ofM k) → (n, r) ∈ declared k mops := by
    intro k n r i hi hm
    have h1 := (runOps_fields mops {} _ h).1 k
    have h2 : (denote SB).layout k = SB.layout (.ofM k) := by cases k <;> rfl
    rw [h2] at h1
    rw [h1] at hm
    rcases List.mem_append.1 hm with hm | hm
    · exfalso
      cases k <;> simp [Builder.layout] at hm <;> omega
    · exact hm
  intro v v' hv
  unfold denoteE
  simp only
  induction e with
  | sym s r =>
    intro i hi
    obtain ⟨k, n, hm⟩ := he (s, r) (by simp [SExpr.leaves])
    have hr : i < r := hi
    have e1 := env_of_mem hW v hm
    have e2 := env_of_mem hW v' hm
    simp only [SExpr.eval]
    simp only at e1 e2
    rw [e1, e2]
    exact hv k n r (hdecl k n r i hr (List.mem_map.2 ⟨_, hm, rfl⟩)) i hr
  | op r n f args ih =>
    intro i hi
    simp only [SExpr.eval]
    refine hp.2 _ _ ?_ i hi
    intro j i hi
    refine ih j ?_ (hp.1 j) i hi
    intro l hl
    exact he l (List.mem_flatten.2 ⟨_, List.mem_ofFn.2 ⟨j, rfl⟩, hl⟩)

end DoMpc.Sym

namespace DoMpc.Sym
open Spec
variable {K : Type} [AddMonoid K]

/-- **C89, the substitution of symbols is right.**  For every history of configuration calls whose expressions are made of variables declared before,
without repeated names: the calls describe the model in which every expression is the function of the values of the variables, and `setup`, which
introduces new symbols and substitutes one variable after the other, succeeds exactly when it should and creates exactly the functions of that model
(so `C27_setup_iff`, `C27_functions`, `C30_state_feedback` hold for it). -/
theorem C89_setup (ops : List (SOp K)) (SB : SBuilder K) (h : SBuilder.init.runOps ops = .ok SB) (hs : ScopedOps SBuilder.init ops)
    (hd : DistinctNames (ops.map (denoteOp SB))) (dup : SBuilder K → Except String (SModel K)) (dup' : Builder K → Except String (MFuns K)) :
    ({} : Builder K).runOps (ops.map (denoteOp SB)) = .ok (denote SB) ∧ (SB.setup dup).map SModel.funs = (denote SB).setup dup' := by
  obtain ⟨h1, h2, h3⟩ := runOps_denote WF.init ops hs h
  rw [denote_init] at h3
  refine ⟨h3, setup_denote h1 ?_ dup dup'⟩
  have := distinct_of_ops _ _ h3 hd
  rw [← (default_denote h1).2] at this
  exact (distinct_denote _).1 this

/-- **C89, C27: the functions of a set-up model, with symbols.** -/
theorem C89_functions (ops : List (SOp K)) (SB : SBuilder K) (h : SBuilder.init.runOps ops = .ok SB) (hs : ScopedOps SBuilder.init ops)
    (hp : ∀ op ∈ ops, ∀ e, opExpr op = some e → Proper e)
    (hd : DistinctNames (ops.map (denoteOp SB))) (dup : SBuilder K → Except String (SModel K)) (M : SModel K) (hM : SB.setup dup = .ok M)
    (val : MVal K) (w v : String → Nat → K) :
    let mops := ops.map (denoteOp SB)
    let X := (declared .x mops).flat (val .x); let U := (declared .u mops).flat (val .u); let Z := (declared .z mops).flat (val .z)
    let T := (declared .tvp mops).flat (val .tvp); let P := (declared .p mops).flat (val .p)
    let W := (noiseOf (rhsCalls mops)).flat w; let V := (noiseOf (measurements mops)).flat v
    (∀ s ∈ declared .x mops, ∃ e noise, lastRhs s.1 mops = some (e, noise) ∧
      (declared .x mops).entry (M.rhsFun [X, U, Z, T, P, W]) s.1 = (List.range s.2).map (withNoise (s.1, e, noise) val w)) ∧
    M.algFun [X, U, Z, T, P, W] = (algCalls mops).flatMap (fun c => (List.range c.2.rows).map (c.2.eval val)) ∧
    M.auxFun [X, U, Z, T, P] = 0 :: (exprCalls mops).flatMap (fun c => (List.range c.2.rows).map (c.2.eval val)) ∧
    M.measFun [X, U, Z, T, P, V] = (measurements mops).flatMap (fun c => (List.range c.2.1.rows).map (withNoise c val v)) := by
  intro mops X U Z T P W V
  obtain ⟨h1, h2⟩ := C89_setup ops SB h hs hd dup (fun _ => .error "")
  have hW := (runOps_denote WF.init ops hs h).1
  have hall := ScopedOps.all WF.init ops hs h
  have hF : (denote SB).setup (fun _ => .error "") = .ok M.funs := by rw [← h2, hM]; rfl
  have hmem : ∀ c ∈ rhsCalls mops ++ measCalls mops, UsesDeclared mops c.2.1 := by
    intro c hc
    rcases List.mem_append.1 hc with hc | hc
    · obtain ⟨o, ho, hoc⟩ := List.mem_filterMap.1 hc
      obtain ⟨so, hso, rfl⟩ := List.mem_map.1 ho
      cases so <;> simp [denoteOp] at hoc
      rename_i n e b
      subst hoc
      exact uses_declared hW mops h1 e (hall _ hso) (hp _ hso _ rfl)
    · obtain ⟨o, ho, hoc⟩ := List.mem_filterMap.1 hc
      obtain ⟨so, hso, rfl⟩ := List.mem_map.1 ho
      cases so <;> simp [denoteOp] at hoc
      rename_i n e b
      subst hoc
      exact uses_declared hW mops h1 e (hall _ hso) (hp _ hso _ rfl)
  have hmem' : ∀ c ∈ algCalls mops ++ exprCalls mops, UsesDeclared mops c.2 := by
    intro c hc
    rcases List.mem_append.1 hc with hc | hc
    · obtain ⟨o, ho, hoc⟩ := List.mem_filterMap.1 hc
      obtain ⟨so, hso, rfl⟩ := List.mem_map.1 ho
      cases so <;> simp [denoteOp] at hoc
      rename_i n e
      subst hoc
      exact uses_declared hW mops h1 e (hall _ hso) (hp _ hso _ rfl)
    · obtain ⟨o, ho, hoc⟩ := List.mem_filterMap.1 hc
      obtain ⟨so, hso, rfl⟩ := List.mem_map.1 ho
      cases so <;> simp [denoteOp] at hoc
      rename_i n e
      subst hoc
      exact uses_declared hW mops h1 e (hall _ hso) (hp _ hso _ rfl)
  obtain ⟨f1, f2, f3, f4, -⟩ := C27_functions mops (denote SB) h1 hd (fun _ => .error "") M.funs hF hmem hmem' val w v
  exact ⟨f1, f2, f3, f4⟩

/-! ### Expressions and handles after `setup` -/

/-- The expressions that the model gives (`model._rhs`, …) are made of the model's symbols and evaluate, for vectors of the right sizes, to its functions. -/
def Represents (inputs : List Nat) (sizes : List Nat) (exprs : List (SExpr K)) (f : List (List K) → List K) : Prop :=
  ∃ g, mkFun inputs exprs = .ok g ∧ ∀ args, args.map List.length = sizes → g args = f args

/-- sizes of the arguments of `rhsFun` and `algFun` -/
def rhsSizes (L : SKind → Layout) : List Nat := [(L .x).size, (L .u).size, (L .z).size, (L .tvp).size, (L .p).size, (L .w).size]
/-- sizes of the arguments of `auxFun` -/
def auxSizes (L : SKind → Layout) : List Nat := [(L .x).size, (L .u).size, (L .z).size, (L .tvp).size, (L .p).size]
/-- sizes of the arguments of `measFun` -/
def measSizes (L : SKind → Layout) : List Nat := [(L .x).size, (L .u).size, (L .z).size, (L .tvp).size, (L .p).size, (L .v).size]

/-- A usable model: different symbols for the structures, and expressions that represent the functions. -/
structure Coherent (M : SModel K) : Prop where
  inj : Function.Injective M.master
  rhs : Represents (rhsInputs M.master) (rhsSizes M.layout) M.rhs M.rhsFun
  alg : Represents (rhsInputs M.master) (rhsSizes M.layout) M.alg M.algFun
  aux : Represents (auxInputs M.master) (auxSizes M.layout) M.aux M.auxFun
  y : Represents (measInputs M.master) (measSizes M.layout) M.y M.measFun

theorem setup_model {B : SBuilder K} (hd : B.defaultMeas.Distinct) (dup : SBuilder K → Except String (SModel K)) (M : SModel K)
    (h : B.setup dup = .ok M) : M.layout = B.defaultMeas.layout ∧ M.master = B.defaultMeas.master ∧
      mkFun (rhsInputs M.master) M.rhs = .ok M.rhsFun ∧ mkFun (rhsInputs M.master) M.alg = .ok M.algFun ∧
      mkFun (auxInputs M.master) M.aux = .ok M.auxFun ∧ mkFun (measInputs M.master) M.y = .ok M.measFun := by
  unfold SBuilder.setup at h
  dsimp only at h
  rw [if_pos hd] at h
  simp only [bind, Except.bind] at h
  split at h
  · simp at h
  · split at h
    · split at h
      · simp at h
      · split at h
        · simp at h
        · split at h
          · simp at h
          · split at h
            · simp at h
            · rename_i h1 _ _ h2 _ _ h3 _ _ h4
              split at h
              · simp only [pure, Except.pure, Except.ok.injEq] at h
                subst h
                exact ⟨rfl, rfl, h1, h2, h3, h4⟩
              · simp at h
    · simp at h

/-- **C89: the expressions of a set-up model represent its functions.** -/
theorem C89_coherent {B : SBuilder K} (hd : B.defaultMeas.Distinct) (dup : SBuilder K → Except String (SModel K)) (M : SModel K)
    (h : B.setup dup = .ok M) : Coherent M := by
  obtain ⟨h1, h2, h3, h4, h5, h6⟩ := setup_model hd dup M h
  exact ⟨h2 ▸ master_injective _, ⟨_, h3, fun _ _ => rfl⟩, ⟨_, h4, fun _ _ => rfl⟩, ⟨_, h5, fun _ _ => rfl⟩, ⟨_, h6, fun _ _ => rfl⟩⟩

theorem syms_again (M : SModel K) (σ : Nat → SKind × String) (e : SExpr K) (s : Nat) (hs : s ∈ (M.again σ e).syms) :
    ∃ t ∈ e.syms, s = M.master (σ t).1 := by
  induction e with
  | sym t r =>
    refine ⟨t, mem_syms_sym.2 rfl, ?_⟩
    exact (syms_entry _ _ _ _).1 hs
  | op r n f args ih =>
    obtain ⟨j, hj⟩ := mem_syms_op.1 hs
    obtain ⟨t, ht, h⟩ := ih j hj
    exact ⟨t, mem_syms_op.2 ⟨j, ht⟩, h⟩

theorem eval_again (M : SModel K) (σ : Nat → SKind × String) (e : SExpr K) (ρ : Nat → Nat → K) :
    (M.again σ e).eval ρ = e.eval fun s => (M.exported (σ s).1 (σ s).2).eval ρ := by
  induction e with
  | sym t r => rfl
  | op r n f args ih =>
    simp only [SModel.again, SExpr.eval]
    congr 1
    funext j
    exact ih j

theorem rows_again (M : SModel K) (σ : Nat → SKind × String) (e : SExpr K) (h : ∀ l ∈ e.leaves, (M.layout (σ l.1).1).lookup (σ l.1).2 = some l.2) :
    (M.again σ e).rows = e.rows := by
  cases e with
  | sym s r =>
    have := h (s, r) (by simp [SExpr.leaves])
    simp only [SModel.again, SModel.exported, entryExpr, SExpr.rows] at this ⊢
    rw [this]; rfl
  | op => rfl

/-- **C89: variables can be used after `setup`.**  Let an expression be written with the objects that `set_variable` returned (`σ` says which variable
each symbol of `e` stands for, with its size) and be evaluated after `setup`.  A function of `_x, _u, _z, _tvp, _p` can be made of it, and its value at
every vector is that of `e` with the entries of the vectors of the variables. -/
theorem C89_handles (M : SModel K) (hM : Coherent M) (e : SExpr K) (σ : Nat → MKind × String)
    (hσ : ∀ l ∈ e.leaves, (M.layout (.ofM (σ l.1).1)).lookup (σ l.1).2 = some l.2) :
    ∃ g, mkFun (auxInputs M.master) [M.again (fun s => (.ofM (σ s).1, (σ s).2)) e] = .ok g ∧ ∀ x u z tvp p : List K,
      g [x, u, z, tvp, p] = (List.range e.rows).map
        (e.eval fun s i => ((M.layout (.ofM (σ s).1)).entry (argOf x u z tvp p [] [] (.ofM (σ s).1)) (σ s).2).getD i 0) := by
  refine ⟨_, mkFun_ok _ _ ?_, ?_⟩
  · intro e' he' s hs
    rw [List.mem_singleton.1 he'] at hs
    obtain ⟨t, -, rfl⟩ := syms_again _ _ _ _ hs
    exact master_mem_aux _ _
  · intro x u z tvp p
    simp only [List.flatMap_cons, List.flatMap_nil, List.append_nil]
    rw [rows_again M _ e hσ, eval_again]
    congr 2
    funext s
    exact eval_entry _ _ _ _ _ (env_aux _ hM.inj x u z tvp p [] [] _)

/-- **C89: an expression formed before `setup` is useless afterwards.**  Only the objects returned by `set_variable` are redirected: an expression that was
formed of them before `setup` - also what `set_expression` and `set_meas` returned, or `model.x['name']` queried before `setup` - keeps the old
symbols, and no function of the model's variables can be made of it. -/
theorem C89_derived_refused {B : SBuilder K} (hW : WF B) (hd : B.defaultMeas.Distinct) (dup : SBuilder K → Except String (SModel K))
    (M : SModel K) (h : B.setup dup = .ok M) (e : SExpr K) (k : SKind) (a : SVar) (ha : a ∈ B.defaultMeas.vars k) (he : a.id ∈ e.syms)
    (inputs : List Nat) (hi : ∀ s ∈ inputs, ∃ k, s = M.master k) : mkFun inputs [e] = .error "RuntimeError" := by
  obtain ⟨-, h2, -⟩ := setup_model hd dup M h
  unfold mkFun
  rw [if_neg]
  intro hall
  obtain ⟨k', hk'⟩ := hi _ (hall e (List.mem_singleton.2 rfl) _ he)
  have := (default_denote hW).1.fresh k a ha
  rw [h2, SBuilder.master] at hk'
  omega

/-! ### Pickling -/

/-- **C89: what can be pickled.** -/
theorem C89_getstate (mx : Bool) (M : Option (SModel K)) : (∃ S, getState mx M = .ok S) ↔ mx = false ∧ M.isSome = true := by
  unfold getState
  cases mx <;> cases M <;> simp

theorem represents_call (m : SKind → Nat) (hm : Function.Injective m) (inputs : (SKind → Nat) → List Nat) (ks : List SKind)
    (hin : inputs m = ks.map m) (hks : ks.Nodup) (sz : SKind → Nat) (f : List (List K) → List K) (rows : Nat)
    (hf : ∀ args, args.map List.length = ks.map sz → (f args).length = rows) :
    Represents (inputs m) (ks.map sz) [callFun f rows (ks.map fun k => (m k, sz k))] f := by
  refine ⟨_, mkFun_ok _ _ ?_, ?_⟩
  · intro e he s hs
    rw [List.mem_singleton.1 he] at hs
    obtain ⟨j, hj⟩ := mem_syms_op.1 hs
    rw [mem_syms_sym.1 hj, hin]
    exact List.mem_map.2 ⟨_, List.getElem_mem (by simpa using j.2), by simp⟩
  · intro args hargs
    have hl : args.length = ks.length := by simpa using congrArg List.length hargs
    simp only [List.flatMap_cons, List.flatMap_nil, List.append_nil, callFun, SExpr.rows, SExpr.eval]
    have hargs' : (List.ofFn fun j : Fin (ks.map fun k => (m k, sz k)).length =>
        (List.range (ks.map fun k => (m k, sz k))[j].2).map (argEnv (inputs m) args (ks.map fun k => (m k, sz k))[j].1)) = args := by
      apply List.ext_getElem
      · simp [hl]
      · intro j h1 h2
        have hj : j < ks.length := by simpa using h1
        have hsz : sz ks[j] = args[j].length := by
          have := congrArg (fun l => l[j]?) hargs
          simp [h2, hj] at this
          exact this.symm
        simp only [List.getElem_ofFn, Fin.getElem_fin, List.getElem_map]
        apply List.ext_getElem
        · simp [hsz]
        · intro i h3 h4
          simp only [List.getElem_map, List.getElem_range, argEnv]
          have hlook : ((inputs m).zip args).lookup (m ks[j]) = some args[j] := by
            rw [hin]
            apply (lookup_eq_some_of_nodup _ _ _ _).2
            · rw [List.mem_iff_getElem]
              exact ⟨j, by simp [hj, hl], by simp⟩
            · rw [show ((ks.map m).zip args).map (·.1) = ks.map m from List.map_fst_zip (by simp [hl])]
              exact hks.map hm
          rw [hlook]
          simp [List.getD_eq_getElem?_getD, h4]
    rw [hargs']
    apply List.ext_getElem
    · simp [hf args hargs]
    · intro i h1 h2
      simp [List.getD_eq_getElem?_getD, h2]

theorem represents_length {inputs sizes : List Nat} {exprs : List (SExpr K)} {f : List (List K) → List K} (h : Represents inputs sizes exprs f)
    (args : List (List K)) (ha : args.map List.length = sizes) : (f args).length = (exprs.map SExpr.rows).sum := by
  obtain ⟨g, h1, h2⟩ := h
  rw [← h2 args ha]
  unfold mkFun at h1
  split at h1
  · simp only [Except.ok.injEq] at h1
    subst h1
    simp [List.length_flatMap]
  · simp at h1

/-- **C89: loading a pickled model.**  The loaded model has the same names, sizes, dimensions and functions, and its expressions are made of its own new
symbols and represent the functions. -/
theorem C89_setstate (next : Nat) (M : SModel K) (hM : Coherent M) :
    Coherent (setState next M) ∧ (setState next M).funs = M.funs ∧ (setState next M).layout = M.layout ∧
    ∀ k, (setState next M).master k = next + k.idx := by
  have hinj : Function.Injective (setState next M).master := by
    intro k k' h
    simp only [setState] at h
    cases k <;> cases k' <;> simp [SKind.idx] at h ⊢
  refine ⟨⟨hinj, ?_, ?_, ?_, ?_⟩, ?_, rfl, fun _ => rfl⟩
  · exact represents_call (setState next M).master hinj rhsInputs [.x, .u, .z, .tvp, .p, .w] rfl (by decide) (fun k => (M.layout k).size) M.rhsFun _
      (fun args ha => represents_length hM.rhs args ha)
  · exact represents_call (setState next M).master hinj rhsInputs [.x, .u, .z, .tvp, .p, .w] rfl (by decide) (fun k => (M.layout k).size) M.algFun _
      (fun args ha => represents_length hM.alg args ha)
  · exact represents_call (setState next M).master hinj auxInputs [.x, .u, .z, .tvp, .p] rfl (by decide) (fun k => (M.layout k).size) M.auxFun _
      (fun args ha => represents_length hM.aux args ha)
  · exact represents_call (setState next M).master hinj measInputs [.x, .u, .z, .tvp, .p, .v] rfl (by decide) (fun k => (M.layout k).size) M.measFun _
      (fun args ha => represents_length hM.y args ha)
  · simp [SModel.funs, setState, callFun, SExpr.rows]

/-- … any number of times. -/
theorem C89_setstate_iterate (nexts : List Nat) (M : SModel K) (hM : Coherent M) :
    Coherent (nexts.foldl (fun M n => setState n M) M) ∧ (nexts.foldl (fun M n => setState n M) M).funs = M.funs := by
  induction nexts generalizing M with
  | nil => exact ⟨hM, rfl⟩
  | cons n nexts ih =>
    obtain ⟨h1, h2, -⟩ := C89_setstate n M hM
    obtain ⟨i1, i2⟩ := ih _ h1
    exact ⟨i1, i2.trans h2⟩

/-- **C89: a loaded model is not interchangeable with the original.**  An expression of the original model is refused by the loaded one. -/
theorem C89_other_model_refused (next : Nat) (M : SModel K) (hnext : ∀ k, M.master k < next) (e : SExpr K) (k : SKind) (he : M.master k ∈ e.syms)
    (inputs : List Nat) (hi : ∀ s ∈ inputs, ∃ k, s = (setState next M).master k) : mkFun inputs [e] = .error "RuntimeError" := by
  unfold mkFun
  rw [if_neg]
  intro hall
  obtain ⟨k', hk'⟩ := hi _ (hall e (List.mem_singleton.2 rfl) _ he)
  have := hnext k
  simp only [setState] at hk'
  omega

/-! ### Queries -/

/-- **C89: several variables at once.**  `model[n1, n2, …]` gives `[model[n1], model[n2], …]` unless the measurement noise `v` is among them. -/
theorem C89_tuple_partial {α : Type} (get : String → α) (ns : List String) (h : ∀ n ∈ ns, n ∈ attributes) (hv : "v" ∉ ns) :
    ∃ vs, getTuple get ns = .ok vs ∧ ns.map (getOne get) = vs.map .ok := by
  induction ns with
  | nil => exact ⟨[], rfl, rfl⟩
  | cons n ns ih =>
    obtain ⟨vs, h1, h2⟩ := ih (fun m hm => h m (List.mem_cons_of_mem _ hm)) (fun hm => hv (List.mem_cons_of_mem _ hm))
    have hn := h n List.mem_cons_self
    have hn' : n ∈ tupleNames := by
      have hne : n ≠ "v" := fun e => hv (e ▸ List.mem_cons_self)
      simp only [attributes, tupleNames, List.mem_cons, List.not_mem_nil, or_false] at hn ⊢
      tauto
    refine ⟨get n :: vs, ?_, ?_⟩
    · simp only [getTuple, if_pos hn', getOne, if_pos hn, h1, bind, Except.bind]; rfl
    · simp [getOne, hn, h2]

/-- **C89 fails for `v`.**  `model['v']` works, `model['x', 'v']` raises. -/
theorem C89_fails_tuple {α : Type} (get : String → α) :
    getOne get "v" = .ok (get "v") ∧ ∀ ns, "v" ∈ ns → (∀ n ∈ ns, n ∈ attributes) → getTuple get ns = .error "AssertionError" := by
  refine ⟨by simp [getOne, attributes], ?_⟩
  intro ns
  induction ns with
  | nil => simp
  | cons n ns ih =>
    intro hv ha
    by_cases hn : n = "v"
    · subst hn
      simp [getTuple, tupleNames]
    · have hv' : "v" ∈ ns := by
        rcases List.mem_cons.1 hv with h | h
        · exact absurd h.symm hn
        · exact h
      have hna := ha n List.mem_cons_self
      have hn' : n ∈ tupleNames := by
        simp only [attributes, tupleNames, List.mem_cons, List.not_mem_nil, or_false] at hna ⊢
        tauto
      simp only [getTuple, if_pos hn', getOne, if_pos hna, ih hv' fun m hm => ha m (List.mem_cons_of_mem _ hm), bind, Except.bind]

/-! ### An example -/

/-- one entry of an argument -/
def addE (a b : SExpr ℤ) : SExpr ℤ := .op a.rows 2 (fun v i => v 0 i + v 1 i) (fun j => if j = 0 then a else b)

/-- two states (symbols 8, 9), an input (10), one with noise (symbol 12) -/
def exOps : List (SOp ℤ) :=
  [.setVar "_x" "a" 1, .setVar "_x" "b" 2, .setVar "_u" "q" 1, .setExpr "cost" (addE (.sym 8 1) (.sym 10 1)),
   .setRhs "a" (addE (.sym 8 1) (.sym 10 1)) true, .setRhs "b" (.sym 9 2) false]

/-- the builder -/
def exSB : SBuilder ℤ := match SBuilder.init.runOps exOps with | .ok B => B | .error _ => SBuilder.init

/-- the model -/
def exModel : Except String (SModel ℤ) := exSB.setup fun _ => .error "dup"

example : (match exModel with | .ok M => M.rhsFun [[1, 2, 3], [10], [], [], [], [100]] | .error _ => []) = [111, 2, 3] := by decide +kernel
example : (match exModel with | .ok M => M.auxFun [[1, 2, 3], [10], [], [], []] | .error _ => []) = [0, 11] := by decide +kernel
example : (match exModel with | .ok M => M.measFun [[1, 2, 3], [10], [], [], [], [5, 6, 7]] | .error _ => []) = [6, 8, 10] := by decide +kernel
/-- after loading -/
example : (match exModel with
    | .ok M => (match mkFun (rhsInputs (setState 100 M).master) (setState 100 M).rhs with
      | .ok g => g [[1, 2, 3], [10], [], [], [], [100]]
      | .error _ => [])
    | .error _ => []) = [111, 2, 3] := by decide +kernel

theorem exSB_run : SBuilder.init.runOps exOps = .ok exSB := by
  have h : (match SBuilder.init.runOps exOps with | .ok _ => true | .error _ => false) = true := by decide +kernel
  unfold exSB
  rcases hr : SBuilder.init.runOps exOps with e | B
  · simp [hr] at h
  · rfl
example : exSB.defaultMeas.Distinct := by decide +kernel
example : ScopedOps (SBuilder.init : SBuilder ℤ) exOps := by
  have sc : ∀ (B : SBuilder ℤ), (⟨"a", 8, 1⟩ : SVar) ∈ B.vars .x → (⟨"q", 10, 1⟩ : SVar) ∈ B.vars .u → Scoped B (addE (.sym 8 1) (.sym 10 1)) := by
    intro B h1 h2 l hl
    simp only [addE, SExpr.leaves, List.mem_flatten, List.mem_ofFn] at hl
    obtain ⟨_, ⟨j, rfl⟩, hl⟩ := hl
    by_cases hj : j = 0
    · simp [hj, SExpr.leaves] at hl
      subst hl
      exact ⟨.x, _, h1⟩
    · simp [hj, SExpr.leaves] at hl
      subst hl
      exact ⟨.u, _, h2⟩
  have hx : varKind "_x" = some .x := by decide +kernel
  have hu : varKind "_u" = some .u := by decide +kernel
  refine ⟨trivial, fun B1 h1 => ⟨trivial, fun B2 h2 => ⟨trivial, fun B3 h3 => ?_⟩⟩⟩
  simp only [SBuilder.exec, SBuilder.setVar, hx] at h1
  rw [if_neg (by decide)] at h1
  cases h1
  simp only [SBuilder.exec, SBuilder.setVar, hx] at h2
  rw [if_neg (by decide)] at h2
  cases h2
  simp only [SBuilder.exec, SBuilder.setVar, hu] at h3
  rw [if_neg (by decide)] at h3
  cases h3
  refine ⟨?_, fun B4 h4 => ⟨?_, fun B5 h5 => ⟨?_, fun _ _ => trivial⟩⟩⟩
  · exact sc _ (by decide) (by decide)
  · cases h4; exact sc _ (by decide) (by decide)
  · cases h4
    simp only [SBuilder.exec, SBuilder.setRhs] at h5
    rw [if_pos (by decide)] at h5
    cases h5
    intro l hl
    simp [SExpr.leaves] at hl
    subst hl
    exact ⟨.x, "b", by decide⟩

/-- **C89 fails: the expression returned by `set_meas`** contains the noise; used for an auxiliary expression it makes `setup` raise. -/
theorem C89_fails_meas_expression :
    (match (SBuilder.init : SBuilder ℤ).runOps [.setVar "_x" "a" 1, .setMeas "y" (.sym 8 1) true,
        .setExpr "e" (addE (.sym 8 1) (.sym 9 1)), .setRhs "a" (.sym 8 1) false] with
      | .ok B => (match B.setup fun _ => .error "dup" with | .ok _ => "ok" | .error e => e)
      | .error e => e) = "RuntimeError" := by decide +kernel

end DoMpc.Sym
