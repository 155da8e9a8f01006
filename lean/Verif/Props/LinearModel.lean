import Verif.Model.LinearModel
import Verif.Lemmas.Lqr
import Verif.Props.ModelBuilder

/-! # Linear models: C31 (setup and discretisation), C32 (steady states) -/
set_option linter.unusedSectionVars false
namespace DoMpc
open Matrix
section
variable {K : Type} [Field K] [LinearOrder K] [IsStrictOrderedRing K]
variable {nx nu ny : Nat}

/-! ## lemmas -/

/-- the rows of `M x + N u` -/
def affRows {r : Nat} (M : Matrix (Fin r) (Fin nx) K) (N : Matrix (Fin r) (Fin nu) K) : AffExpr K nx nu := List.ofFn fun i => ⟨M i, N i, 0⟩

theorem bget_of00 {a b : Nat} (M : Matrix (Fin a) (Fin b) K) (ha : a = 1) (hb : b = 1) (i : Fin a) (j : Fin b) : (NpMat.of M).bget 0 0 = M i j := by
  subst ha; subst hb
  have hi : i = 0 := Subsingleton.elim _ _
  have hj : j = 0 := Subsingleton.elim _ _
  rw [hi, hj]
  exact NpMat.bget_of M 0 0

theorem symX_of {r : Nat} (M : Matrix (Fin r) (Fin nx) K) : symX (NpMat.of M) = .ok (affRows M (0 : Matrix (Fin r) (Fin nu) K)) := by
  unfold symX affRows
  by_cases h : r = 1 ∧ nx = 1
  · obtain ⟨rfl, rfl⟩ := h
    rw [if_pos ⟨rfl, rfl⟩]
    refine congrArg (fun f => Except.ok (List.ofFn f)) ?_
    funext i
    congr 1
    funext j
    have hj : j = i := Subsingleton.elim _ _
    rw [hj, Pi.single_eq_same, bget_of00 M rfl rfl i i]
  · rw [if_neg h, dif_pos rfl]
    rfl

theorem symU_of {r : Nat} (M : Matrix (Fin r) (Fin nu) K) : symU (NpMat.of M) = .ok (affRows (0 : Matrix (Fin r) (Fin nx) K) M) := by
  unfold symU affRows
  by_cases h : r = 1 ∧ nu = 1
  · obtain ⟨rfl, rfl⟩ := h
    rw [if_pos ⟨rfl, rfl⟩]
    refine congrArg (fun f => Except.ok (List.ofFn f)) ?_
    funext i
    congr 1
    funext j
    have hj : j = i := Subsingleton.elim _ _
    rw [hj, Pi.single_eq_same, bget_of00 M rfl rfl i i]
  · rw [if_neg h, dif_pos rfl]
    rfl

theorem symAdd_rows {r : Nat} (M M' : Matrix (Fin r) (Fin nx) K) (N N' : Matrix (Fin r) (Fin nu) K) :
    symAdd (affRows M N) (affRows M' N') = .ok (affRows (M + M') (N + N')) := by
  unfold symAdd
  rw [if_pos (by simp [affRows])]
  congr 1
  unfold affRows
  apply List.ext_getElem
  · simp
  · intro i h1 h2
    simp [AffRow.add]
    exact ⟨rfl, rfl⟩

theorem measOf_C {r : Nat} (C : Matrix (Fin r) (Fin nx) K) : measOf (some (.of C)) none = .ok (some (affRows C (0 : Matrix (Fin r) (Fin nu) K))) := by
  simp [measOf, symX_of, Except.map]

theorem measOf_CD {r : Nat} (C : Matrix (Fin r) (Fin nx) K) (D : Matrix (Fin r) (Fin nu) K) : measOf (some (.of C)) (some (.of D)) = .ok (some (affRows C D)) := by
  simp [measOf, symX_of, symU_of, symAdd_rows, bind, Except.bind, pure, Except.pure]

theorem nextOf_AB (A : Matrix (Fin nx) (Fin nx) K) (B : Matrix (Fin nx) (Fin nu) K) : nextOf (some (.of A)) (some (.of B)) = .ok (some (affRows A B)) := by
  simp [nextOf, NpMat.shape, symX_of, symU_of, symAdd_rows, bind, Except.bind, pure, Except.pure, Except.map]

theorem slices_keys (next : AffExpr K nx nu) (states : List (String × Nat)) : ∀ o, (slices next states o).map (·.1) = states.map (·.1) := by
  induction states with
  | nil => intro o; rfl
  | cons s states ih => intro o; simp [slices, ih]

theorem lastRhs_slices (l : List (String × AffExpr K nx nu)) (next : AffExpr K nx nu) (states : List (String × Nat)) (hnd : (states.map (·.1)).Nodup) :
    ∀ p ∈ slices next states 0, lastRhs (l ++ slices next states 0) p.1 = some p.2 := by
  intro p hp
  unfold lastRhs
  rw [List.reverse_append, List.lookup_append]
  have : (slices next states 0).reverse.lookup p.1 = some p.2 := by
    rw [lookup_eq_some_of_nodup]
    · exact List.mem_reverse.2 hp
    · rw [List.map_reverse, slices_keys]; exact List.nodup_reverse.2 hnd
  rw [this]; rfl

theorem assemble_slices (l : List (String × AffExpr K nx nu)) (next : AffExpr K nx nu) (states : List (String × Nat)) : ∀ o,
    (∀ p ∈ slices next states o, lastRhs l p.1 = some p.2) → o + (states.map (·.2)).sum = next.length → assemble l states = .ok (next.drop o) := by
  induction states with
  | nil =>
    intro o _ h
    simp at h
    simp [assemble, h]
  | cons s states ih =>
    intro o hl h
    have h1 := hl (s.1, (next.drop o).take s.2) (by simp [slices])
    have h2 := ih (o + s.2) (fun p hp => hl p (by simp [slices, hp])) (by simp at h; omega)
    simp only [List.map_cons, List.sum_cons] at h
    simp only [assemble, h1, h2, Except.map]
    rw [if_pos (by simp; omega)]
    congr 1
    rw [← List.drop_drop, List.take_append_drop]

theorem eval_rows {r : Nat} (M : Matrix (Fin r) (Fin nx) K) (N : Matrix (Fin r) (Fin nu) K) (x : Vec K nx) (u : Vec K nu) :
    (affRows M N).map (fun w => w.eval x u) = List.ofFn (M *ᵥ x + N *ᵥ u) := by
  rw [affRows, List.map_ofFn]
  congr 1
  funext i
  simp [AffRow.eval, mulVec]

theorem jac_ofFn {n : Nat} (g : Fin n → AffRow K nx nu) : AffExpr.jacX (List.ofFn g) = .of (fun i => (g i).a) ∧ AffExpr.jacU (List.ofFn g) = .of (fun i => (g i).b) := by
  have key : ∀ (l : AffExpr K nx nu) (n : Nat) (h : l.length = n) (g : Fin n → AffRow K nx nu), (∀ i : Fin l.length, l.get i = g (Fin.cast h i)) →
      l.jacX = .of (fun i => (g i).a) ∧ l.jacU = .of (fun i => (g i).b) := by
    intro l n h g hg
    subst h
    constructor
    · unfold AffExpr.jacX; congr 1; funext i j; rw [hg i]; rfl
    · unfold AffExpr.jacU; congr 1; funext i j; rw [hg i]; rfl
  exact key _ n (by simp) g (fun i => by simp; rfl)

theorem jac_rows {r : Nat} (M : Matrix (Fin r) (Fin nx) K) (N : Matrix (Fin r) (Fin nu) K) :
    (affRows M N).jacX = .of M ∧ (affRows M N).jacU = .of N := jac_ofFn _

theorem stateExpr_rows : (stateExpr : AffExpr K nx nu) = affRows (1 : Matrix (Fin nx) (Fin nx) K) 0 := by
  unfold stateExpr affRows
  congr 1
  funext i
  congr 1
  funext j
  simp [Matrix.one_apply, Pi.single_apply, eq_comm]

/-- The model is the linear system `x⁺ = A x + B u` (or `ẋ`), `y = C x + D u`, in its functions and in its matrices. -/
structure LinModel.Is (m : LinModel K nx nu) (A : Matrix (Fin nx) (Fin nx) K) (B : Matrix (Fin nx) (Fin nu) K) (C : Matrix (Fin ny) (Fin nx) K)
    (D : Matrix (Fin ny) (Fin nu) K) : Prop where
  rhs : ∀ x u, m.f x u = List.ofFn (A *ᵥ x + B *ᵥ u)
  meas : ∀ x u, m.h x u = List.ofFn (C *ᵥ x + D *ᵥ u)
  sysA : m.A = .of A
  sysB : m.B = .of B
  sysC : m.C = .of C
  sysD : m.D = .of D

theorem is_rows (d : Bool) (A : Matrix (Fin nx) (Fin nx) K) (B : Matrix (Fin nx) (Fin nu) K) (C : Matrix (Fin ny) (Fin nx) K)
    (D : Matrix (Fin ny) (Fin nu) K) : (⟨d, affRows A B, affRows C D⟩ : LinModel K nx nu).Is A B C D :=
  ⟨eval_rows A B, eval_rows C D, (jac_rows A B).1, (jac_rows A B).2, (jac_rows C D).1, (jac_rows C D).2⟩

theorem setup_core (dup) (b : LinBuilder K nx nu) (d : Bool) (hn : (b.states.map (·.1)).Nodup) (hs : (b.states.map (·.2)).sum = nx) (hr : b.rhs = [])
    (A : Matrix (Fin nx) (Fin nx) K) (B : Matrix (Fin nx) (Fin nu) K) (C D : Option (NpMat K)) (y : Option (AffExpr K nx nu)) (hy : measOf C D = .ok y)
    (hmn : ("default" :: measNames b.states (addMeas b.meas y)).Nodup) :
    b.setup dup d (some (.of A)) (some (.of B)) C D =
      .ok ⟨d, affRows A B, if (addMeas b.meas y).isEmpty then stateExpr else ((addMeas b.meas y).map (·.2)).flatten⟩ := by
  have h1 := assemble_slices ([] ++ slices (affRows A B) b.states 0) (affRows A B) b.states 0 (lastRhs_slices [] _ b.states hn) (by simp [affRows, hs])
  have h2 : ((([] : List (String × AffExpr K nx nu)) ++ slices (affRows A B) b.states 0).map (·.1)).Nodup := by rw [List.nil_append, slices_keys]; exact hn
  simp only [LinBuilder.setup, LinBuilder.allRhs, hy, nextOf_AB, hr, bind, Except.bind, if_pos (And.intro h2 hmn), h1, List.drop_zero, pure, Except.pure]

/-- **C31 (setup).**  However the states are declared (distinct names; sizes adding up to `n_x`), `setup(A, B, C, D)` with matrices of the
right shapes yields the model `A x + B u`, `C x + D u`, with these matrices as `sys_A`, ….  (If `set_rhs` was called as well, the noise variables get
repeated names and the result is left to CasADi.) -/
theorem C31_setup (dup) (b : LinBuilder K nx nu) (d : Bool) (hn : (b.states.map (·.1)).Nodup) (hs : (b.states.map (·.2)).sum = nx) (hr : b.rhs = [])
    (hm : b.meas = [])
    (A : Matrix (Fin nx) (Fin nx) K) (B : Matrix (Fin nx) (Fin nu) K) (C : Matrix (Fin ny) (Fin nx) K) (D : Matrix (Fin ny) (Fin nu) K) :
    ∃ m, b.setup dup d (some (.of A)) (some (.of B)) (some (.of C)) (some (.of D)) = .ok m ∧ m.discrete = d ∧ m.Is A B C D := by
  refine ⟨_, setup_core dup b d hn hs hr A B _ _ _ (measOf_CD C D) (by simp [hm, addMeas, measNames]), rfl, ?_⟩
  simp only [addMeas, hm, List.map_cons, List.map_nil, List.nil_append, List.isEmpty_cons, Bool.false_eq_true, if_false, List.flatten_cons, List.flatten_nil, List.append_nil]
  exact is_rows d A B C D

/-- **C31 (setup without `D`)**: the measurement is `C x`. -/
theorem C31_setup_no_D (dup) (b : LinBuilder K nx nu) (d : Bool) (hn : (b.states.map (·.1)).Nodup) (hs : (b.states.map (·.2)).sum = nx) (hr : b.rhs = [])
    (hm : b.meas = [])
    (A : Matrix (Fin nx) (Fin nx) K) (B : Matrix (Fin nx) (Fin nu) K) (C : Matrix (Fin ny) (Fin nx) K) :
    ∃ m, b.setup dup d (some (.of A)) (some (.of B)) (some (.of C)) none = .ok m ∧ m.discrete = d ∧ m.Is A B C 0 := by
  refine ⟨_, setup_core dup b d hn hs hr A B _ _ _ (measOf_C C) (by simp [hm, addMeas, measNames]), rfl, ?_⟩
  simp only [addMeas, hm, List.map_cons, List.map_nil, List.nil_append, List.isEmpty_cons, Bool.false_eq_true, if_false, List.flatten_cons, List.flatten_nil, List.append_nil]
  exact is_rows d A B C 0

/-- **C31 (setup without measurement)**: the state is measured. -/
theorem C31_setup_state_feedback (dup) (b : LinBuilder K nx nu) (d : Bool) (hn : (b.states.map (·.1)).Nodup) (hs : (b.states.map (·.2)).sum = nx) (hr : b.rhs = [])
    (hm : b.meas = []) (hdef : "default" ∉ b.states.map (·.1))
    (A : Matrix (Fin nx) (Fin nx) K) (B : Matrix (Fin nx) (Fin nu) K) :
    ∃ m, b.setup dup d (some (.of A)) (some (.of B)) none none = .ok m ∧ m.discrete = d ∧ m.Is A B (1 : Matrix (Fin nx) (Fin nx) K) 0 := by
  refine ⟨_, setup_core dup b d hn hs hr A B _ _ _ rfl (by simpa [hm, addMeas, measNames] using And.intro (by simpa using hdef) hn), rfl, ?_⟩
  simp only [addMeas, hm, List.isEmpty_nil, if_true, stateExpr_rows]
  exact is_rows d A B 1 0

/-- **C31 (setup after `set_meas`)**: the measurements given before are kept, in order, and `C x + D u` is appended; whatever was passed to
`set_rhs` is overridden by `A` and `B`. -/
theorem C31_setup_appends_meas (dup) (b : LinBuilder K nx nu) (d : Bool) (hn : (b.states.map (·.1)).Nodup) (hs : (b.states.map (·.2)).sum = nx)
    (hr : b.rhs = []) (hm : ("default" :: b.meas.map (·.1) ++ ["y"]).Nodup)
    (A : Matrix (Fin nx) (Fin nx) K) (B : Matrix (Fin nx) (Fin nu) K) (C : Matrix (Fin ny) (Fin nx) K) (D : Matrix (Fin ny) (Fin nu) K) :
    ∃ m, b.setup dup d (some (.of A)) (some (.of B)) (some (.of C)) (some (.of D)) = .ok m ∧ m.discrete = d ∧
      ∀ x u, m.f x u = List.ofFn (A *ᵥ x + B *ᵥ u) ∧
        m.h x u = ((b.meas.flatMap (·.2)).map fun r => r.a ⬝ᵥ x + r.b ⬝ᵥ u + r.c) ++ List.ofFn (C *ᵥ x + D *ᵥ u) := by
  refine ⟨_, setup_core dup b d hn hs hr A B _ _ _ (measOf_CD C D) (by simpa [addMeas, measNames] using hm), rfl, fun x u => ⟨eval_rows A B x u, ?_⟩⟩
  have : (b.meas ++ [("y", affRows C D)]).isEmpty = false := by simp
  simp only [LinModel.h, addMeas, this, Bool.false_eq_true, if_false, List.map_cons, List.map_nil, List.flatten_append, List.flatMap_def, List.flatten_cons, List.flatten_nil, List.append_nil,
    List.map_append, eval_rows]
  rfl

theorem assemble_set (l : List (String × AffExpr K nx nu)) (e : String → AffExpr K nx nu) (states : List (String × Nat))
    (h : ∀ s ∈ states, l.reverse.lookup s.1 = some (e s.1) ∧ (e s.1).length = s.2) : assemble l states = .ok (states.flatMap fun s => e s.1) := by
  induction states with
  | nil => rfl
  | cons s states ih =>
    obtain ⟨h1, h2⟩ := h s (by simp)
    have h1' : lastRhs l s.1 = some (e s.1) := h1
    simp only [assemble, h1', if_pos h2, ih (fun s hs => h s (by simp [hs])), Except.map, List.flatMap_cons]

/-- **C31 (setup of equations)**: without matrices the model has the right-hand sides passed to `set_rhs` (in whatever order, one for each state) and the measurements passed to `set_meas` in their order, all states if there was none. -/
theorem C31_setup_equations (dup) (b : LinBuilder K nx nu) (d : Bool) (e : String → AffExpr K nx nu) (hone : (b.rhs.map (·.1)).Nodup)
    (hm : ("default" :: if b.meas = [] then b.states.map (·.1) else b.meas.map (·.1)).Nodup)
    (h : ∀ s ∈ b.states, (s.1, e s.1) ∈ b.rhs ∧ (e s.1).length = s.2) :
    ∃ m, b.setup dup d none none none none = .ok m ∧ m.discrete = d ∧
      ∀ x u, m.f x u = (b.states.flatMap fun s => (e s.1).map fun r => r.a ⬝ᵥ x + r.b ⬝ᵥ u + r.c) ∧
        m.h x u = if b.meas = [] then List.ofFn x else (b.meas.flatMap (·.2)).map fun r => r.a ⬝ᵥ x + r.b ⬝ᵥ u + r.c := by
  refine ⟨⟨d, b.states.flatMap fun s => e s.1, if b.meas.isEmpty then stateExpr else (b.meas.map (·.2)).flatten⟩, ?_, rfl, fun x u => ⟨?_, ?_⟩⟩
  · have h2 : ("default" :: measNames b.states b.meas).Nodup := by simpa [measNames, List.isEmpty_iff] using hm
    have h' : ∀ s ∈ b.states, b.rhs.reverse.lookup s.1 = some (e s.1) ∧ (e s.1).length = s.2 := fun s hs => ⟨by
      refine (lookup_eq_some_of_nodup _ ?_ _ _).2 (List.mem_reverse.2 (h s hs).1)
      rw [List.map_reverse]; exact List.nodup_reverse.2 hone, (h s hs).2⟩
    simp only [LinBuilder.setup, LinBuilder.allRhs, measOf, nextOf, bind, Except.bind, pure, Except.pure, assemble_set b.rhs e b.states h', addMeas, if_pos (And.intro hone h2)]
    rfl
  · simp only [LinModel.f, List.map_flatMap]; rfl
  · by_cases hm : b.meas = []
    · simp only [LinModel.h, hm, List.isEmpty_nil, if_true, stateExpr_rows, eval_rows]; simp
    · rw [if_neg hm]
      simp only [LinModel.h, List.isEmpty_iff, if_neg hm, List.flatMap_def]; rfl

/-- Two states, set in the other order; the model is set up and `x⁺ = (x₀ + x₁, u + 1)`. -/
example (dup) : ∃ m, (LinBuilder.setup (nx := 2) (nu := 1) (K := ℚ) dup { states := [("a", 1), ("b", 1)], rhs := [("b", [⟨![0, 0], ![1], 1⟩]), ("a", [⟨![1, 1], ![0], 0⟩])], meas := [("m", [⟨![2, 0], ![0], 0⟩])] } true none none none none) = .ok m ∧
    ∀ x u, m.f x u = [x 0 + x 1, u 0 + 1] ∧ m.h x u = [2 * x 0] := by
  obtain ⟨m, h1, -, h2⟩ := C31_setup_equations (K := ℚ) (nx := 2) (nu := 1) dup { states := [("a", 1), ("b", 1)], rhs := [("b", [⟨![0, 0], ![1], 1⟩]), ("a", [⟨![1, 1], ![0], 0⟩])], meas := [("m", [⟨![2, 0], ![0], 0⟩])] } true
      (fun s => if s = "a" then [⟨![1, 1], ![0], 0⟩] else [⟨![0, 0], ![1], 1⟩]) (by decide) (by simp) (by simp)
  refine ⟨m, h1, fun x u => ?_⟩
  obtain ⟨h3, h4⟩ := h2 x u
  rw [h3, h4]
  simp [Matrix.vec2_dotProduct, dotProduct]

/-- **C31 fails for measurement matrices of the wrong shape**: `C` and `D` are not checked.  With two states and a scalar `D` for a `C` with two
rows, `D u` is added to every measurement; with one row of `C` and two rows of `D`, `C x` is
added to both; with a scalar `C`, every state is measured. -/
theorem C31_fails_shapes_unchecked (dup) (c₁ c₂ k : K) :
    (∃ m, (LinBuilder.setup (nx := 2) (nu := 1) dup { states := [("x", 2)] } true (some (.of (1 : Matrix (Fin 2) (Fin 2) K))) (some (.of (0 : Matrix (Fin 2) (Fin 1) K)))
        (some (.of !![c₁, 0; 0, c₂])) (some (.of !![k]))) = .ok m ∧ ∀ x u, m.h x u = [c₁ * x 0 + k * u 0, c₂ * x 1 + k * u 0]) ∧
    (∃ m, (LinBuilder.setup (nx := 2) (nu := 1) dup { states := [("x", 2)] } true (some (.of (1 : Matrix (Fin 2) (Fin 2) K))) (some (.of (0 : Matrix (Fin 2) (Fin 1) K)))
        (some (.of !![k])) none) = .ok m ∧ ∀ x u, m.h x u = [k * x 0, k * x 1]) ∧
    (∃ m, (LinBuilder.setup (nx := 2) (nu := 1) dup { states := [("x", 2)] } true (some (.of (1 : Matrix (Fin 2) (Fin 2) K))) (some (.of (0 : Matrix (Fin 2) (Fin 1) K)))
        (some (.of !![c₁, c₂])) (some (.of !![1; k]))) = .ok m ∧ ∀ x u, m.h x u = [c₁ * x 0 + c₂ * x 1 + u 0, c₁ * x 0 + c₂ * x 1 + k * u 0]) := by
  have hb : (NpMat.of !![k]).bget 0 0 = k := NpMat.bget_of !![k] 0 0
  refine ⟨?_, ?_, ?_⟩
  · have hy : measOf (nx := 2) (nu := 1) (some (.of !![c₁, 0; 0, c₂])) (some (.of !![k])) =
        .ok (some [⟨![c₁, 0], ![k], 0⟩, ⟨![0, c₂], ![k], 0⟩]) := by
      have h1 := symX_of (nu := 1) !![c₁, 0; 0, c₂]
      have h2 := symU_of (nx := 2) !![k]
      simp only [measOf, h1, h2, bind, Except.bind, pure, Except.pure, affRows, symAdd, List.length_ofFn, List.ofFn_succ, List.ofFn_zero]
      simp only [List.length_cons, List.length_nil, List.map_cons, List.map_nil, AffRow.add]
      rw [if_neg (by decide)]
      have e0 : ∀ i : Fin 2, !![c₁, 0; 0, c₂] i + (0 : Matrix (Fin 1) (Fin 2) K) 0 = !![c₁, 0; 0, c₂] i := fun i => by funext j; simp
      have e1 : ∀ i : Fin 2, (0 : Matrix (Fin 2) (Fin 1) K) i + !![k] 0 = ![k] := fun i => by funext j; simp
      rw [e0, e0, e1, e1]
      simp only [add_zero]
      rfl
    refine ⟨_, setup_core dup { states := [("x", 2)] } true (by simp) (by simp) rfl _ _ _ _ _ hy (by simp [addMeas, measNames]), fun x u => ?_⟩
    simp [LinModel.h, addMeas, AffRow.eval, dotProduct, Fin.sum_univ_two]
  · have hy : measOf (nx := 2) (nu := 1) (some (.of !![k])) none = .ok (some [⟨![k, 0], 0, 0⟩, ⟨![0, k], 0, 0⟩]) := by
      simp only [measOf, symX, NpMat.of, and_self, if_true, Except.map]
      simp only [NpMat.of] at hb
      rw [hb]
      simp only [List.ofFn_succ, List.ofFn_zero]
      congr 3 <;> [skip; congr 1] <;> congr 1 <;> funext j <;> fin_cases j <;> simp [Pi.single_apply]
    refine ⟨_, setup_core dup { states := [("x", 2)] } true (by simp) (by simp) rfl _ _ _ _ _ hy (by simp [addMeas, measNames]), fun x u => ?_⟩
    simp [LinModel.h, addMeas, AffRow.eval, dotProduct, Fin.sum_univ_two]
  · have hy : measOf (nx := 2) (nu := 1) (some (.of !![c₁, c₂])) (some (.of !![1; k])) =
        .ok (some [⟨![c₁, c₂], ![1], 0⟩, ⟨![c₁, c₂], ![k], 0⟩]) := by
      have h1 := symX_of (nu := 1) !![c₁, c₂]
      have h2 := symU_of (nx := 2) !![1; k]
      simp only [measOf, h1, h2, bind, Except.bind, pure, Except.pure, affRows, symAdd, List.length_ofFn, List.ofFn_succ, List.ofFn_zero]
      simp only [List.length_cons, List.length_nil, List.map_cons, List.map_nil, AffRow.add]
      rw [if_neg (by decide)]
      have e0 : ∀ i : Fin 2, !![c₁, c₂] 0 + (0 : Matrix (Fin 2) (Fin 2) K) i = ![c₁, c₂] := fun i => by funext j; simp
      have e1 : ∀ i : Fin 2, (0 : Matrix (Fin 1) (Fin 1) K) 0 + !![1; k] i = !![1; k] i := fun i => by funext j; simp
      rw [e0, e0, e1, e1]
      simp only [add_zero]
      rfl
    refine ⟨_, setup_core dup { states := [("x", 2)] } true (by simp) (by simp) rfl _ _ _ _ _ hy (by simp [addMeas, measNames]), fun x u => ?_⟩
    simp [LinModel.h, addMeas, AffRow.eval, dotProduct, Fin.sum_univ_two]

/-- A builder with a vector-valued and a scalar state: the hypotheses of the theorems above hold, here with one input, three states and two
measurements. -/
example (dup) : ∃ m, (LinBuilder.setup dup { states := [("pos", 2), ("v", 1)] } true (some (.of !![1, 0, 1; 0, 1, 0; 0, 0, 1])) (some (.of !![0; 0; 1]))
    (some (.of !![1, 0, 0; 0, 1, 0])) (some (.of !![2; 3])) : Except String (LinModel ℚ 3 1)) = .ok m ∧ m.discrete = true ∧
    m.Is !![1, 0, 1; 0, 1, 0; 0, 0, 1] !![0; 0; 1] !![1, 0, 0; 0, 1, 0] !![2; 3] :=
  C31_setup dup { states := [("pos", 2), ("v", 1)] } true (by decide) (by decide) rfl rfl _ _ _ _

/-- **C31 (refusals)**: matrices of wrong shape, and `B` without `A` or `D` without `C`, are errors. -/
theorem C31_setup_refuses (dup) (b : LinBuilder K nx nu) (d : Bool) :
    (∀ A B C, A.shape ≠ (nx, nx) → ∃ e, b.setup dup d (some A) B C none = .error e) ∧
    (∀ B C, ∃ e, b.setup dup d none (some B) C none = .error e) ∧
    (∀ A B C, B.shape ≠ (nx, nu) → ∃ e, b.setup dup d A (some B) C none = .error e) ∧
    (∀ A B D, b.setup dup d A B none (some D) = .error "TypeError") := by
  have hbind : ∀ (C : Option (NpMat K)) (A B : Option (NpMat K)) (e : String), nextOf (nx := nx) (nu := nu) A B = .error e → ∃ e', b.setup dup d A B C none = .error e' := by
    intro C A B e he
    unfold LinBuilder.setup
    cases hC : measOf (nx := nx) (nu := nu) C none with
    | error e' => exact ⟨e', rfl⟩
    | ok y => exact ⟨e, by simp only [bind, Except.bind, he]⟩
  refine ⟨fun A B C h => hbind C _ _ "ValueError" (by simp [nextOf, h, bind, Except.bind]), fun B C => ?_, fun A B C h => ?_, fun A B D => rfl⟩
  · by_cases hB : B.shape = (nx, nu)
    · exact hbind C _ _ "TypeError" (by simp [nextOf, hB, bind, Except.bind])
    · exact hbind C _ _ "ValueError" (by simp [nextOf, hB, bind, Except.bind])
  · cases A with
    | none => exact hbind C _ _ "ValueError" (by simp [nextOf, h, bind, Except.bind])
    | some A =>
      by_cases hA : A.shape = (nx, nx)
      · cases hx : symX (nx := nx) (nu := nu) A with
        | error e => exact hbind C _ _ e (by simp [nextOf, hA, hx, bind, Except.bind, Except.map])
        | ok a => exact hbind C _ _ "ValueError" (by simp [nextOf, hA, hx, h, bind, Except.bind, Except.map])
      · exact hbind C _ _ "ValueError" (by simp [nextOf, hA, bind, Except.bind])

/-- **C31 (discretize), partial.**  Whatever SciPy's `cont2discrete` returns for the matrices of a continuous model, `discretize` returns the
discrete model with these `A`, `B`, `C` — and without `D`.  Missing: the feed-through term (`C31_fails_discretize_drops_D`). -/
theorem C31_discretize_partial (dup) (m : LinModel K nx nu) (states : List (String × Nat)) (hn : (states.map (·.1)).Nodup) (hs : (states.map (·.2)).sum = nx)
    (hc : m.discrete = false) (c2d) (A : Matrix (Fin nx) (Fin nx) K) (B : Matrix (Fin nx) (Fin nu) K) (C : Matrix (Fin ny) (Fin nx) K) (D : NpMat K)
    (h : c2d m.A m.B m.C m.D = .ok (.of A, .of B, .of C, D)) :
    ∃ m', m.discretize dup states c2d = .ok m' ∧ m'.discrete = true ∧ m'.Is A B C 0 := by
  unfold LinModel.discretize
  simp only [hc, Bool.false_eq_true, if_false, h, bind, Except.bind]
  exact C31_setup_no_D dup { states := states } true hn hs rfl rfl A B C

/-- A discrete model is refused. -/
theorem C31_discretize_refuses_discrete (dup) (m : LinModel K nx nu) (states) (c2d) (h : m.discrete = true) : m.discretize dup states c2d = .error "AssertionError" := by
  simp [LinModel.discretize, h]

/-- **C31 is false for systems with feed-through.**  `cont2discrete` with zero-order hold leaves `C` and `D` unchanged; nevertheless the
discretised model has the measurement `C x` instead of `C x + D u`, for every system and every input with `D u ≠ 0`. -/
theorem C31_fails_discretize_drops_D (dup) (b : LinBuilder K nx nu) (hr : b.rhs = []) (hn : (b.states.map (·.1)).Nodup) (hs : (b.states.map (·.2)).sum = nx) (hm : b.meas = [])
    (A Ad : Matrix (Fin nx) (Fin nx) K) (B Bd : Matrix (Fin nx) (Fin nu) K) (C : Matrix (Fin ny) (Fin nx) K) (D : Matrix (Fin ny) (Fin nu) K)
    (c2d) (hzoh : c2d (.of A) (.of B) (.of C) (.of D) = .ok (.of Ad, .of Bd, .of C, .of D)) (u : Vec K nu) (hu : D *ᵥ u ≠ 0) :
    ∃ m m', b.setup dup false (some (.of A)) (some (.of B)) (some (.of C)) (some (.of D)) = .ok m ∧ m.discretize dup b.states c2d = .ok m' ∧
      ∀ x, m'.h x u ≠ m.h x u := by
  obtain ⟨m, h1, h2, h3⟩ := C31_setup dup b false hn hs hr hm A B C D
  obtain ⟨m', h4, _, h6⟩ := C31_discretize_partial dup m b.states hn hs h2 c2d Ad Bd C (.of D) (by rw [h3.sysA, h3.sysB, h3.sysC, h3.sysD]; exact hzoh)
  refine ⟨m, m', h1, h4, fun x heq => hu ?_⟩
  rw [h6.meas, h3.meas, List.ofFn_inj] at heq
  simp only [zero_mulVec, add_zero] at heq
  have := congrArg (fun v => v - C *ᵥ x) heq
  simpa using this.symm

/-! ## C32 -/

theorem mulVec_of_col {a b : Nat} (M : Matrix (Fin a) (Fin b) K) (v : Vec K b) : (NpMat.of M).mul (NpMat.col v) = .ok (NpMat.col (M *ᵥ v)) :=
  NpMat.mul_of M (Matrix.of fun i (_ : Fin 1) => v i)

/-- **C32 (state from input).**  If `get_steady_state(uss = u)` returns a value, it is a column `x` with `x = A x + B u`. -/
theorem C32_state_from_input (m : LinModel K nx nu) (A : Matrix (Fin nx) (Fin nx) K) (B : Matrix (Fin nx) (Fin nu) K) (C : Matrix (Fin ny) (Fin nx) K)
    (D : Matrix (Fin ny) (Fin nu) K) (hm : m.Is A B C D) (pinv) (u : Vec K nu) (r : Option (NpMat K))
    (h : m.getSteadyState pinv none (some (.col u)) = .ok r) :
    ∃ x : Vec K nx, r = some (.col x) ∧ x = A *ᵥ x + B *ᵥ u := by
  unfold LinModel.getSteadyState at h
  rw [hm.sysA, hm.sysB] at h
  cases hd : m.discrete with
  | false => simp [hd] at h
  | true =>
    simp only [hd, Bool.not_true, Bool.false_eq_true, if_false, dite_true] at h
    split at h
    · have heye : (NpMat.eye (NpMat.of A).r : NpMat K) = .of (1 : Matrix (Fin nx) (Fin nx) K) := rfl
      rw [heye, NpMat.sub_of] at h
      simp only [bind, Except.bind] at h
      by_cases hdet : (1 - A).det ≠ 0
      · rw [NpMat.inv_of _ hdet] at h
        simp only [NpMat.mul_of] at h
        rw [mulVec_of_col] at h
        simp only [pure, Except.pure, Except.ok.injEq] at h
        refine ⟨_, h.symm, ?_⟩
        have hu : IsUnit (1 - A).det := isUnit_iff_ne_zero.2 hdet
        have : (1 - A) *ᵥ (((1 - A)⁻¹ * B) *ᵥ u) = B *ᵥ u := by
          rw [mulVec_mulVec, ← Matrix.mul_assoc, mul_nonsing_inv _ hu, Matrix.one_mul]
        rw [sub_mulVec, one_mulVec] at this
        rw [← this]; abel
      · push Not at hdet
        simp [NpMat.inv, hdet] at h
    · simp at h

/-- **C32 (input from state, square `B`).**  If `B` is square and `get_steady_state(xss = x)` returns a value, it is a column `u` with
`x = A x + B u`. -/
theorem C32_input_from_state_square (m : LinModel K nx nx) (A : Matrix (Fin nx) (Fin nx) K) (B : Matrix (Fin nx) (Fin nx) K) (C : Matrix (Fin ny) (Fin nx) K)
    (D : Matrix (Fin ny) (Fin nx) K) (hm : m.Is A B C D) (pinv) (x : Vec K nx) (r : Option (NpMat K))
    (h : m.getSteadyState pinv (some (.col x)) none = .ok r) :
    ∃ u : Vec K nx, r = some (.col u) ∧ x = A *ᵥ x + B *ᵥ u := by
  unfold LinModel.getSteadyState at h
  rw [hm.sysA, hm.sysB] at h
  cases hd : m.discrete with
  | false => simp [hd] at h
  | true =>
    have heye : (NpMat.eye (NpMat.of A).r : NpMat K) = .of (1 : Matrix (Fin nx) (Fin nx) K) := rfl
    simp only [hd, Bool.not_true, Bool.false_eq_true, if_false, ne_eq, not_true_eq_false] at h
    rw [heye, NpMat.sub_of] at h
    simp only [bind, Except.bind] at h
    by_cases hdet : B.det ≠ 0
    · rw [NpMat.inv_of _ hdet] at h
      simp only [NpMat.mul_of] at h
      rw [mulVec_of_col] at h
      simp only [pure, Except.pure, Except.ok.injEq] at h
      refine ⟨_, h.symm, ?_⟩
      have hu : IsUnit B.det := isUnit_iff_ne_zero.2 hdet
      have : B *ᵥ ((B⁻¹ * (1 - A)) *ᵥ x) = (1 - A) *ᵥ x := by
        rw [mulVec_mulVec, ← Matrix.mul_assoc, mul_nonsing_inv _ hu, Matrix.one_mul]
      rw [this, sub_mulVec, one_mulVec]; abel
    · push Not at hdet
      simp [NpMat.inv, hdet] at h

/-- **C32 (input from state, other shapes), partial.**  If `B` is not square, the returned input makes `x` a steady state whenever some
input does (`pinv` is a generalised inverse: `B B⁺ B = B`).  Missing: if no input does, a value is returned all the same
(`C32_fails_no_equilibrium`). -/
theorem C32_input_from_state_partial (m : LinModel K nx nu) (A : Matrix (Fin nx) (Fin nx) K) (B : Matrix (Fin nx) (Fin nu) K) (C : Matrix (Fin ny) (Fin nx) K)
    (D : Matrix (Fin ny) (Fin nu) K) (hm : m.Is A B C D) (hd : m.discrete = true) (hne : nx ≠ nu) (pinv) (Bp : Matrix (Fin nu) (Fin nx) K)
    (hp : pinv (.of B) = .of Bp) (hpinv : B * Bp * B = B) (x : Vec K nx) :
    ∃ u : Vec K nu, m.getSteadyState pinv (some (.col x)) none = .ok (some (.col u)) ∧ ((∃ v, x = A *ᵥ x + B *ᵥ v) → x = A *ᵥ x + B *ᵥ u) := by
  have heye : (NpMat.eye (NpMat.of A).r : NpMat K) = .of (1 : Matrix (Fin nx) (Fin nx) K) := rfl
  refine ⟨(Bp * (1 - A)) *ᵥ x, ?_, ?_⟩
  · unfold LinModel.getSteadyState
    rw [hm.sysA, hm.sysB]
    simp only [hd, Bool.not_true, Bool.false_eq_true, if_false, ne_eq, hne, not_false_eq_true, if_true]
    rw [heye, NpMat.sub_of, hp]
    simp only [bind, Except.bind, NpMat.mul_of]
    rw [mulVec_of_col]
    rfl
  · rintro ⟨v, hv⟩
    have h1 : (1 - A) *ᵥ x = B *ᵥ v := by
      rw [sub_mulVec, one_mulVec]
      nth_rw 1 [hv]
      abel
    rw [← mulVec_mulVec, h1, mulVec_mulVec, mulVec_mulVec, hpinv]
    exact hv

/-- **C32 is false where there is no equilibrium**: for two states and one input with `A = 0`, `B = (1, 0)ᵀ`, and the state set point
`(0, 1)`, `get_steady_state` returns the input 0 although no input makes this state steady. -/
theorem C32_fails_no_equilibrium : ∃ (m : LinModel ℚ 2 1) (pinv : NpMat ℚ → NpMat ℚ), m.Is 0 !![1; 0] (1 : Matrix (Fin 2) (Fin 2) ℚ) 0 ∧
    m.getSteadyState pinv (some (.col ![0, 1])) none = .ok (some (.col (n := 1) 0)) ∧
    ∀ v : Vec ℚ 1, ![0, 1] ≠ (0 : Matrix (Fin 2) (Fin 2) ℚ) *ᵥ ![0, 1] + !![1; 0] *ᵥ v := by
  have hI := is_rows (K := ℚ) (nx := 2) (nu := 1) true 0 !![1; 0] (1 : Matrix (Fin 2) (Fin 2) ℚ) 0
  refine ⟨_, fun _ => .of !![1, 0], hI, ?_, fun v hv => ?_⟩
  · obtain ⟨u, h1, _⟩ := C32_input_from_state_partial _ 0 !![1; 0] 1 0 hI rfl (by decide) (fun _ => .of !![1, 0]) !![1, 0] rfl
      (by ext i j; fin_cases i <;> fin_cases j <;> simp [Matrix.mul_apply, Fin.sum_univ_two]) ![0, 1]
    unfold LinModel.getSteadyState at h1 ⊢
    rw [hI.sysA, hI.sysB] at h1 ⊢
    have heye : (NpMat.eye (NpMat.of (0 : Matrix (Fin 2) (Fin 2) ℚ)).r : NpMat ℚ) = .of (1 : Matrix (Fin 2) (Fin 2) ℚ) := rfl
    simp only [Bool.not_true, Bool.false_eq_true, if_false, ne_eq, OfNat.ofNat_ne_one, not_false_eq_true, if_true]
    rw [heye, NpMat.sub_of]
    simp only [bind, Except.bind, NpMat.mul_of]
    rw [mulVec_of_col]
    simp only [pure, Except.pure]
    refine congrArg (fun v : Vec ℚ 1 => Except.ok (some (NpMat.col v))) ?_
    funext i
    fin_cases i
    simp
  · have := congrFun hv 1
    simp at this

/-- **C32 is false for singular `A`**: for `x⁺ = u` (`A = 0`) every input has exactly one steady state, yet `get_steady_state(uss = u)` raises,
because the rank of `A` is checked instead of the rank of `I − A`. -/
theorem C32_fails_singular_A (pinv) (u : Vec ℚ 1) : ∃ m : LinModel ℚ 1 1, m.Is 0 1 (1 : Matrix (Fin 1) (Fin 1) ℚ) 0 ∧
    m.getSteadyState pinv none (some (.col u)) = .error "ValueError" ∧ u = (0 : Matrix (Fin 1) (Fin 1) ℚ) *ᵥ u + (1 : Matrix (Fin 1) (Fin 1) ℚ) *ᵥ u := by
  have hI := is_rows (K := ℚ) (nx := 1) (nu := 1) true 0 1 (1 : Matrix (Fin 1) (Fin 1) ℚ) 0
  refine ⟨_, hI, ?_, by simp⟩
  unfold LinModel.getSteadyState
  rw [hI.sysA]
  simp

/-- With both values given `None` is returned. -/
theorem C32_both_given (m : LinModel K nx nu) (pinv) (x u : NpMat K) (hd : m.discrete = true) : m.getSteadyState pinv (some x) (some u) = .ok none := by
  simp [LinModel.getSteadyState, hd]

end
end DoMpc
