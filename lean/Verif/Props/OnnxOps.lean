import Verif.Props.Onnx
import Mathlib.Data.Matrix.Block
import Mathlib.LinearAlgebra.Matrix.Notation

/-!
# C62 — the operators compute the ONNX operators
-/
set_option linter.unusedSectionVars false
set_option linter.unusedSimpArgs false
namespace DoMpc.Onnx
open Spec

variable {m n k : Nat}

/-- **C62**: `Tanh` -/
theorem C62_tanh (A : CMat) (M : Matrix (Fin m) (Fin n) ℝ) (h : Is A M) (at' : Attrs) :
    ∃ f C, casadiOps "Tanh" = some f ∧ f [A] at' = .ok C ∧ Is C (M.map Real.tanh) := by
  refine ⟨_, _, rfl, rfl, h.1, h.2.1, fun i j => ?_⟩
  simp [CMat.map, h.2.2 i j]

/-- **C62**: `Sigmoid` -/
theorem C62_sigmoid (A : CMat) (M : Matrix (Fin m) (Fin n) ℝ) (h : Is A M) (at' : Attrs) :
    ∃ f C, casadiOps "Sigmoid" = some f ∧ f [A] at' = .ok C ∧ Is C (M.map sigmoid) := by
  refine ⟨_, _, rfl, rfl, h.1, h.2.1, fun i j => ?_⟩
  simp [CMat.map, h.2.2 i j, sigmoid]

/-- **C62**: `Relu` -/
theorem C62_relu (A : CMat) (M : Matrix (Fin m) (Fin n) ℝ) (h : Is A M) (at' : Attrs) :
    ∃ f C, casadiOps "Relu" = some f ∧ f [A] at' = .ok C ∧ Is C (M.map relu) := by
  refine ⟨_, _, rfl, rfl, h.1, h.2.1, fun i j => ?_⟩
  simp only [CMat.map, h.2.2 i j, Matrix.map_apply, relu]
  split
  · exact max_eq_right ‹_›
  · exact max_eq_left (le_of_lt (not_le.1 ‹_›))

theorem elu_one (x : ℝ) : max 0 x + min 0 (Real.exp x - 1) = elu 1 x := by
  unfold elu
  split
  · have : Real.exp x ≤ 1 := Real.exp_le_one_iff.2 (le_of_lt ‹_›)
    rw [max_eq_left (le_of_lt ‹_›), min_eq_right (by linarith)]; ring
  · have : (1 : ℝ) ≤ Real.exp x := Real.one_le_exp (not_lt.1 ‹_›)
    rw [max_eq_right (not_lt.1 ‹_›), min_eq_left (by linarith)]; ring

/-- **C62**: `Elu` with the default `alpha = 1`. -/
theorem C62_elu_partial (A : CMat) (M : Matrix (Fin m) (Fin n) ℝ) (h : Is A M) (at' : Attrs) :
    ∃ f C, casadiOps "Elu" = some f ∧ f [A] at' = .ok C ∧ Is C (M.map (elu 1)) := by
  refine ⟨_, _, rfl, rfl, h.1, h.2.1, fun i j => ?_⟩
  simp only [CMat.map, h.2.2 i j, Matrix.map_apply]
  exact elu_one _

/-- **C62 fails** for `Elu` with another `alpha`: the attribute is ignored. -/
theorem C62_fails_elu_alpha : ∃ (A C : CMat) (M : Matrix (Fin 1) (Fin 1) ℝ), Is A M ∧
    (∃ f, casadiOps "Elu" = some f ∧ f [A] [("alpha", .float 2)] = .ok C) ∧ ¬ Is C (M.map (elu 2)) := by
  refine ⟨⟨1, 1, fun _ _ => -1⟩, _, Matrix.of fun _ _ => -1, ⟨rfl, rfl, fun _ _ => rfl⟩, ⟨_, rfl, rfl⟩, fun h => ?_⟩
  have := h.2.2 0 0
  simp only [CMat.map, Matrix.map_apply, Matrix.of_apply] at this
  rw [elu_one] at this
  unfold elu at this
  rw [if_pos (by norm_num), if_pos (by norm_num)] at this
  have h1 : Real.exp (-1) < 1 := Real.exp_lt_one_iff.2 (by norm_num)
  linarith

theorem mul_is (A B : CMat) (M : Matrix (Fin m) (Fin k) ℝ) (N : Matrix (Fin k) (Fin n) ℝ) (hA : Is A M) (hB : Is B N) :
    ∃ C, A.mul B = .ok C ∧ Is C (M * N) := by
  have hk : A.c = B.r := hA.2.1.trans hB.1.symm
  refine ⟨⟨A.r, B.c, fun i j => ∑ l ∈ Finset.range A.c, A.get i l * B.get l j⟩, by rw [CMat.mul, if_pos hk], hA.1, hB.2.1, fun i j => ?_⟩
  show ∑ l ∈ Finset.range A.c, A.get i l * B.get l j = (M * N) i j
  rw [Matrix.mul_apply, hA.2.1, Finset.sum_range]
  refine Finset.sum_congr rfl fun l _ => ?_
  rw [hA.2.2, hB.2.2]

/-- **C62**: `MatMul` -/
theorem C62_matmul (A B : CMat) (M : Matrix (Fin m) (Fin k) ℝ) (N : Matrix (Fin k) (Fin n) ℝ) (hA : Is A M) (hB : Is B N) (at' : Attrs) :
    ∃ f C, casadiOps "MatMul" = some f ∧ f [A, B] at' = .ok C ∧ Is C (M * N) := by
  obtain ⟨C, h1, h2⟩ := mul_is A B M N hA hB
  exact ⟨_, C, rfl, h1, h2⟩

theorem zip_is (f : ℝ → ℝ → ℝ) (A B : CMat) (M N : Matrix (Fin m) (Fin n) ℝ) (hA : Is A M) (hB : Is B N) :
    ∃ C, A.zip f B = .ok C ∧ Is C (Matrix.of fun i j => f (M i j) (N i j)) := by
  refine ⟨⟨A.r, A.c, fun i j => f (A.get i j) (B.get i j)⟩, by rw [CMat.zip, if_pos ⟨hA.1.trans hB.1.symm, hA.2.1.trans hB.2.1.symm⟩], hA.1, hA.2.1, fun i j => ?_⟩
  simp [hA.2.2, hB.2.2]

/-- **C62**: `Mul` -/
theorem C62_mul (A B : CMat) (M N : Matrix (Fin m) (Fin n) ℝ) (hA : Is A M) (hB : Is B N) (at' : Attrs) :
    ∃ f C, casadiOps "Mul" = some f ∧ f [A, B] at' = .ok C ∧ Is C (Matrix.of fun i j => M i j * N i j) := by
  obtain ⟨C, h1, h2⟩ := zip_is (· * ·) A B M N hA hB
  exact ⟨_, C, rfl, h1, h2⟩

/-- **C62**: `Sub` -/
theorem C62_sub (A B : CMat) (M N : Matrix (Fin m) (Fin n) ℝ) (hA : Is A M) (hB : Is B N) (at' : Attrs) :
    ∃ f C, casadiOps "Sub" = some f ∧ f [A, B] at' = .ok C ∧ Is C (M - N) := by
  obtain ⟨C, h1, h2⟩ := zip_is (· - ·) A B M N hA hB
  exact ⟨_, C, rfl, h1, h2⟩

theorem zip_column (f : ℝ → ℝ → ℝ) (A B : CMat) (M : Matrix (Fin m) (Fin n) ℝ) (N : Matrix (Fin m) (Fin 1) ℝ) (hA : Is A M) (hB : Is B N) :
    ∃ C, A.zip f B = .ok C ∧ Is C (Matrix.of fun i j => f (M i j) (N i 0)) := by
  have hB0 : ∀ i : Fin m, B.get i 0 = N i 0 := fun i => hB.2.2 i 0
  unfold CMat.zip
  split
  · rename_i h
    have hn : n = 1 := by rw [← hA.2.1, h.2, hB.2.1]
    subst hn
    refine ⟨_, rfl, hA.1, hA.2.1, fun i j => ?_⟩
    have hj : j = 0 := Subsingleton.elim _ _
    subst hj
    show f (A.get i ((0 : Fin 1) : ℕ)) (B.get i ((0 : Fin 1) : ℕ)) = _
    rw [hA.2.2, hB.2.2]; rfl
  · rename_i h'
    split
    · rename_i h
      exact absurd ⟨by rw [hA.1, hB.1], by rw [h.2, hB.2.1]⟩ h'
    · split
      · rename_i h
        have hm : m = 1 := by rw [← hB.1, h.1]
        subst hm
        refine ⟨_, rfl, hA.1, hA.2.1, fun i j => ?_⟩
        have hi : i = 0 := Subsingleton.elim _ _
        subst hi
        show f (A.get ((0 : Fin 1) : ℕ) j) (B.get ((0 : Fin 1) : ℕ) 0) = _
        rw [hA.2.2, hB0]; rfl
      · rw [if_pos ⟨by rw [hA.1, hB.1], by rw [hB.2.1]; decide, by rw [hB.2.1]; exact Nat.mod_one _⟩]
        refine ⟨_, rfl, hA.1, hA.2.1, fun i j => ?_⟩
        show f (A.get i j) (B.get i (j % B.c)) = _
        rw [hB.2.1, Nat.mod_one, hA.2.2, hB0]; rfl

theorem zip_scalar (f : ℝ → ℝ → ℝ) (A B : CMat) (M : Matrix (Fin m) (Fin n) ℝ) (N : Matrix (Fin 1) (Fin 1) ℝ) (hA : Is A M) (hB : Is B N) :
    ∃ C, A.zip f B = .ok C ∧ Is C (Matrix.of fun i j => f (M i j) (N 0 0)) := by
  have hB0 : B.get 0 0 = N 0 0 := hB.2.2 0 0
  unfold CMat.zip
  split
  · rename_i h
    have hm : m = 1 := by rw [← hA.1, h.1, hB.1]
    have hn : n = 1 := by rw [← hA.2.1, h.2, hB.2.1]
    subst hm; subst hn
    refine ⟨_, rfl, hA.1, hA.2.1, fun i j => ?_⟩
    have hi : i = 0 := Subsingleton.elim _ _
    have hj : j = 0 := Subsingleton.elim _ _
    subst hi; subst hj
    show f (A.get ((0 : Fin 1) : ℕ) ((0 : Fin 1) : ℕ)) (B.get 0 0) = _
    rw [hA.2.2, hB0]; rfl
  · rename_i h'
    split
    · rename_i h
      exact absurd ⟨h.1.trans hB.1.symm, h.2.trans hB.2.1.symm⟩ h'
    · rw [if_pos ⟨hB.1, hB.2.1⟩]
      refine ⟨_, rfl, hA.1, hA.2.1, fun i j => ?_⟩
      show f (A.get i j) (B.get 0 0) = _
      rw [hA.2.2, hB0]; rfl

theorem zip_flip (f : ℝ → ℝ → ℝ) (A B : CMat) (C : CMat) (h : A.zip (fun a b => f b a) B = .ok C) :
    (A.c % B.c = 0 → B.c % A.c = 0 → A.c = B.c) → B.zip f A = .ok C := by
  intro hdiv
  unfold CMat.zip at h ⊢
  by_cases e1 : A.r = B.r ∧ A.c = B.c
  · rw [if_pos e1] at h
    rw [if_pos ⟨e1.1.symm, e1.2.symm⟩, ← h, e1.1, e1.2]
  · rw [if_neg e1] at h
    rw [if_neg (fun h => e1 ⟨h.1.symm, h.2.symm⟩)]
    by_cases e2 : A.r = 1 ∧ A.c = 1
    · rw [if_pos e2] at h
      rw [if_neg (fun h => e1 ⟨e2.1.trans h.1.symm, e2.2.trans h.2.symm⟩), if_pos e2, ← h]
    · rw [if_neg e2] at h
      by_cases e3 : B.r = 1 ∧ B.c = 1
      · rw [if_pos e3] at h
        rw [if_pos e3, ← h]
      · rw [if_neg e3] at h
        rw [if_neg e3, if_neg e2]
        by_cases e4 : A.r = B.r ∧ 0 < B.c ∧ A.c % B.c = 0
        · rw [if_pos e4] at h
          by_cases e5 : B.r = A.r ∧ 0 < A.c ∧ B.c % A.c = 0
          · exact absurd ⟨e4.1, hdiv e4.2.2 e5.2.2⟩ e1
          · rw [if_neg e5, if_pos ⟨e4.1.symm, e4.2⟩, ← h, e4.1]
        · rw [if_neg e4] at h
          by_cases e5 : A.r = B.r ∧ 0 < A.c ∧ B.c % A.c = 0
          · rw [if_pos e5] at h
            rw [if_pos ⟨e5.1.symm, e5.2⟩, ← h, e5.1]
          · rw [if_neg e5] at h; cases h

theorem zip_flip' (f : ℝ → ℝ → ℝ) (A B C : CMat) (h : A.zip (fun a b => f b a) B = .ok C) : B.zip f A = .ok C :=
  zip_flip f A B C h fun h1 h2 => Nat.dvd_antisymm (Nat.dvd_of_mod_eq_zero h2) (Nat.dvd_of_mod_eq_zero h1)

/-- **C62: broadcasting in `Mul` and `Sub`.**  A column or a single number, as first or second operand, is combined with every column (every entry) of
the other operand, as ONNX prescribes.  Missing: rows (`C62_fails_broadcast_row`). -/
theorem C62_broadcast_partial (A B S : CMat) (M : Matrix (Fin m) (Fin n) ℝ) (N : Matrix (Fin m) (Fin 1) ℝ) (s : ℝ) (hA : Is A M) (hB : Is B N)
    (hS : Is S (Matrix.of fun _ _ : Fin 1 => s)) (at' : Attrs) :
    (∃ f C C' D D', casadiOps "Mul" = some f ∧ f [A, B] at' = .ok C ∧ Is C (Matrix.of fun i j => M i j * N i 0) ∧
      f [B, A] at' = .ok C' ∧ Is C' (Matrix.of fun i j => N i 0 * M i j) ∧ f [A, S] at' = .ok D ∧ Is D (Matrix.of fun i j => M i j * s) ∧
      f [S, A] at' = .ok D' ∧ Is D' (Matrix.of fun i j => s * M i j)) ∧
    (∃ f C C' D D', casadiOps "Sub" = some f ∧ f [A, B] at' = .ok C ∧ Is C (Matrix.of fun i j => M i j - N i 0) ∧
      f [B, A] at' = .ok C' ∧ Is C' (Matrix.of fun i j => N i 0 - M i j) ∧ f [A, S] at' = .ok D ∧ Is D (Matrix.of fun i j => M i j - s) ∧
      f [S, A] at' = .ok D' ∧ Is D' (Matrix.of fun i j => s - M i j)) := by
  have key : ∀ g : ℝ → ℝ → ℝ, ∃ C C' D D', A.zip g B = .ok C ∧ Is C (Matrix.of fun i j => g (M i j) (N i 0)) ∧
      B.zip g A = .ok C' ∧ Is C' (Matrix.of fun i j => g (N i 0) (M i j)) ∧ A.zip g S = .ok D ∧ Is D (Matrix.of fun i j => g (M i j) s) ∧
      S.zip g A = .ok D' ∧ Is D' (Matrix.of fun i j => g s (M i j)) := by
    intro g
    obtain ⟨C, h1, h2⟩ := zip_column g A B M N hA hB
    obtain ⟨C', h3, h4⟩ := zip_column (fun a b => g b a) A B M N hA hB
    obtain ⟨D, h5, h6⟩ := zip_scalar g A S M _ hA hS
    obtain ⟨D', h7, h8⟩ := zip_scalar (fun a b => g b a) A S M _ hA hS
    exact ⟨C, C', D, D', h1, h2, zip_flip' g A B C' h3, h4, h5, h6, zip_flip' g A S D' h7, h8⟩
  obtain ⟨C, C', D, D', h⟩ := key (· * ·)
  obtain ⟨E, E', F, F', h'⟩ := key (· - ·)
  exact ⟨⟨_, C, C', D, D', rfl, h⟩, ⟨_, E, E', F, F', rfl, h'⟩⟩

/-- **C62 fails for rows**: ONNX repeats a row downwards, the converter refuses; and it accepts operands that ONNX refuses: two columns are repeated
to match four. -/
theorem C62_fails_broadcast_row :
    (∀ A B : CMat, 2 ≤ A.r → 2 ≤ A.c → B.r = 1 → B.c = A.c → ∃ f, casadiOps "Mul" = some f ∧ f [A, B] [] = .error "RuntimeError") ∧
    (∀ (M : Matrix (Fin 2) (Fin 4) ℝ) (N : Matrix (Fin 2) (Fin 2) ℝ) (A B : CMat), Is A M → Is B N → ∃ f C, casadiOps "Mul" = some f ∧ f [A, B] [] = .ok C ∧
      Is C (Matrix.of fun i j => M i j * N i (if j = 0 ∨ j = 2 then 0 else 1))) := by
  refine ⟨fun A B h1 h2 h3 h4 => ⟨_, rfl, ?_⟩, fun M N A B hA hB => ⟨_, ⟨A.r, A.c, fun i j => A.get i j * B.get i (j % B.c)⟩, rfl, ?_, hA.1, hA.2.1, fun i j => ?_⟩⟩
  · show A.zip (· * ·) B = _
    unfold CMat.zip
    rw [if_neg (by omega), if_neg (by omega), if_neg (by omega), if_neg (by omega), if_neg (by omega)]
  · show A.zip (· * ·) B = _
    obtain ⟨a1, a2, -⟩ := hA
    obtain ⟨b1, b2, -⟩ := hB
    unfold CMat.zip
    rw [if_neg (by omega), if_neg (by omega), if_neg (by omega), if_pos ⟨by omega, by omega, by rw [a2, b2]⟩]
  · dsimp only
    rw [hA.2.2, hB.2.1]
    have h0 : B.get i 0 = N i 0 := hB.2.2 i 0
    have h1 : B.get i 1 = N i 1 := hB.2.2 i 1
    fin_cases j <;> simp [h0, h1]

theorem addLoop_is (As : List CMat) (Ms : List (Matrix (Fin m) (Fin n) ℝ)) (h : List.Forall₂ Is As Ms) (acc : CMat) (M : Matrix (Fin m) (Fin n) ℝ)
    (hacc : Is acc M) : ∃ C, addLoop acc As = .ok C ∧ Is C (M + Ms.sum) := by
  induction h generalizing acc M with
  | nil => exact ⟨acc, rfl, by simpa using hacc⟩
  | @cons A N As Ms hA _ ih =>
    obtain ⟨C, h1, h2⟩ := zip_is (· + ·) acc A M N hacc hA
    obtain ⟨D, h3, h4⟩ := ih C (M + N) h2
    refine ⟨D, ?_, ?_⟩
    · simp only [addLoop]
      rw [h1]; exact h3
    · rw [List.sum_cons, ← add_assoc]; exact h4

/-- **C62**: `Add` and `Sum` of one or more matrices of equal shape -/
theorem C62_add (A : CMat) (As : List CMat) (M : Matrix (Fin m) (Fin n) ℝ) (Ms : List (Matrix (Fin m) (Fin n) ℝ)) (hA : Is A M) (h : List.Forall₂ Is As Ms)
    (at' : Attrs) (op : String) (hop : op = "Add" ∨ op = "Sum") :
    ∃ f C, casadiOps op = some f ∧ f (A :: As) at' = .ok C ∧ Is C (M + Ms.sum) := by
  have h0 : ∃ C, CMat.zip (· + ·) ⟨1, 1, fun _ _ => 0⟩ A = .ok C ∧ Is C M := by
    unfold CMat.zip
    split
    · rename_i h1
      refine ⟨_, rfl, h1.1.trans hA.1, h1.2.trans hA.2.1, fun i j => ?_⟩
      simp [hA.2.2]
    · rw [if_pos ⟨rfl, rfl⟩]
      refine ⟨_, rfl, hA.1, hA.2.1, fun i j => ?_⟩
      simp [hA.2.2]
  obtain ⟨C, h1, h2⟩ := h0
  obtain ⟨D, h3, h4⟩ := addLoop_is As Ms h C M h2
  have hd : opAdd (A :: As) = .ok D := by
    unfold opAdd
    simp only [addLoop]
    rw [h1]; exact h3
  rcases hop with rfl | rfl
  · exact ⟨_, D, rfl, hd, h4⟩
  · exact ⟨_, D, rfl, hd, h4⟩

/-- the value of a numeric attribute of a node (ONNX nodes have at most one attribute of a name) -/
def numAttr (at' : Attrs) (name : String) (default : ℝ) (v : ℝ) : Prop :=
  (∃ i : Int, (name, AttrVal.int i) ∈ at' ∧ v = i) ∨ (name, AttrVal.float v) ∈ at' ∨ (name ∉ at'.map (·.1) ∧ v = default)

theorem attrNum_of (at' : Attrs) (hnd : (at'.map (·.1)).Nodup) (name : String) (default v : ℝ) (h : numAttr at' name default v) :
    (attrNum at' name).getD default = v ∧ (default ≠ v → attrNum at' name = some v) := by
  have hnd' : (at'.reverse.map (·.1)).Nodup := by rw [List.map_reverse]; exact List.nodup_reverse.2 hnd
  unfold attrNum
  rcases h with ⟨i, hi, rfl⟩ | hf | ⟨hn, rfl⟩
  · rw [(lookup_eq_some_of_nodup _ hnd' name (.int i)).2 (List.mem_reverse.2 hi)]
    simp
  · rw [(lookup_eq_some_of_nodup _ hnd' name (.float v)).2 (List.mem_reverse.2 hf)]
    simp
  · rw [(lookup_none_iff _ _).2 (by simpa using hn)]
    simp

/-- the matrix or its transpose -/
def Transposed (t : ℝ) {a b a' b' : Nat} (M : Matrix (Fin a) (Fin b) ℝ) (M' : Matrix (Fin a') (Fin b') ℝ) : Prop :=
  if t = 1 then ∃ (h1 : a' = b) (h2 : b' = a), ∀ i j, M' i j = M (Fin.cast h2 j) (Fin.cast h1 i)
  else ∃ (h1 : a' = a) (h2 : b' = b), ∀ i j, M' i j = M (Fin.cast h1 i) (Fin.cast h2 j)

theorem transposed_is {a b a' b' : Nat} (t : ℝ) (at' : Attrs) (hnd : (at'.map (·.1)).Nodup) (name : String) (ht : numAttr at' name 0 t) (A : CMat)
    (M : Matrix (Fin a) (Fin b) ℝ) (M' : Matrix (Fin a') (Fin b') ℝ) (hA : Is A M) (h : Transposed t M M') :
    Is (if attrNum at' name = some 1 then A.T else A) M' := by
  obtain ⟨h1, h2⟩ := attrNum_of at' hnd name 0 t ht
  unfold Transposed at h
  by_cases ht1 : t = 1
  · rw [if_pos ht1] at h
    obtain ⟨rfl, rfl, h⟩ := h
    rw [if_pos (by rw [← ht1]; exact h2 (by rw [ht1]; norm_num))]
    refine ⟨hA.2.1, hA.1, fun i j => ?_⟩
    rw [h i j]; exact hA.2.2 _ _
  · rw [if_neg ht1] at h
    obtain ⟨rfl, rfl, h⟩ := h
    rw [if_neg]
    · refine ⟨hA.1, hA.2.1, fun i j => ?_⟩
      rw [h i j]; exact hA.2.2 _ _
    · intro h'
      rw [h'] at h1
      exact ht1 h1.symm

/-- **C62**: `Gemm`: `alpha * A' * B' + beta * C` with `A'`, `B'` transposed if `transA`, `transB` is 1, for `C` of the shape of the result. -/
theorem C62_gemm_partial {a b c d : Nat} (A B C : CMat) (at' : Attrs) (hnd : (at'.map (·.1)).Nodup) (MA : Matrix (Fin a) (Fin b) ℝ) (MB : Matrix (Fin c) (Fin d) ℝ)
    (hA : Is A MA) (hB : Is B MB) (ta tb alpha beta : ℝ) (hta : numAttr at' "transA" 0 ta) (htb : numAttr at' "transB" 0 tb)
    (hal : numAttr at' "alpha" 1 alpha) (hbe : numAttr at' "beta" 1 beta) (MA' : Matrix (Fin m) (Fin k) ℝ) (MB' : Matrix (Fin k) (Fin n) ℝ)
    (hA' : Transposed ta MA MA') (hB' : Transposed tb MB MB') (MC : Matrix (Fin m) (Fin n) ℝ) (hC : Is C MC) :
    ∃ f R, casadiOps "Gemm" = some f ∧ f [A, B, C] at' = .ok R ∧ Is R (alpha • (MA' * MB') + beta • MC) := by
  obtain ⟨P, hP, hPM⟩ := mul_is _ _ MA' MB' (transposed_is ta at' hnd "transA" hta A MA MA' hA hA') (transposed_is tb at' hnd "transB" htb B MB MB' hB hB')
  have h1 : Is (P.map (alpha * ·)) (alpha • (MA' * MB')) := ⟨hPM.1, hPM.2.1, fun i j => by simp [CMat.map, hPM.2.2]⟩
  have h2 : Is (C.map (beta * ·)) (beta • MC) := ⟨hC.1, hC.2.1, fun i j => by simp [CMat.map, hC.2.2]⟩
  obtain ⟨R, hR, hRM⟩ := zip_is (· + ·) _ _ _ _ h1 h2
  refine ⟨opGemm, R, rfl, ?_, hRM⟩
  simp only [opGemm, (attrNum_of at' hnd "alpha" 1 alpha hal).1, (attrNum_of at' hnd "beta" 1 beta hbe).1]
  rw [hP]
  exact hR

/-- **C62 fails** for `Gemm` without the optional third input: it is refused. -/
theorem C62_fails_gemm_without_bias (A B : CMat) (at' : Attrs) : ∃ f, casadiOps "Gemm" = some f ∧ f [A, B] at' = .error "IndexError" := ⟨opGemm, rfl, rfl⟩

/-- **C62 fails** for `Gemm` with a row as third input and more than one row in the product (a batch): ONNX repeats the row, the converter refuses. -/
theorem C62_fails_gemm_row_bias (A B C : CMat) (hA : A.r = 2) (hAB : A.c = B.r) (hB : 2 ≤ B.c) (hC : C.r = 1) (hCc : C.c = B.c) :
    ∃ f, casadiOps "Gemm" = some f ∧ f [A, B, C] [] = .error "RuntimeError" := by
  refine ⟨opGemm, rfl, ?_⟩
  have hn : ∀ s, attrNum [] s = none := fun s => rfl
  simp only [opGemm, hn, reduceCtorEq, if_false]
  rw [CMat.mul, if_pos hAB]
  dsimp only [CMat.zip, CMat.map]
  rw [if_neg (by omega), if_neg (by omega), if_neg (by omega), if_neg (by omega), if_neg (by omega)]

/-! ## `Concat` -/

theorem vertcat_spec (As : List CMat) (hne : As ≠ []) (c : Nat) (hc : ∀ A ∈ As, A.c = c) :
    ∃ C, vertcat As = .ok C ∧ C.c = c ∧ C.r = (As.map (·.r)).sum ∧
      ∀ l (h : l < As.length) i j, i < As[l].r → C.get (((As.take l).map (·.r)).sum + i) j = As[l].get i j := by
  induction As with
  | nil => exact absurd rfl hne
  | cons A As ih =>
    rcases As with _ | ⟨B, rest⟩
    · refine ⟨A, rfl, hc A List.mem_cons_self, by simp, fun l h i j hi => ?_⟩
      simp only [List.length_cons, List.length_nil] at h
      have : l = 0 := by omega
      subst this
      simp
    · obtain ⟨C, h1, h2, h3, h4⟩ := ih (by simp) (fun A' h' => hc A' (List.mem_cons_of_mem _ h'))
      have hAc : A.c = C.c := (hc A List.mem_cons_self).trans h2.symm
      refine ⟨⟨A.r + C.r, A.c, fun i j => if i < A.r then A.get i j else C.get (i - A.r) j⟩, by simp only [vertcat]; rw [show vertcat (B :: rest) = .ok C from h1]; dsimp only; rw [if_pos hAc], hc A List.mem_cons_self, ?_, ?_⟩
      · rw [List.map_cons, List.sum_cons, ← h3]
      · intro l h i j hi
        cases l with
        | zero =>
          simp only [List.getElem_cons_zero] at hi ⊢
          simp [hi]
        | succ l =>
          have h' : l < (B :: rest).length := by simpa using h
          simp only [List.getElem_cons_succ, List.take_succ_cons, List.map_cons, List.sum_cons] at hi ⊢
          have := h4 l h' i j hi
          rw [if_neg (by omega), ← this]
          congr 1
          omega

theorem horzcat_spec (As : List CMat) (hne : As ≠ []) (r : Nat) (hr : ∀ A ∈ As, A.r = r) :
    ∃ C, horzcat As = .ok C ∧ C.r = r ∧ C.c = (As.map (·.c)).sum ∧
      ∀ l (h : l < As.length) i j, j < As[l].c → C.get i (((As.take l).map (·.c)).sum + j) = As[l].get i j := by
  induction As with
  | nil => exact absurd rfl hne
  | cons A As ih =>
    rcases As with _ | ⟨B, rest⟩
    · refine ⟨A, rfl, hr A List.mem_cons_self, by simp, fun l h i j hi => ?_⟩
      simp only [List.length_cons, List.length_nil] at h
      have : l = 0 := by omega
      subst this
      simp
    · obtain ⟨C, h1, h2, h3, h4⟩ := ih (by simp) (fun A' h' => hr A' (List.mem_cons_of_mem _ h'))
      have hAr : A.r = C.r := (hr A List.mem_cons_self).trans h2.symm
      refine ⟨⟨A.r, A.c + C.c, fun i j => if j < A.c then A.get i j else C.get i (j - A.c)⟩, by simp only [horzcat]; rw [show horzcat (B :: rest) = .ok C from h1]; dsimp only; rw [if_pos hAr], hr A List.mem_cons_self, ?_, ?_⟩
      · rw [List.map_cons, List.sum_cons, ← h3]
      · intro l h i j hi
        cases l with
        | zero =>
          simp only [List.getElem_cons_zero] at hi ⊢
          simp [hi]
        | succ l =>
          have h' : l < (B :: rest).length := by simpa using h
          simp only [List.getElem_cons_succ, List.take_succ_cons, List.map_cons, List.sum_cons] at hi ⊢
          have := h4 l h' i j hi
          rw [if_neg (by omega), ← this]
          congr 1
          omega

/-- **C62**: `Concat` along the axis 0 puts the matrices below each other: the rows of the `l`-th argument follow those of the arguments before it. -/
theorem C62_concat_rows (As : List CMat) (hne : As ≠ []) (c : Nat) (hc : ∀ A ∈ As, A.c = c) :
    ∃ f C, casadiOps "Concat" = some f ∧ f As [("axis", .int 0)] = .ok C ∧ C.c = c ∧ C.r = (As.map (·.r)).sum ∧
      ∀ l (h : l < As.length) i j, i < As[l].r → C.get (((As.take l).map (·.r)).sum + i) j = As[l].get i j := by
  obtain ⟨C, h1, h2⟩ := vertcat_spec As hne c hc
  exact ⟨_, C, rfl, h1, h2⟩

/-- **C62**: `Concat` along the axis 1 (or -1) puts them beside each other. -/
theorem C62_concat_columns (As : List CMat) (hne : As ≠ []) (r : Nat) (hr : ∀ A ∈ As, A.r = r) (ax : Int) (hax : ax = 1 ∨ ax = -1) :
    ∃ f C, casadiOps "Concat" = some f ∧ f As [("axis", .int ax)] = .ok C ∧ C.r = r ∧ C.c = (As.map (·.c)).sum ∧
      ∀ l (h : l < As.length) i j, j < As[l].c → C.get i (((As.take l).map (·.c)).sum + j) = As[l].get i j := by
  obtain ⟨C, h1, h2⟩ := horzcat_spec As hne r hr
  refine ⟨opConcat, C, rfl, ?_, h2⟩
  rcases hax with rfl | rfl
  · exact h1
  · exact h1

/-- **C62 fails** for `Concat` along the axis -2 (which is axis 0 for matrices): two scalars are put beside each other. -/
theorem C62_fails_concat_negative_axis : ∃ f C, casadiOps "Concat" = some f ∧
    f [⟨1, 1, fun _ _ => 3⟩, ⟨1, 1, fun _ _ => 4⟩] [("axis", .int (-2))] = .ok C ∧ C.r = 1 ∧ C.c = 2 :=
  ⟨opConcat, _, rfl, rfl, rfl, rfl⟩

/-! ## `Slice` -/

/-- the first and the last-but-one index of the ONNX slice: negative numbers count from the end, everything is clamped to `0 … n` -/
def Spec.bound (n : Nat) (a : Int) : Int := max 0 (min n (if a < 0 then a + n else a))

theorem pySlice_eq (n : Nat) (s e : Int) : ((pySlice n s e).1 : Int) = Spec.bound n s ∧ ((pySlice n s e).2 : Int) = max 0 (Spec.bound n e - Spec.bound n s) := by
  unfold pySlice Spec.bound
  dsimp only
  constructor <;> split_ifs <;> omega

/-- `ONNX Slice` of a matrix along the rows and columns: start and end of each axis (`0`, `n` if the axis is not mentioned). -/
def Spec.IsSlice (A C : CMat) (rows cols : Int × Int) : Prop :=
  (C.r : Int) = max 0 (bound A.r rows.2 - bound A.r rows.1) ∧ (C.c : Int) = max 0 (bound A.c cols.2 - bound A.c cols.1) ∧
    ∀ i j, i < C.r → j < C.c → C.get i j = A.get ((bound A.r rows.1).toNat + i) ((bound A.c cols.1).toNat + j)

theorem slice_is (A : CMat) (s : Option (Int × Int) × Option (Int × Int)) :
    Spec.IsSlice A (A.slice s) (s.1.getD (0, A.r)) (s.2.getD (0, A.c)) := by
  have hz : ∀ n : Nat, Spec.bound n 0 = 0 := fun n => by unfold Spec.bound; simp
  have hn : ∀ n : Nat, Spec.bound n n = n := fun n => by unfold Spec.bound; split_ifs <;> omega
  have key : ∀ (n : Nat) (o : Option (Int × Int)),
      (((match o with | some (b, e) => pySlice n b e | none => (0, n)).2 : Nat) : Int) =
        max 0 (Spec.bound n (o.getD (0, (n : Int))).2 - Spec.bound n (o.getD (0, (n : Int))).1) ∧
      (match o with | some (b, e) => pySlice n b e | none => (0, n)).1 = (Spec.bound n (o.getD (0, (n : Int))).1).toNat := by
    intro n o
    cases o with
    | none =>
      simp only [Option.getD_none, hz, hn]
      omega
    | some be =>
      obtain ⟨b, e⟩ := be
      have h := pySlice_eq n b e
      simp only [Option.getD_some]
      exact ⟨h.2, by omega⟩
  refine ⟨(key A.r s.1).1, (key A.c s.2).1, fun i j _ _ => ?_⟩
  rw [← (key A.r s.1).2, ← (key A.c s.2).2]
  rfl

/-- **C62**: `Slice` with the attributes `axes`, `ends`, `starts` (in this order, as the ONNX library writes them) along one axis -/
theorem C62_slice_one_axis_partial (A : CMat) (ax s e : Int) (hax : ax = 0 ∨ ax = 1 ∨ ax = -1 ∨ ax = -2) :
    ∃ f C, casadiOps "Slice" = some f ∧ f [A] [("axes", .ints [ax]), ("ends", .ints [e]), ("starts", .ints [s])] = .ok C ∧
      Spec.IsSlice A C (if ax = 0 ∨ ax = -2 then (s, e) else (0, A.r)) (if ax = 0 ∨ ax = -2 then (0, A.c) else (s, e)) := by
  rcases hax with rfl | rfl | rfl | rfl
  · exact ⟨opSlice, _, rfl, rfl, slice_is A (some (s, e), none)⟩
  · exact ⟨opSlice, _, rfl, rfl, slice_is A (none, some (s, e))⟩
  · exact ⟨opSlice, _, rfl, rfl, slice_is A (none, some (s, e))⟩
  · exact ⟨opSlice, _, rfl, rfl, slice_is A (some (s, e), none)⟩

/-- **C62**: … and along both axes -/
theorem C62_slice_two_axes_partial (A : CMat) (s0 e0 s1 e1 : Int) :
    ∃ f C, casadiOps "Slice" = some f ∧ f [A] [("axes", .ints [0, 1]), ("ends", .ints [e0, e1]), ("starts", .ints [s0, s1])] = .ok C ∧
      Spec.IsSlice A C (s0, e0) (s1, e1) :=
  ⟨opSlice, _, rfl, rfl, slice_is A (some (s0, e0), some (s1, e1))⟩

/-- what the attributes of `Slice` say about an axis of size `n`: negative axes count from the end, an axis that is not mentioned is taken whole -/
def Spec.sliceOf (axes starts ends : List Int) (dim : Int) (n : Nat) : Int × Int :=
  (((axes.zip (starts.zip ends)).find? fun t => t.1 = dim || t.1 = dim - 2).map (·.2)).getD (0, n)

theorem sliceLoop_eq (l : List (Int × Int × Int)) (hr : ∀ t ∈ l, -2 ≤ t.1 ∧ t.1 ≤ 1) (hd : l.Pairwise fun a b => a.1 ≠ b.1 ∧ a.1 ≠ b.1 - 2 ∧ a.1 ≠ b.1 + 2) :
    ∀ s : Option (Int × Int) × Option (Int × Int), (∀ t ∈ l, (t.1 = 0 ∨ t.1 = -2 → s.1 = none) ∧ (t.1 = 1 ∨ t.1 = -1 → s.2 = none)) →
      sliceLoop l s = .ok (((l.find? fun t => t.1 = 0 || t.1 = -2).map (·.2)).or s.1, ((l.find? fun t => t.1 = 1 || t.1 = -1).map (·.2)).or s.2) := by
  induction l with
  | nil => intro s _; rfl
  | cons t l ih =>
    intro s hs
    obtain ⟨a, b, e⟩ := t
    rw [List.pairwise_cons] at hd
    obtain ⟨hd1, hd2⟩ := hd
    have hra := hr _ (List.mem_cons_self)
    have ih' := ih (fun t h => hr t (List.mem_cons_of_mem _ h)) hd2
    unfold sliceLoop
    dsimp only at hra ⊢
    by_cases h0 : a = 0 ∨ a = -2
    · have hn1 : ¬(a = 1 ∨ a = -1) := by omega
      rw [if_pos h0, ih' (some (b, e), s.2) fun t h => ⟨fun ht => by have := hd1 t h; dsimp only at this; omega, fun ht => (hs t (List.mem_cons_of_mem _ h)).2 ht⟩]
      have hnone : l.find? (fun t => t.1 = 0 || t.1 = -2) = none := by
        rw [List.find?_eq_none]
        intro t h
        have := hd1 t h
        dsimp only at this
        simp only [Bool.or_eq_true, decide_eq_true_eq]
        omega
      rw [hnone, List.find?_cons_of_pos (by simpa using h0), List.find?_cons_of_neg (by simpa using hn1)]
      rfl
    · have h1 : a = 1 ∨ a = -1 := by omega
      rw [if_neg h0, if_pos h1, ih' (s.1, some (b, e)) fun t h => ⟨fun ht => (hs t (List.mem_cons_of_mem _ h)).1 ht, fun ht => by have := hd1 t h; dsimp only at this; omega⟩]
      have hnone : l.find? (fun t => t.1 = 1 || t.1 = -1) = none := by
        rw [List.find?_eq_none]
        intro t h
        have := hd1 t h
        dsimp only at this
        simp only [Bool.or_eq_true, decide_eq_true_eq]
        omega
      rw [hnone, List.find?_cons_of_neg (by simpa using h0), List.find?_cons_of_pos (by simpa using h1)]
      rfl

/-- **C62**: `Slice` with the attributes `axes`, `ends`, `starts` for any axes in any order, none of them twice -/
theorem C62_slice (A : CMat) (axes starts ends : List Int) (hr : ∀ a ∈ axes, -2 ≤ a ∧ a ≤ 1) (hd : axes.Pairwise fun a b => a ≠ b ∧ a ≠ b - 2 ∧ a ≠ b + 2) :
    ∃ f C, casadiOps "Slice" = some f ∧ f [A] [("axes", .ints axes), ("ends", .ints ends), ("starts", .ints starts)] = .ok C ∧
      Spec.IsSlice A C (Spec.sliceOf axes starts ends 0 A.r) (Spec.sliceOf axes starts ends 1 A.c) := by
  have hsub : ∀ t ∈ axes.zip (starts.zip ends), t.1 ∈ axes := fun t h => (List.of_mem_zip (a := t.1) (b := t.2) h).1
  have hsubl : ∀ (l1 : List Int) (l2 : List (Int × Int)), ((l1.zip l2).map Prod.fst).Sublist l1 := by
    intro l1
    induction l1 with
    | nil => intro l2; simp
    | cons a l1 ih =>
      intro l2
      cases l2 with
      | nil => simp
      | cons b l2 => simpa using ih l2
  have hpw : (axes.zip (starts.zip ends)).Pairwise fun a b => a.1 ≠ b.1 ∧ a.1 ≠ b.1 - 2 ∧ a.1 ≠ b.1 + 2 := List.pairwise_map.1 (hd.sublist (hsubl _ _))
  have hl := sliceLoop_eq _ (fun t h => hr _ (hsub t h)) hpw (none, none) fun _ _ => ⟨fun _ => rfl, fun _ => rfl⟩
  simp only [Option.or_none] at hl
  have hex : opSlice [A] [("axes", .ints axes), ("ends", .ints ends), ("starts", .ints starts)] =
      .ok (A.slice (((axes.zip (starts.zip ends)).find? fun t => t.1 = 0 || t.1 = -2).map (·.2), ((axes.zip (starts.zip ends)).find? fun t => t.1 = 1 || t.1 = -1).map (·.2))) := by
    simp only [opSlice, attrInts, List.getElem?_cons_zero, List.getElem?_cons_succ, hl]
  exact ⟨opSlice, _, rfl, hex, slice_is A _⟩

-- columns before rows, the rows counted from the end
example : ∃ f C, casadiOps "Slice" = some f ∧ f [⟨4, 3, fun i j => i + j⟩] [("axes", .ints [1, -2]), ("ends", .ints [2, -1]), ("starts", .ints [0, 1])] = .ok C ∧ C.r = 2 ∧ C.c = 2 := by
  obtain ⟨f, C, h1, h2, h3⟩ := C62_slice ⟨4, 3, fun i j => i + j⟩ [1, -2] [0, 1] [2, -1] (by decide) (by decide)
  refine ⟨f, C, h1, h2, ?_, ?_⟩
  · have := h3.1
    simp [Spec.sliceOf, Spec.bound] at this
    exact_mod_cast this
  · have := h3.2.1
    simp [Spec.sliceOf, Spec.bound] at this
    exact_mod_cast this

/-- **C62**: an attribute that is not a list of integers counts as an empty one (`attribute.ints` of another kind of attribute): nothing is cut off, nothing is refused -/
theorem C62_fails_slice_other_attribute (A : CMat) (i : Int) (s e : List Int) :
    ∃ f C, casadiOps "Slice" = some f ∧ f [A] [("axes", .int i), ("ends", .ints e), ("starts", .ints s)] = .ok C ∧ Spec.IsSlice A C (0, A.r) (0, A.c) :=
  ⟨opSlice, _, rfl, rfl, slice_is A (none, none)⟩

/-- **C62 fails** for `Slice` without the optional attribute `axes`, and for the form of opset 10 and later (no attributes): refused -/
theorem C62_fails_slice_defaults (A : CMat) (s e : List Int) :
    (∃ f, casadiOps "Slice" = some f ∧ f [A] [("ends", .ints e), ("starts", .ints s)] = .error "IndexError") ∧
    ∃ f, casadiOps "Slice" = some f ∧ f [A] [] = .error "IndexError" := ⟨⟨opSlice, rfl, rfl⟩, ⟨opSlice, rfl, rfl⟩⟩

/-! ## `Reshape` -/

/-- **C62**: `Reshape` from a row or column to a row or column -/
theorem C62_reshape_partial (A : CMat) (M : Matrix (Fin m) (Fin n) ℝ) (hA : Is A M) (r c : Nat) (h : m * n = r * c) (hv : m = 1 ∨ n = 1) (hw : r = 1 ∨ c = 1) :
    ∃ C, reshape A r c = .ok C ∧ Is C (reshaped M r c h) := by
  obtain ⟨h1, h2, h3⟩ := hA
  refine ⟨⟨r, c, fun i j => A.get ((i + j * r) % A.r) ((i + j * r) / A.r)⟩, by rw [reshape, if_pos (by rw [h1, h2]; exact h)], rfl, rfl, fun i j => ?_⟩
  have hi := i.isLt
  have hj := j.isLt
  show A.get ((i.val + j.val * r) % A.r) ((i.val + j.val * r) / A.r) = _
  unfold reshaped
  rw [← h3]
  rw [h1]
  have hk : i.val + j.val * r = i.val * c + j.val := by
    rcases hw with rfl | rfl
    · have : i.val = 0 := by omega
      rw [this]; omega
    · have : j.val = 0 := by omega
      rw [this]; omega
  rw [hk]
  have hb : i.val * c + j.val < m * n := by
    have h1 : (i.val + 1) * c ≤ r * c := Nat.mul_le_mul_right c hi
    rw [Nat.add_mul] at h1
    omega
  rcases hv with rfl | rfl
  · rw [Nat.one_mul] at hb
    show A.get _ _ = A.get ((i.val * c + j.val) / _) ((i.val * c + j.val) % _)
    rw [Nat.mod_one, Nat.div_one, Nat.div_eq_of_lt hb, Nat.mod_eq_of_lt hb]
  · rw [Nat.mul_one] at hb
    show A.get _ _ = A.get ((i.val * c + j.val) / _) ((i.val * c + j.val) % _)
    rw [Nat.mod_one, Nat.div_one, Nat.div_eq_of_lt hb, Nat.mod_eq_of_lt hb]

/-- **C62 fails** for `Reshape` of a matrix: ONNX goes row by row, the converter column by column. -/
theorem C62_fails_reshape : ∃ (A C : CMat) (M : Matrix (Fin 2) (Fin 2) ℝ), Is A M ∧ reshape A 1 4 = .ok C ∧ ¬ Is C (reshaped M 1 4 (by norm_num)) := by
  refine ⟨⟨2, 2, fun i j => 2 * i + j⟩, ⟨1, 4, fun i j => 2 * (((i + j * 1) % 2 : Nat) : ℝ) + (((i + j * 1) / 2 : Nat) : ℝ)⟩, Matrix.of fun i j => 2 * (i : ℝ) + (j : ℝ), ⟨rfl, rfl, fun i j => rfl⟩, by rw [reshape, if_pos (by norm_num)], ?_⟩
  intro h
  have := h.2.2 0 1
  simp [reshaped] at this

/-! ## a layer of a network -/

/-- **C62** for a layer `relu(x W + b)` with a row vector `x`: the three nodes `MatMul`, `Add`, `Relu`, for all sizes -/
theorem C62_dense_layer (x W b : CMat) (Mx : Matrix (Fin 1) (Fin k) ℝ) (MW : Matrix (Fin k) (Fin n) ℝ) (Mb : Matrix (Fin 1) (Fin n) ℝ)
    (hx : Is x Mx) (hW : Is W MW) (hb : Is b Mb) (shape : CMat → List Nat) (hs : shape x ≠ []) :
    ∃ d C, Graph.convert ⟨[("x", [1, k])], [("W", W), ("b", b)],
        [⟨"MatMul", ["x", "W"], ["h"], []⟩, ⟨"Add", ["h", "b"], ["s"], []⟩, ⟨"Relu", ["s"], ["y"], []⟩]⟩ casadiOps shape [("x", x)] = .ok d ∧
      d.lookup "y" = some C ∧ Is C ((Mx * MW + Mb).map relu) := by
  obtain ⟨f1, P, hf1, hP, hPM⟩ := C62_matmul x W Mx MW hx hW []
  obtain ⟨f2, S, hf2, hS, hSM⟩ := C62_add P [b] (Mx * MW) [Mb] hPM (List.Forall₂.cons hb List.Forall₂.nil) [] "Add" (Or.inl rfl)
  simp only [List.sum_cons, List.sum_nil, add_zero] at hSM
  obtain ⟨f3, R, hf3, hR, hRM⟩ := C62_relu S (Mx * MW + Mb) hSM []
  refine ⟨[("x", x), ("h", P), ("s", S), ("y", R)], R, ?_, by simp [lookup_cons_ite], hRM⟩
  have hso : shapeOk [1, k] (shape x) = .ok true := (shapeOk_iff _ _).2 ⟨by simp, hs, by simp⟩
  have hc : checkInputs shape [("x", x)] [("x", [1, k])] [] = .ok [("x", x)] := by
    simp only [checkInputs, lookup_cons_ite, if_true, hso]; rfl
  unfold Graph.convert
  dsimp only
  have hsh : Graph.inputShape ⟨[("x", [1, k])], [("W", W), ("b", b)],
        [⟨"MatMul", ["x", "W"], ["h"], []⟩, ⟨"Add", ["h", "b"], ["s"], []⟩, ⟨"Relu", ["s"], ["y"], []⟩]⟩ = [("x", [1, k])] := by
    rfl
  rw [hsh]
  have hfil : ([("x", x)] : List (String × CMat)).filter (fun e => e.1 ≠ "verbose") = [("x", x)] := by simp
  rw [hfil, hc]
  rw [if_neg (by simp), if_neg (by simp)]
  dsimp only
  simp [evalNodes, collect, Graph.initDict, dictSet, lookup_cons_ite, hf1, hP, hf2, hS, hf3, hR]

end DoMpc.Onnx
