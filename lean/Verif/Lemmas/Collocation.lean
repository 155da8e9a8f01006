import Verif.Model.Collocation
import Mathlib.LinearAlgebra.Lagrange
import Mathlib.Tactic.Ring
import Mathlib.Tactic.LinearCombination
import Mathlib.Tactic.FieldSimp

/-! Helper lemmas on the collocation bookkeeping and Lagrange polynomials. -/
set_option linter.unusedSectionVars false
namespace DoMpc
open Polynomial
variable {K : Type} [Field K] [LinearOrder K] {d : Dims}

theorem point_fold (nx nz i f n : Nat) (a : Alloc) :
    (List.range' f n).foldl (Alloc.point nx nz i) a =
      { offset := a.offset + n * nx
        offsetZ := a.offsetZ + n * nz
        firstJ := a.firstJ
        ik := fun i' j' => if i' = i ∧ f ≤ j' ∧ j' < f + n then .at (a.offset + (j' - f) * nx) else a.ik i' j'
        zk := fun i' j' => if i' = i ∧ f ≤ j' ∧ j' < f + n then .at (a.offsetZ + (j' - f) * nz) else a.zk i' j' } := by
  induction n with
  | zero =>
    simp only [List.range'_zero, List.foldl_nil, Nat.zero_mul, Nat.add_zero]
    cases a
    simp only [Alloc.mk.injEq, true_and]
    constructor <;> (funext i' j'; rw [if_neg (by omega)])
  | succ n ih =>
    rw [List.range'_concat, List.foldl_append, ih]
    simp only [List.foldl_cons, List.foldl_nil, Alloc.point, Nat.one_mul]
    simp only [Alloc.mk.injEq]
    refine ⟨by ring, by ring, trivial, ?_, ?_⟩
    · funext i' j'
      by_cases h1 : i' = i ∧ j' = f + n
      · rw [if_pos h1, if_pos ⟨h1.1, by omega, by omega⟩, show j' - f = n by omega]
      · rw [if_neg h1]
        by_cases h2 : i' = i ∧ f ≤ j' ∧ j' < f + n
        · rw [if_pos h2, if_pos ⟨h2.1, h2.2.1, by omega⟩]
        · rw [if_neg h2, if_neg (by omega)]
    · funext i' j'
      by_cases h1 : i' = i ∧ j' = f + n
      · rw [if_pos h1, if_pos ⟨h1.1, by omega, by omega⟩, show j' - f = n by omega]
      · rw [if_neg h1]
        by_cases h2 : i' = i ∧ f ≤ j' ∧ j' < f + n
        · rw [if_pos h2, if_pos ⟨h2.1, h2.2.1, by omega⟩]
        · rw [if_neg h2, if_neg (by omega)]

/-- Closed form of the allocation after `ni ≥ 1` elements. -/
theorem alloc_run (nx nz deg n : Nat) :
    (Alloc.run nx nz deg (n + 1)).offset = (n * (deg + 1) + deg) * nx ∧
    (Alloc.run nx nz deg (n + 1)).offsetZ = (n + 1) * (deg + 1) * nz ∧
    (Alloc.run nx nz deg (n + 1)).firstJ = 0 ∧
    (∀ i j, i < n + 1 → j < deg + 1 → (Alloc.run nx nz deg (n + 1)).ik i j =
      if i = 0 ∧ j = 0 then .init else .at ((i * (deg + 1) + j - 1) * nx)) ∧
    (∀ i j, i < n + 1 → j < deg + 1 → (Alloc.run nx nz deg (n + 1)).zk i j = .at ((i * (deg + 1) + j) * nz)) := by
  induction n with
  | zero =>
    have : Alloc.run nx nz deg 1 = Alloc.element nx nz deg (Alloc.start nz) 0 := rfl
    rw [this]
    unfold Alloc.element
    rw [point_fold]
    simp only [Alloc.start, Nat.zero_mul, Nat.zero_add, Nat.add_sub_cancel, Nat.one_mul]
    refine ⟨trivial, by ring, trivial, ?_, ?_⟩
    · intro i j hi hj
      have hi0 : i = 0 := by omega
      subst hi0
      by_cases hj0 : j = 0
      · subst hj0; simp
      · rw [if_pos (by omega), if_neg (by omega)]; simp
    · intro i j hi hj
      have hi0 : i = 0 := by omega
      subst hi0
      by_cases hj0 : j = 0
      · subst hj0; simp
      · rw [if_pos (by omega)]
        congr 1
        obtain ⟨j', rfl⟩ : ∃ j', j = j' + 1 := ⟨j - 1, by omega⟩
        simp only [Nat.add_sub_cancel]; ring
  | succ n ih =>
    obtain ⟨h1, h2, h3, h4, h5⟩ := ih
    have : Alloc.run nx nz deg (n + 1 + 1) = Alloc.element nx nz deg (Alloc.run nx nz deg (n + 1)) (n + 1) := by
      simp [Alloc.run, List.range_succ, List.foldl_append]
    rw [this]
    unfold Alloc.element
    rw [point_fold, h1, h2, h3]
    simp only [Nat.sub_zero, Nat.zero_add, Nat.zero_le, true_and]
    refine ⟨by ring, by ring, ?_, ?_⟩
    · intro i j hi hj
      by_cases hin : i = n + 1
      · subst hin
        rw [if_pos ⟨rfl, hj⟩, if_neg (by omega)]
        congr 1
        have : (n + 1) * (deg + 1) + j - 1 = n * (deg + 1) + deg + j := by
          have : (n + 1) * (deg + 1) = n * (deg + 1) + deg + 1 := by ring
          omega
        rw [this]; ring
      · rw [if_neg (by omega)]; exact h4 i j (by omega) hj
    · intro i j hi hj
      by_cases hin : i = n + 1
      · subst hin
        rw [if_pos ⟨rfl, hj⟩]
        congr 1; ring
      · rw [if_neg (by omega)]; exact h5 i j (by omega) hj

theorem sliceAt_mul {n : Nat} (xi : Nat → Vec K n) (b : Nat) : sliceAt xi (b * n) = xi b := by
  funext e
  unfold sliceAt flatten
  have hn : 0 < n := lt_of_le_of_lt (Nat.zero_le _) e.2
  rw [dif_pos hn]
  have h1 : (b * n + e) / n = b := by
    rw [Nat.mul_comm, Nat.mul_add_div hn, Nat.div_eq_of_lt e.2, Nat.add_zero]
  have h2 : (b * n + e) % n = e := by
    rw [Nat.mul_comm, Nat.mul_add_mod, Nat.mod_eq_of_lt e.2]
  simp only [h1, h2]

theorem length_flatMap_const {α β : Type} (l : List α) (f : α → List β) (c : Nat) (h : ∀ a ∈ l, (f a).length = c) :
    (l.flatMap f).length = l.length * c := by
  induction l with
  | nil => simp
  | cons a t ih =>
    rw [List.flatMap_cons, List.length_append, ih (fun b hb => h b (by simp [hb])), h a (by simp), List.length_cons]; ring

theorem collRows_length (m : DaeModel K d) (sx : Vec K d.nx) (su : Vec K d.nu) (sz : Vec K d.nz) (sp : Vec K d.np)
    (deg ni : Nat) (tau : Nat → K) (h : K) (xs : Nat → Nat → Vec K d.nx) (zs : Nat → Nat → Vec K d.nz) (xkf : Vec K d.nx)
    (u : Vec K d.nu) (tv : Vec K d.ntv) (p : Vec K d.np) (w : Vec K d.nw) :
    (collRows m sx su sz sp deg ni tau h xs zs xkf u tv p w).length = ni * (deg + 1) * d.nx + ni * (deg + 1) * d.nz := by
  unfold collRows
  rw [length_flatMap_const _ _ ((deg + 1) * d.nx + (deg + 1) * d.nz)]
  · simp only [List.length_range]; ring
  · intro i _
    simp only [List.length_append, List.length_ofFn]
    rw [length_flatMap_const _ _ (d.nx + d.nz)]
    · simp only [List.length_range']; ring
    · intro j _; simp

/-- the Lagrange polynomials of the code are Mathlib's Lagrange basis -/
theorem lagrangeL_eq (deg : Nat) (tau : Nat → K) (j : Nat) :
    lagrangeL deg tau j = Lagrange.basis (Finset.range (deg + 1)) tau j := by
  have key : ∀ n, (List.range n).foldl
      (fun L r => if r ≠ j then L * ((X - C (tau r)) * C (1 / (tau j - tau r))) else L) (1 : K[X]) =
      ∏ r ∈ (Finset.range n).erase j, Lagrange.basisDivisor (tau j) (tau r) := by
    intro n
    induction n with
    | zero => simp
    | succ n ih =>
      rw [List.range_succ, List.foldl_append, ih, List.foldl_cons, List.foldl_nil, Finset.range_add_one]
      by_cases hn : n = j
      · subst hn
        simp
      · rw [if_pos hn, Finset.erase_insert_of_ne hn, Finset.prod_insert (by simp)]
        rw [mul_comm]
        congr 1
        unfold Lagrange.basisDivisor
        rw [mul_comm, one_div]
  unfold lagrangeL Lagrange.basis
  exact key (deg + 1)

theorem foldl_smul_sum {n : Nat} (l : Nat) (c : Nat → K) (xs : Nat → Vec K n) (e : Fin n) :
    ((List.range l).foldl (fun acc r => acc + c r • xs r) (0 : Vec K n)) e = ∑ r ∈ Finset.range l, c r * xs r e := by
  induction l with
  | zero => simp
  | succ l ih => rw [List.range_succ, List.foldl_append, List.foldl_cons, List.foldl_nil, Finset.sum_range_succ, Pi.add_apply, ih]; rfl

end DoMpc
