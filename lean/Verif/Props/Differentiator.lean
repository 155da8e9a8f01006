import Verif.Spec.Differentiator
import Mathlib.Algebra.BigOperators.Intervals
import Mathlib.Algebra.Field.Rat
import Mathlib.Algebra.Order.Ring.Unbundled.Rat

/-!
# Sensitivities (C49, C50, C58)
-/
set_option linter.unusedSectionVars false
namespace DoMpc.Diff

open scoped BigOperators
open Spec

variable {K : Type} [Field K] [LinearOrder K] [IsStrictOrderedRing K]

/-! ## Auxiliary facts -/

theorem near_or_iff (tol v : K) (lb ub : Option K) : (near tol v lb ∨ near tol v ub) ↔ AtBound tol v lb ub := by
  unfold AtBound near
  constructor
  · rintro (h | h)
    · cases lb with
      | none => exact absurd h id
      | some b => exact ⟨b, Or.inl rfl, h⟩
    · cases ub with
      | none => exact absurd h id
      | some b => exact ⟨b, Or.inr rfl, h⟩
  · rintro ⟨b, rfl | rfl, h⟩
    · exact Or.inl h
    · exact Or.inr h

theorem far_iff_not_near (tol v : K) (b : Option K) : far tol v b ↔ ¬ near tol v b := by
  cases b with
  | none => simp [far, near]
  | some b => simp [far, near]

theorem mem_whereActive (tol : K) (n : Nat) (v : Nat → K) (lb ub : Nat → Option K) (i : Nat) :
    i ∈ whereActive tol n v lb ub ↔ i < n ∧ AtBound tol (v i) (lb i) (ub i) := by
  simp [whereActive, near_or_iff]

theorem mem_whereInactive (tol : K) (n : Nat) (v : Nat → K) (lb ub : Nat → Option K) (i : Nat) :
    i ∈ whereInactive tol n v lb ub ↔ i < n ∧ ¬ AtBound tol (v i) (lb i) (ub i) := by
  rw [← near_or_iff]
  simp [whereInactive, far_iff_not_near, not_or]

theorem nodup_whereActive (tol : K) (n : Nat) (v : Nat → K) (lb ub : Nat → Option K) : (whereActive tol n v lb ub).Nodup :=
  List.nodup_range.filter _

theorem mem_consActive (N : Nlp K) (tol : K) (s : Sol K) (m : Nat) :
    m ∈ consActive N tol s ↔ m < N.ng + N.nx ∧ ActiveCons N tol s m := by
  unfold consActive ActiveCons
  rw [List.mem_append, List.mem_map, mem_whereActive]
  constructor
  · rintro (⟨h1, h2⟩ | ⟨i, hi, rfl⟩)
    · rw [if_pos h1]; exact ⟨by omega, h2⟩
    · rw [mem_whereActive] at hi
      rw [if_neg (by omega), Nat.add_sub_cancel]
      exact ⟨by omega, hi.2⟩
  · rintro ⟨h1, h2⟩
    split at h2
    · exact Or.inl ⟨by assumption, h2⟩
    · refine Or.inr ⟨m - N.ng, ?_, by omega⟩
      rw [mem_whereActive]
      exact ⟨by omega, h2⟩

theorem mem_consInactive (N : Nlp K) (tol : K) (s : Sol K) (m : Nat) :
    m ∈ consInactive N tol s ↔ m < N.ng + N.nx ∧ ¬ ActiveCons N tol s m := by
  unfold consInactive ActiveCons
  rw [List.mem_append, List.mem_map, mem_whereInactive]
  constructor
  · rintro (⟨h1, h2⟩ | ⟨i, hi, rfl⟩)
    · rw [if_pos h1]; exact ⟨by omega, h2⟩
    · rw [mem_whereInactive] at hi
      rw [if_neg (by omega), Nat.add_sub_cancel]
      exact ⟨by omega, hi.2⟩
  · rintro ⟨h1, h2⟩
    split at h2
    · exact Or.inl ⟨by assumption, h2⟩
    · refine Or.inr ⟨m - N.ng, ?_, by omega⟩
      rw [mem_whereInactive]
      exact ⟨by omega, h2⟩

theorem nodup_consActive (N : Nlp K) (tol : K) (s : Sol K) : (consActive N tol s).Nodup := by
  unfold consActive
  rw [List.nodup_append]
  refine ⟨nodup_whereActive .., (nodup_whereActive ..).map (fun a b h => by simpa using h), ?_⟩
  intro a ha b hb hab
  rw [mem_whereActive] at ha
  obtain ⟨i, _, rfl⟩ := List.mem_map.1 hb
  have := ha.1
  omega

theorem scatterRows_spec {α : Type} (idx : List Nat) (hn : idx.Nodup) (rows M : Nat → Nat → α) (r : Nat) :
    scatterRows idx rows M r = if r ∈ idx then rows (idx.idxOf r) else M r := by
  unfold scatterRows
  suffices h : ∀ (n : Nat) (M : Nat → Nat → α),
      (idx.zipIdx n).foldl (fun M q => Function.update M q.1 (rows q.2)) M r = if r ∈ idx then rows (n + idx.idxOf r) else M r by
    simpa using h 0 M
  induction idx with
  | nil => intro n M; simp
  | cons a l ih =>
    intro n M
    rw [List.nodup_cons] at hn
    rw [List.zipIdx_cons, List.foldl_cons, ih hn.2]
    by_cases hr : r = a
    · subst hr
      simp [hn.1]
    · by_cases hl : r ∈ l
      · rw [if_pos hl, if_pos (List.mem_cons_of_mem _ hl), List.idxOf_cons_ne _ (Ne.symm hr)]
        congr 1
        omega
      · rw [if_neg hl, if_neg (by simp [hr, hl]), Function.update_of_ne hr]

theorem scatterRow_spec {α : Type} (idx : List Nat) (hn : idx.Nodup) (vals M : Nat → α) (r : Nat) (n : Nat) :
    (idx.zipIdx n).foldl (fun row t => Function.update row t.1 (vals t.2)) M r = if r ∈ idx then vals (n + idx.idxOf r) else M r := by
  induction idx generalizing n M with
  | nil => simp
  | cons a l ih =>
    rw [List.nodup_cons] at hn
    rw [List.zipIdx_cons, List.foldl_cons, ih hn.2]
    by_cases hr : r = a
    · subst hr
      simp [hn.1]
    · by_cases hl : r ∈ l
      · rw [if_pos hl, if_pos (List.mem_cons_of_mem _ hl), List.idxOf_cons_ne _ (Ne.symm hr)]
        congr 1
        omega
      · rw [if_neg hl, if_neg (by simp [hr, hl]), Function.update_of_ne hr]

theorem scatterMat_spec {α : Type} (ri ci : List Nat) (hr : ri.Nodup) (hc : ci.Nodup) (vals M : Nat → Nat → α) (r c : Nat) :
    scatterMat ri ci vals M r c = if r ∈ ri ∧ c ∈ ci then vals (ri.idxOf r) (ci.idxOf c) else M r c := by
  unfold scatterMat
  suffices h : ∀ (n : Nat) (M : Nat → Nat → α),
      (ri.zipIdx n).foldl (fun M q => Function.update M q.1
        (ci.zipIdx.foldl (fun row t => Function.update row t.1 (vals q.2 t.2)) (M q.1))) M r c =
      if r ∈ ri ∧ c ∈ ci then vals (n + ri.idxOf r) (ci.idxOf c) else M r c by
    simpa using h 0 M
  induction ri with
  | nil => intro n M; simp
  | cons a l ih =>
    intro n M
    rw [List.nodup_cons] at hr
    rw [List.zipIdx_cons, List.foldl_cons, ih hr.2]
    by_cases hra : r = a
    · subst hra
      rw [if_neg (by simp [hr.1]), Function.update_self, scatterRow_spec ci hc]
      simp
    · by_cases hl : r ∈ l ∧ c ∈ ci
      · rw [if_pos hl, if_pos ⟨List.mem_cons_of_mem _ hl.1, hl.2⟩, List.idxOf_cons_ne _ (Ne.symm hra)]
        congr 1
        omega
      · rw [if_neg hl, if_neg (by simpa [hra] using hl), Function.update_of_ne hra]

theorem mem_detIdx (n : Nat) (dep : Nat → Bool) (i : Nat) : i ∈ detIdx n dep ↔ i < n ∧ dep i = true := by simp [detIdx]
theorem mem_undetIdx (n : Nat) (dep : Nat → Bool) (i : Nat) : i ∈ undetIdx n dep ↔ i < n ∧ dep i = false := by simp [undetIdx]
theorem nodup_detIdx (n : Nat) (dep : Nat → Bool) : (detIdx n dep).Nodup := List.nodup_range.filter _

/-! ## C49 -/

/-- **C49**: every constraint (and every bound) is classified as active or inactive, never both, and active means being within the tolerance of a
finite bound. -/
theorem C49_partition (N : Nlp K) (tol : K) (s : Sol K) :
    (∀ m, m ∈ consActive N tol s ↔ m < N.ng + N.nx ∧ ActiveCons N tol s m) ∧
    (∀ m < N.ng + N.nx, m ∈ consActive N tol s ∨ m ∈ consInactive N tol s) ∧
    (∀ m, ¬ (m ∈ consActive N tol s ∧ m ∈ consInactive N tol s)) ∧
    (consActive N tol s).Nodup := by
  refine ⟨mem_consActive N tol s, ?_, ?_, nodup_consActive N tol s⟩
  · intro m hm
    by_cases h : ActiveCons N tol s m
    · exact Or.inl ((mem_consActive ..).2 ⟨hm, h⟩)
    · exact Or.inr ((mem_consInactive ..).2 ⟨hm, h⟩)
  · rintro m ⟨h1, h2⟩
    exact ((mem_consInactive ..).1 h2).2 ((mem_consActive ..).1 h1).2

/-- **C49**: the rows of `dlam_dp` of inactive constraints are zero; the row of the `a`-th active constraint is row `n_x + a` of the solution of the
linear system. -/
theorem C49_multiplier_map (N : Nlp K) (S : Settings K) (lin lstsq : LinSolver K) (s : Sol K) (p : Nat → K) :
    (∀ m ∈ consInactive N S.tol s, ∀ k, (core N S lin lstsq s p).dlam m k = some 0) ∧
    ∀ a (h : a < (consActive N S.tol s).length) k,
      (core N S lin lstsq s p).dlam (consActive N S.tol s)[a] k =
        paramSens N S lin lstsq s.x s.lamG p (consActive N S.tol s) (N.nx + a) k := by
  have hn := nodup_consActive N S.tol s
  refine ⟨?_, ?_⟩
  · intro m hm k
    have h : m ∉ consActive N S.tol s := fun h => (C49_partition N S.tol s).2.2.1 m ⟨h, hm⟩
    simp only [core, mapDlam, scatterRows_spec _ hn, if_neg h, zeros]
  · intro a h k
    simp only [core, mapDlam, scatterRows_spec _ hn, if_pos (List.getElem_mem h)]
    rw [hn.idxOf_getElem]

/-- an NLP with one constraint, three variables of which the second one does not occur, and two parameters of which the first one does not occur:
`min x0²/2 + x2²/2 - p1 x2`, `g = x0 + x2` -/
def exNlp : Nlp ℚ where
  nx := 3
  ng := 1
  np := 2
  depX := fun i => decide (i ≠ 1)
  depP := fun k => decide (k ≠ 0)
  lbx := fun _ => some 0
  ubx := fun _ => none
  lbg := fun _ => some 1
  ubg := fun _ => some 1
  hxx := fun _ _ _ i j => if i = j ∧ i ≠ 1 then 1 else 0
  hxp := fun _ _ _ i k => if i = 2 ∧ k = 1 then -1 else 0
  jac := fun _ _ _ j => if j = 1 then 0 else 1
  jacP := fun _ _ _ _ => 0

/-- the constraint and the first bound are active, the other bounds are not -/
example : consActive exNlp (1 / 10) ⟨fun i => i, fun _ => 1, fun _ => 0, fun _ => 0⟩ = [0, 1] ∧
    consInactive exNlp (1 / 10) ⟨fun i => i, fun _ => 1, fun _ => 0, fun _ => 0⟩ = [2, 3] := by
  constructor <;> decide +kernel

/-! ## C50 -/

example : detIdx exNlp.nx exNlp.depX = [0, 2] ∧ detIdx exNlp.np exNlp.depP = [1] ∧ exNlp.isReduced = true := by decide +kernel


/-- **C50**: the removed and the remaining variables (parameters) are a partition. -/
theorem C50_partition (n : Nat) (dep : Nat → Bool) (i : Nat) :
    (i ∈ detIdx n dep ↔ i < n ∧ dep i = true) ∧ (i ∈ undetIdx n dep ↔ i < n ∧ dep i = false) ∧ (detIdx n dep).Nodup :=
  ⟨mem_detIdx n dep i, mem_undetIdx n dep i, nodup_detIdx n dep⟩

/-- **C50**: mapping back puts the entry of the `a`-th remaining variable and the `b`-th remaining parameter at their original position, and zero at
all positions of removed ones; the same for multipliers, where the multipliers of `g` keep their position. -/
theorem C50_map_back (N : Nlp K) (o : Out K) :
    (∀ a (ha : a < (detIdx N.nx N.depX).length) b (hb : b < (detIdx N.np N.depP).length),
      (mapFull N o).dx (detIdx N.nx N.depX)[a] (detIdx N.np N.depP)[b] = o.dx a b ∧
      (mapFull N o).dlam (N.ng + (detIdx N.nx N.depX)[a]) (detIdx N.np N.depP)[b] = o.dlam (N.ng + a) b) ∧
    (∀ c < N.ng, ∀ b (hb : b < (detIdx N.np N.depP).length), (mapFull N o).dlam c (detIdx N.np N.depP)[b] = o.dlam c b) ∧
    (∀ i k, (N.depX i = false ∨ N.depP k = false) →
      (mapFull N o).dx i k = some 0 ∧ (mapFull N o).dlam (N.ng + i) k = some 0) ∧
    (∀ c < N.ng, ∀ k, N.depP k = false → (mapFull N o).dlam c k = some 0) := by
  have hx := nodup_detIdx N.nx N.depX
  have hp := nodup_detIdx N.np N.depP
  have hl : (List.range N.ng ++ (detIdx N.nx N.depX).map (· + N.ng)).Nodup := by
    rw [List.nodup_append]
    refine ⟨List.nodup_range, hx.map (fun a b h => by simpa using h), ?_⟩
    intro a ha b hb hab
    obtain ⟨i, _, rfl⟩ := List.mem_map.1 hb
    rw [List.mem_range] at ha
    omega
  refine ⟨?_, ?_, ?_, ?_⟩
  · intro a ha b hb
    refine ⟨?_, ?_⟩
    · simp only [mapFull, scatterMat_spec _ _ hx hp]
      rw [if_pos ⟨List.getElem_mem ha, List.getElem_mem hb⟩, hx.idxOf_getElem, hp.idxOf_getElem]
    · simp only [mapFull, scatterMat_spec _ _ hl hp]
      have e : N.ng + (detIdx N.nx N.depX)[a] =
          (List.range N.ng ++ (detIdx N.nx N.depX).map (· + N.ng))[N.ng + a]'(by simp; omega) := by
        rw [List.getElem_append_right (by simp)]
        simp [Nat.add_comm]
      rw [e, if_pos ⟨List.getElem_mem _, List.getElem_mem hb⟩, hl.idxOf_getElem, hp.idxOf_getElem]
  · intro c hc b hb
    simp only [mapFull, scatterMat_spec _ _ hl hp]
    have e : c = (List.range N.ng ++ (detIdx N.nx N.depX).map (· + N.ng))[c]'(by simp; omega) := by
      rw [List.getElem_append_left (by simpa using hc)]
      simp
    rw [if_pos ⟨by rw [e]; exact List.getElem_mem _, List.getElem_mem hb⟩, hp.idxOf_getElem]
    conv_lhs => rw [e, hl.idxOf_getElem]
  · intro i k hik
    refine ⟨?_, ?_⟩
    · simp only [mapFull, scatterMat_spec _ _ hx hp, zeros]
      rw [if_neg]
      rintro ⟨h1, h2⟩
      rw [mem_detIdx] at h1 h2
      rcases hik with h | h <;> simp_all
    · simp only [mapFull, scatterMat_spec _ _ hl hp, zeros]
      rw [if_neg]
      rintro ⟨h1, h2⟩
      rw [mem_detIdx] at h2
      rw [List.mem_append, List.mem_range, List.mem_map] at h1
      rcases h1 with h1 | ⟨j, hj, hji⟩
      · omega
      · have : j = i := by omega
        subst this
        rw [mem_detIdx] at hj
        rcases hik with h | h <;> simp_all
  · intro c hc k hk
    simp only [mapFull, scatterMat_spec _ _ hl hp, zeros]
    rw [if_neg]
    rintro ⟨_, h2⟩
    rw [mem_detIdx] at h2
    simp_all

/-! ## C58: the linearised conditions -/

theorem sum_list_eq (l : List Nat) (hn : l.Nodup) (M : Nat) (hM : ∀ m ∈ l, m < M) (G t : Nat → K) :
    ∑ a ∈ Finset.range l.length, G (l.getD a 0) * t a = ∑ m ∈ Finset.range M, G m * (if m ∈ l then t (l.idxOf m) else 0) := by
  have e1 : ∑ m ∈ Finset.range M, G m * (if m ∈ l then t (l.idxOf m) else 0) =
      ∑ m ∈ (Finset.range M).filter (· ∈ l), G m * t (l.idxOf m) := by
    rw [Finset.sum_filter]
    apply Finset.sum_congr rfl
    intro m _
    split <;> simp
  rw [e1]
  refine Finset.sum_bij' (fun a _ => l.getD a 0) (fun m _ => l.idxOf m) ?_ ?_ ?_ ?_ ?_
  · intro a ha
    rw [Finset.mem_range] at ha
    have h : l.getD a 0 = l[a] := by simp [List.getD_eq_getElem?_getD, ha]
    simp only [Finset.mem_filter, Finset.mem_range, h]
    exact ⟨hM _ (List.getElem_mem ha), List.getElem_mem ha⟩
  · intro m hm
    simp only [Finset.mem_filter, Finset.mem_range] at hm ⊢
    exact List.idxOf_lt_length_of_mem hm.2
  · intro a ha
    rw [Finset.mem_range] at ha
    have h : l.getD a 0 = l[a] := by simp [List.getD_eq_getElem?_getD, ha]
    simp only [h]
    exact hn.idxOf_getElem _ _
  · intro m hm
    simp only [Finset.mem_filter, Finset.mem_range] at hm
    have h := List.idxOf_lt_length_of_mem hm.2
    simp [List.getD_eq_getElem?_getD, h]
  · intro a ha
    rw [Finset.mem_range] at ha
    have h : l.getD a 0 = l[a] := by simp [List.getD_eq_getElem?_getD, ha]
    simp only [h, hn.idxOf_getElem]

theorem keep_length (N : Nlp K) (act : List Nat) : (keepIdx N act).length = N.nx + act.length := by simp [keepIdx]

theorem keep_left (N : Nlp K) (act : List Nat) (i : Nat) (h : i < N.nx) : (keepIdx N act).getD i 0 = i := by
  rw [List.getD_eq_getElem?_getD, keepIdx, List.getElem?_append_left (by simpa using h)]
  simp [h]

theorem keep_right (N : Nlp K) (act : List Nat) (a : Nat) (h : a < act.length) : (keepIdx N act).getD (N.nx + a) 0 = act.getD a 0 + N.nx := by
  rw [List.getD_eq_getElem?_getD, keepIdx, List.getElem?_append_right (by simp)]
  simp [h, List.getD_eq_getElem?_getD]

/-- a row of the reduced system, over all variables and all constraints -/
theorem row_eq (N : Nlp K) (x l p : Nat → K) (act : List Nat) (hn : act.Nodup) (hM : ∀ m ∈ act, m < N.ng + N.nx) (sv : Nat → K) (r : Nat) :
    ∑ b ∈ Finset.range (keepIdx N act).length, kktA N x l p r ((keepIdx N act).getD b 0) * sv b =
      ∑ j ∈ Finset.range N.nx, kktA N x l p r j * sv j +
      ∑ m ∈ Finset.range (N.ng + N.nx), kktA N x l p r (m + N.nx) * (if m ∈ act then sv (N.nx + act.idxOf m) else 0) := by
  rw [keep_length, Finset.sum_range_add]
  congr 1
  · apply Finset.sum_congr rfl
    intro j hj
    rw [keep_left N act j (Finset.mem_range.1 hj)]
  · rw [← sum_list_eq act hn (N.ng + N.nx) hM (fun m => kktA N x l p r (m + N.nx)) (fun a => sv (N.nx + a))]
    apply Finset.sum_congr rfl
    intro a ha
    rw [keep_right N act a (Finset.mem_range.1 ha)]

theorem sum_ite_pick (n : Nat) (i : Nat) (hi : i < n) (t : Nat → K) : ∑ j ∈ Finset.range n, (if j = i then 1 else 0) * t j = t i := by
  simp [hi]

/-- The system solved by the linear solver is the linearised KKT system. -/
theorem system_kkt (N : Nlp K) (x l p : Nat → K) (act : List Nat) (hn : act.Nodup) (hM : ∀ m ∈ act, m < N.ng + N.nx) (sv : Nat → K) (k : Nat) :
    (∀ a < (keepIdx N act).length, ∑ b ∈ Finset.range (keepIdx N act).length,
        takeMat (keepIdx N act) (keepIdx N act) (kktA N x l p) a b * sv b = - kktB N x l p ((keepIdx N act).getD a 0) k) ↔
    LinearizedKkt N x l p (fun c => c ∈ act) (fun i => N.ng + i ∈ act) sv
      (fun c => if c ∈ act then sv (N.nx + act.idxOf c) else 0) (fun i => if N.ng + i ∈ act then sv (N.nx + act.idxOf (N.ng + i)) else 0) k := by
  have hrow : ∀ a, ∑ b ∈ Finset.range (keepIdx N act).length, takeMat (keepIdx N act) (keepIdx N act) (kktA N x l p) a b * sv b =
      ∑ j ∈ Finset.range N.nx, kktA N x l p ((keepIdx N act).getD a 0) j * sv j +
      ∑ m ∈ Finset.range (N.ng + N.nx), kktA N x l p ((keepIdx N act).getD a 0) (m + N.nx) * (if m ∈ act then sv (N.nx + act.idxOf m) else 0) :=
    fun a => row_eq N x l p act hn hM sv _
  -- rows of variables
  have hstat : ∀ i < N.nx, ∑ j ∈ Finset.range N.nx, kktA N x l p i j * sv j +
      ∑ m ∈ Finset.range (N.ng + N.nx), kktA N x l p i (m + N.nx) * (if m ∈ act then sv (N.nx + act.idxOf m) else 0) =
      ∑ j ∈ Finset.range N.nx, N.hxx x l p i j * sv j +
      ∑ c ∈ Finset.range N.ng, N.jac x p c i * (if c ∈ act then sv (N.nx + act.idxOf c) else 0) +
      (if N.ng + i ∈ act then sv (N.nx + act.idxOf (N.ng + i)) else 0) := by
    intro i hi
    rw [Finset.sum_range_add, ← add_assoc]
    congr 1
    · congr 1
      · apply Finset.sum_congr rfl
        intro j hj
        simp [kktA, hi, Finset.mem_range.1 hj]
      · apply Finset.sum_congr rfl
        intro c hc
        have : ¬ (c + N.nx < N.nx) := by omega
        simp [kktA, hi, this, consJac, Finset.mem_range.1 hc]
    · have : ∀ j, kktA N x l p i (N.ng + j + N.nx) = if j = i then 1 else 0 := by
        intro j
        have h1 : ¬ (N.ng + j + N.nx < N.nx) := by omega
        have h2 : ¬ (N.ng + j < N.ng) := by omega
        simp [kktA, hi, h1, consJac, h2]
      simp only [this]
      exact sum_ite_pick N.nx i hi (fun j => if N.ng + j ∈ act then sv (N.nx + act.idxOf (N.ng + j)) else 0)
  -- rows of constraints
  have hcons : ∀ m, ∑ j ∈ Finset.range N.nx, kktA N x l p (m + N.nx) j * sv j +
      ∑ m' ∈ Finset.range (N.ng + N.nx), kktA N x l p (m + N.nx) (m' + N.nx) * (if m' ∈ act then sv (N.nx + act.idxOf m') else 0) =
      ∑ j ∈ Finset.range N.nx, consJac N x p m j * sv j := by
    intro m
    have h1 : ¬ (m + N.nx < N.nx) := by omega
    have h2 : ∀ m', kktA N x l p (m + N.nx) (m' + N.nx) = 0 := by
      intro m'
      have h3 : ¬ (m' + N.nx < N.nx) := by omega
      simp [kktA, h1, h3]
    simp only [h2, zero_mul, Finset.sum_const_zero, add_zero]
    apply Finset.sum_congr rfl
    intro j hj
    simp [kktA, h1, Finset.mem_range.1 hj]
  have hg : ∀ c < N.ng, ∑ j ∈ Finset.range N.nx, consJac N x p c j * sv j = ∑ j ∈ Finset.range N.nx, N.jac x p c j * sv j := by
    intro c hc
    simp [consJac, hc]
  have hb : ∀ i < N.nx, ∑ j ∈ Finset.range N.nx, consJac N x p (N.ng + i) j * sv j = sv i := by
    intro i hi
    have h2 : ¬ (N.ng + i < N.ng) := by omega
    simp [consJac, h2, hi]
  constructor
  · intro h
    refine ⟨?_, ?_, ?_, ?_, ?_⟩
    · intro i hi
      have h1 := h i (by rw [keep_length]; omega)
      rw [hrow, keep_left N act i hi, hstat i hi] at h1
      rw [h1]
      simp [kktB, hi]
    · intro c hc hca
      have ha := List.idxOf_lt_length_of_mem hca
      have h1 := h (N.nx + act.idxOf c) (by rw [keep_length]; omega)
      have h2 : act.getD (act.idxOf c) 0 = c := by simp [List.getD_eq_getElem?_getD, ha]
      have h3 : ¬ (c + N.nx < N.nx) := by omega
      rw [hrow, keep_right N act _ ha, h2, hcons, hg c hc] at h1
      rw [h1]
      simp [kktB, h3, hc]
    · intro i hi hia
      have ha := List.idxOf_lt_length_of_mem hia
      have h1 := h (N.nx + act.idxOf (N.ng + i)) (by rw [keep_length]; omega)
      have h2 : act.getD (act.idxOf (N.ng + i)) 0 = N.ng + i := by simp [List.getD_eq_getElem?_getD, ha]
      have h3 : ¬ (N.ng + i + N.nx < N.nx) := by omega
      rw [hrow, keep_right N act _ ha, h2, hcons, hb i hi] at h1
      rw [h1]
      simp [kktB, h3]
    · intro c _ hc; simp [hc]
    · intro i _ hi; simp [hi]
  · rintro ⟨h1, h2, h3, -, -⟩ a ha
    rw [keep_length] at ha
    rw [hrow]
    by_cases hax : a < N.nx
    · rw [keep_left N act a hax, hstat a hax]
      have := h1 a hax
      simp only [kktB, hax, if_true]
      exact eq_neg_of_add_eq_zero_left this
    · obtain ⟨b, rfl⟩ := Nat.exists_eq_add_of_le (not_lt.1 hax)
      have hb' : b < act.length := by omega
      have hg' : act.getD b 0 = act[b] := by simp [List.getD_eq_getElem?_getD, hb']
      have hmem : act[b] ∈ act := List.getElem_mem hb'
      rw [keep_right N act b hb', hg', hcons]
      have hlt := hM _ hmem
      by_cases hc : act[b] < N.ng
      · rw [hg _ hc]
        have := h2 _ hc hmem
        have h5 : ¬ (act[b] + N.nx < N.nx) := by omega
        simp only [kktB, h5, if_false, Nat.add_sub_cancel, hc, if_true]
        exact eq_neg_of_add_eq_zero_left this
      · obtain ⟨i, hi⟩ := Nat.exists_eq_add_of_le (not_lt.1 hc)
        rw [hi, hb i (by omega)]
        have := h3 i (by omega) (hi ▸ hmem)
        have h5 : ¬ (N.ng + i + N.nx < N.nx) := by omega
        simp [kktB, h5, this]

theorem Spec.LinearizedKkt.congr {N : Nlp K} {x l p : Nat → K} {aG aX aG' aX' : Nat → Prop} {dx dG dX : Nat → K} {k : Nat}
    (h : LinearizedKkt N x l p aG aX dx dG dX k) (hG : ∀ c < N.ng, (aG c ↔ aG' c)) (hX : ∀ i < N.nx, (aX i ↔ aX' i)) :
    LinearizedKkt N x l p aG' aX' dx dG dX k :=
  ⟨h.stationarity, fun c hc ha => h.activeG c hc ((hG c hc).2 ha), fun i hi ha => h.activeX i hi ((hX i hi).2 ha),
    fun c hc ha => h.inactiveG c hc (fun h' => ha ((hG c hc).1 h')), fun i hi ha => h.inactiveX i hi (fun h' => ha ((hX i hi).1 h'))⟩

theorem solveSystem_eq (N : Nlp K) (S : Settings K) (lin lstsq : LinSolver K) (hlin : Solves lin) (hls : S.lstsqFallback = true → Solves lstsq)
    (x l p : Nat → K) (act : List Nat) (sv : Nat → Nat → K) (h : solveSystem N S lin lstsq x l p act = some sv) (k : Nat) (hk : k < N.np) :
    ∀ a < (keepIdx N act).length, ∑ b ∈ Finset.range (keepIdx N act).length,
        takeMat (keepIdx N act) (keepIdx N act) (kktA N x l p) a b * sv b k = - kktB N x l p ((keepIdx N act).getD a 0) k := by
  intro a ha
  unfold solveSystem at h
  dsimp only at h
  split at h
  · rename_i s' hs'
    obtain rfl := Option.some.inj h
    exact hlin _ _ _ _ _ hs' a ha k hk
  · split at h
    · rename_i hf
      exact hls hf _ _ _ _ _ h a ha k hk
    · cases h

theorem core_kkt (N : Nlp K) (S : Settings K) (lin lstsq : LinSolver K) (hlin : Solves lin) (hls : S.lstsqFallback = true → Solves lstsq)
    (s : Sol K) (p : Nat → K) (h : (core N S lin lstsq s p).solved = true) (k : Nat) (hk : k < N.np) :
    ∃ dx dlam : Nat → K, (∀ i, (core N S lin lstsq s p).dx i k = some (dx i)) ∧ (∀ m, (core N S lin lstsq s p).dlam m k = some (dlam m)) ∧
      LinearizedKkt N s.x s.lamG p (fun c => AtBound S.tol (s.g c) (N.lbg c) (N.ubg c)) (fun i => AtBound S.tol (s.x i) (N.lbx i) (N.ubx i))
        dx dlam (fun i => dlam (N.ng + i)) k := by
  have hn := nodup_consActive N S.tol s
  obtain ⟨sv, hsv⟩ := Option.isSome_iff_exists.1 h
  have hkkt := (system_kkt N s.x s.lamG p (consActive N S.tol s) hn (fun m hm => ((mem_consActive ..).1 hm).1) (fun a => sv a k) k).1
    (solveSystem_eq N S lin lstsq hlin hls _ _ _ _ sv hsv k hk)
  refine ⟨fun i => sv i k, fun m => if m ∈ consActive N S.tol s then sv (N.nx + (consActive N S.tol s).idxOf m) k else 0, ?_, ?_, ?_⟩
  · intro i
    simp only [core, paramSens, hsv, Option.map_some]
  · intro m
    simp only [core, mapDlam, scatterRows_spec _ hn]
    split <;> simp [zeros, paramSens, hsv, *]
  · refine hkkt.congr ?_ ?_
    · intro c hc
      rw [mem_consActive]
      simp [ActiveCons, hc]
      omega
    · intro i hi
      have h2 : ¬ (N.ng + i < N.ng) := by omega
      rw [mem_consActive]
      simp [ActiveCons, hi]

theorem embed_take (idx : List Nat) (v : Nat → K) (i : Nat) (hi : i ∈ idx) : embed idx (takeIdx 0 idx v) i = v i := by
  have h := List.idxOf_lt_length_of_mem hi
  simp [embed, takeIdx, hi, h]

theorem isReduced_false {N : Nlp K} (h : ¬ N.isReduced = true) : (∀ i < N.nx, N.depX i = true) ∧ ∀ k < N.np, N.depP k = true := by
  simp only [Nlp.isReduced, decide_eq_true_eq, not_lt, Nat.le_zero, Nat.add_eq_zero_iff, List.length_eq_zero_iff] at h
  refine ⟨fun i hi => ?_, fun k hk => ?_⟩
  · by_contra hd
    have : i ∈ undetIdx N.nx N.depX := (mem_undetIdx ..).2 ⟨hi, by simpa using hd⟩
    simp [h.1] at this
  · by_contra hd
    have : k ∈ undetIdx N.np N.depP := (mem_undetIdx ..).2 ⟨hk, by simpa using hd⟩
    simp [h.2] at this

theorem getD_mem {l : List Nat} {a : Nat} (h : a < l.length) : l.getD a 0 = l[a] := by simp [List.getD_eq_getElem?_getD, h]

theorem takeIdx_get {α : Type} (d : α) (idx : List Nat) (v : Nat → α) (a : Nat) (h : a < idx.length) : takeIdx d idx v a = v idx[a] := by
  simp [takeIdx, h]

/-- the premise of C58 holds for the example with removed variables -/
example : DependsCorrect exNlp := by
  constructor
  · intro x l p i j hi hd
    have : i = 1 := by simpa [exNlp] using hd
    simp [exNlp, this]
  · intro x l p i j hi hd
    have : j = 1 := by simpa [exNlp] using hd
    simp only [exNlp, this]
    rw [if_neg]
    rintro ⟨rfl, h⟩
    exact h rfl
  · intro x l p i k hi hd
    have : i = 1 := by simpa [exNlp] using hd
    simp [exNlp, this]
  · intro x l p i k hi hd
    have : k = 0 := by simpa [exNlp] using hd
    simp [exNlp, this]
  · intro x p c j hi hd
    have : j = 1 := by simpa [exNlp] using hd
    simp [exNlp, this]
  · intros; rfl
  · intros; exact ⟨rfl, rfl, rfl, rfl⟩

/-- **C58**.  Whenever `differentiate` returns and the linear system was solved, the returned matrices `dx_dp`, `dlam_dp` satisfy, column by column,
the linearised first-order conditions of the NLP that was passed to the constructor, also if variables or parameters were removed. -/
theorem C58_linearized_kkt (N : Nlp K) (hdep : DependsCorrect N) (S : Settings K) (lin lstsq : LinSolver K) (hlin : Solves lin)
    (hls : S.lstsqFallback = true → Solves lstsq) (s : Sol K) (p : List K) (o : Out K) (h : differentiate N S lin lstsq s p = .ok o)
    (hs : o.solved = true) (k : Nat) (hk : k < N.np) :
    ∃ dx dlam : Nat → K, (∀ i < N.nx, o.dx i k = some (dx i)) ∧ (∀ m < N.ng + N.nx, o.dlam m k = some (dlam m)) ∧
      LinearizedKkt N s.x s.lamG (fun i => p.getD i 0) (fun c => AtBound S.tol (s.g c) (N.lbg c) (N.ubg c))
        (fun i => AtBound S.tol (s.x i) (N.lbx i) (N.ubx i)) dx dlam (fun i => dlam (N.ng + i)) k := by
  unfold differentiate at h
  dsimp only at h
  split at h
  · rename_i hred
    split at h
    · cases h
    split at h
    · cases h
    obtain rfl := Except.ok.inj h
    set dX := detIdx N.nx N.depX with hdX
    set dP := detIdx N.np N.depP with hdP
    have hXn : dX.Nodup := nodup_detIdx ..
    have hPn : dP.Nodup := nodup_detIdx ..
    have hXm : ∀ i, i ∈ dX ↔ i < N.nx ∧ N.depX i = true := mem_detIdx N.nx N.depX
    have hPm : ∀ i, i ∈ dP ↔ i < N.np ∧ N.depP i = true := mem_detIdx N.np N.depP
    obtain ⟨m1, m2, m3, m4⟩ := C50_map_back N (core N.reduce S lin lstsq (reduceSol N s) (takeIdx 0 dP fun i => p.getD i 0))
    by_cases hkd : N.depP k = true
    · -- a parameter that occurs
      have hkm : k ∈ dP := (hPm k).2 ⟨hk, hkd⟩
      have hbl := List.idxOf_lt_length_of_mem hkm
      have hbk : dP[dP.idxOf k] = k := List.getElem_idxOf hbl
      obtain ⟨dx, dlam, e1, e2, hK⟩ := core_kkt N.reduce S lin lstsq hlin hls (reduceSol N s) (takeIdx 0 dP fun i => p.getD i 0) hs
        (dP.idxOf k) hbl
      obtain ⟨u1, u2, u3, u4⟩ := hdep.unchanged (embed dX (takeIdx 0 dX s.x)) s.x s.lamG
        (embed dP (takeIdx 0 dP fun i => p.getD i 0)) (fun i => p.getD i 0)
        (fun i hi hd => embed_take dX s.x i ((hXm i).2 ⟨hi, hd⟩))
        (fun i hi hd => embed_take dP (fun i => p.getD i 0) i ((hPm i).2 ⟨hi, hd⟩))
      -- derivatives of the reduced problem
      have q1 : ∀ a b, N.reduce.hxx (reduceSol N s).x (reduceSol N s).lamG (takeIdx 0 dP fun i => p.getD i 0) a b =
          N.hxx s.x s.lamG (fun i => p.getD i 0) (dX.getD a 0) (dX.getD b 0) := by
        intro a b
        show takeMat dX dX (N.hxx (embed dX (takeIdx 0 dX s.x)) s.lamG (embed dP (takeIdx 0 dP fun i => p.getD i 0))) a b = _
        rw [u1]; rfl
      have q2 : ∀ a b, N.reduce.hxp (reduceSol N s).x (reduceSol N s).lamG (takeIdx 0 dP fun i => p.getD i 0) a b =
          N.hxp s.x s.lamG (fun i => p.getD i 0) (dX.getD a 0) (dP.getD b 0) := by
        intro a b
        show takeMat dX dP (N.hxp (embed dX (takeIdx 0 dX s.x)) s.lamG (embed dP (takeIdx 0 dP fun i => p.getD i 0))) a b = _
        rw [u2]; rfl
      have q3 : ∀ c b, N.reduce.jac (reduceSol N s).x (takeIdx 0 dP fun i => p.getD i 0) c b =
          N.jac s.x (fun i => p.getD i 0) c (dX.getD b 0) := by
        intro c b
        show N.jac (embed dX (takeIdx 0 dX s.x)) (embed dP (takeIdx 0 dP fun i => p.getD i 0)) c (dX.getD b 0) = _
        rw [u3]
      have q4 : ∀ c b, N.reduce.jacP (reduceSol N s).x (takeIdx 0 dP fun i => p.getD i 0) c b =
          N.jacP s.x (fun i => p.getD i 0) c (dP.getD b 0) := by
        intro c b
        show N.jacP (embed dX (takeIdx 0 dX s.x)) (embed dP (takeIdx 0 dP fun i => p.getD i 0)) c (dP.getD b 0) = _
        rw [u4]
      have hrnx : N.reduce.nx = dX.length := rfl
      have hrng : N.reduce.ng = N.ng := rfl
      have hkg : dP.getD (dP.idxOf k) 0 = k := by rw [getD_mem hbl, hbk]
      -- sums over the remaining variables
      have hsum : ∀ G : Nat → K, ∑ a ∈ Finset.range dX.length, G (dX.getD a 0) * dx a =
          ∑ j ∈ Finset.range N.nx, G j * (if j ∈ dX then dx (dX.idxOf j) else 0) :=
        fun G => sum_list_eq dX hXn N.nx (fun m hm => ((hXm m).1 hm).1) G dx
      refine ⟨fun i => if i ∈ dX then dx (dX.idxOf i) else 0,
        fun m => if m < N.ng then dlam m else if m - N.ng ∈ dX then dlam (N.ng + dX.idxOf (m - N.ng)) else 0, ?_, ?_, ?_⟩
      · intro i hi
        dsimp only
        split
        · rename_i hid
          have hil := List.idxOf_lt_length_of_mem hid
          have := (m1 (dX.idxOf i) hil (dP.idxOf k) hbl).1
          rw [e1] at this
          have hix : dX[dX.idxOf i] = i := List.getElem_idxOf hil
          simpa only [← hdX, ← hdP, hix, hbk] using this
        · rename_i hid
          refine (m3 i k (Or.inl ?_)).1
          by_contra hd
          exact hid ((hXm i).2 ⟨hi, by simpa using hd⟩)
      · intro m hm
        dsimp only
        split
        · rename_i hmg
          have := m2 m hmg (dP.idxOf k) hbl
          rw [e2] at this
          simpa only [← hdP, hbk] using this
        · rename_i hmg
          obtain ⟨i, rfl⟩ := Nat.exists_eq_add_of_le (not_lt.1 hmg)
          rw [Nat.add_sub_cancel_left]
          split
          · rename_i hid
            have hil := List.idxOf_lt_length_of_mem hid
            have := (m1 (dX.idxOf i) hil (dP.idxOf k) hbl).2
            rw [e2] at this
            have hix : dX[dX.idxOf i] = i := List.getElem_idxOf hil
            simpa only [← hdX, ← hdP, hix, hbk] using this
          · rename_i hid
            refine (m3 i k (Or.inl ?_)).2
            by_contra hd
            exact hid ((hXm i).2 ⟨by omega, by simpa using hd⟩)
      · refine ⟨?_, ?_, ?_, ?_, ?_⟩
        · intro i hi
          dsimp only
          have hng : ¬ (N.ng + i < N.ng) := by omega
          rw [if_neg hng, Nat.add_sub_cancel_left]
          have hGs : ∑ c ∈ Finset.range N.ng, N.jac s.x (fun i => p.getD i 0) c i *
              (if c < N.ng then dlam c else if c - N.ng ∈ dX then dlam (N.ng + dX.idxOf (c - N.ng)) else 0) =
              ∑ c ∈ Finset.range N.ng, N.jac s.x (fun i => p.getD i 0) c i * dlam c := by
            apply Finset.sum_congr rfl
            intro c hc
            rw [if_pos (Finset.mem_range.1 hc)]
          rw [hGs]
          by_cases hid : i ∈ dX
          · have hil := List.idxOf_lt_length_of_mem hid
            have hix : dX.getD (dX.idxOf i) 0 = i := by rw [getD_mem hil, List.getElem_idxOf hil]
            have hst := hK.stationarity (dX.idxOf i) hil
            simp only [q1, q2, q3, hix, hkg, hrnx, hrng] at hst
            rw [hsum (fun j => N.hxx s.x s.lamG (fun i => p.getD i 0) i j)] at hst
            rw [if_pos hid]
            exact hst
          · have hd : N.depX i = false := by
              by_contra hd
              exact hid ((hXm i).2 ⟨hi, by simpa using hd⟩)
            rw [if_neg hid, hdep.hxp_left _ _ _ _ _ hi hd]
            simp [hdep.hxx_left _ _ _ _ _ hi hd, hdep.jac _ _ _ _ hi hd]
        · intro c hc hac
          have := hK.activeG c hc hac
          simp only [q3, q4, hkg, hrnx] at this
          rwa [hsum (fun j => N.jac s.x (fun i => p.getD i 0) c j)] at this
        · intro i hi hai
          by_cases hid : i ∈ dX
          swap
          · exact if_neg hid
          have hil := List.idxOf_lt_length_of_mem hid
          have hix : dX[dX.idxOf i] = i := List.getElem_idxOf hil
          rw [if_pos hid]
          refine hK.activeX (dX.idxOf i) hil ?_
          show AtBound S.tol (takeIdx 0 dX s.x (dX.idxOf i)) (takeIdx none dX N.lbx (dX.idxOf i)) (takeIdx none dX N.ubx (dX.idxOf i))
          rw [takeIdx_get _ _ _ _ hil, takeIdx_get _ _ _ _ hil, takeIdx_get _ _ _ _ hil, hix]
          exact hai
        · intro c hc hac
          rw [if_pos hc]
          exact hK.inactiveG c hc hac
        · intro i hi hai
          have hng : ¬ (N.ng + i < N.ng) := by omega
          show (if N.ng + i < N.ng then _ else _) = _
          rw [if_neg hng, Nat.add_sub_cancel_left]
          split
          · rename_i hid
            have hil := List.idxOf_lt_length_of_mem hid
            have hix : dX[dX.idxOf i] = i := List.getElem_idxOf hil
            refine hK.inactiveX (dX.idxOf i) hil ?_
            show ¬ AtBound S.tol (takeIdx 0 dX s.x (dX.idxOf i)) (takeIdx none dX N.lbx (dX.idxOf i)) (takeIdx none dX N.ubx (dX.idxOf i))
            rw [takeIdx_get _ _ _ _ hil, takeIdx_get _ _ _ _ hil, takeIdx_get _ _ _ _ hil, hix]
            exact hai
          · rfl
    · -- a parameter that does not occur
      have hkf : N.depP k = false := by simpa using hkd
      refine ⟨fun _ => 0, fun _ => 0, fun i _ => (m3 i k (Or.inr hkf)).1, ?_, ?_⟩
      · intro m hm
        by_cases hmg : m < N.ng
        · exact m4 m hmg k hkf
        · obtain ⟨i, rfl⟩ := Nat.exists_eq_add_of_le (not_lt.1 hmg)
          exact (m3 i k (Or.inr hkf)).2
      · refine ⟨?_, ?_, ?_, ?_, ?_⟩
        · intro i hi
          simp [hdep.hxp_right _ _ _ _ _ hk hkf]
        · intro c hc _
          simp [hdep.jacP _ _ _ _ hk hkf]
        all_goals intros; rfl
  · rename_i hred
    split at h
    · cases h
    split at h
    · cases h
    obtain rfl := Except.ok.inj h
    obtain ⟨dx, dlam, e1, e2, hK⟩ := core_kkt N S lin lstsq hlin hls s (fun i => p.getD i 0) hs k hk
    exact ⟨dx, dlam, fun i _ => e1 i, fun m _ => e2 m, hK⟩

end DoMpc.Diff
