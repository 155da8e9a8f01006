import Verif.Model.DiffStatus
import Verif.Spec.DiffStatus
import Verif.Props.DifferentiatorDeriv

/-!
# C91: the status of the differentiator
-/
set_option linter.unusedSectionVars false
namespace DoMpc.Diff

open scoped BigOperators
open DoMpc.Diff.Spec

variable {K : Type} [Field K] [LinearOrder K] [IsStrictOrderedRing K]

/-! ### Rank -/

/-- a finite vector as a function on natural numbers -/
def ofFin' {n : Nat} (v : Fin n → K) : Nat → K := fun i => if h : i < n then v ⟨i, h⟩ else 0

/-- full row rank: the rows are independent -/
theorem rank_rows_iff (n m : Nat) (M : Nat → Nat → K) :
    matRank n m M = n ↔ ∀ c : Nat → K, (∀ j < m, ∑ a ∈ Finset.range n, c a * M a j = 0) → ∀ a < n, c a = 0 := by
  have h1 : matRank n m M = n ↔ LinearIndependent K (fun (i : Fin n) (j : Fin m) => M i j) := by
    rw [linearIndependent_iff_card_eq_finrank_span, Fintype.card_fin, matRank, Matrix.rank_eq_finrank_span_row]
    exact ⟨fun h => h.symm, fun h => h.symm⟩
  rw [h1, Fintype.linearIndependent_iff]
  constructor
  · intro h c hc a ha
    refine h (fun i => c i) ?_ ⟨a, ha⟩
    ext j
    simp only [Finset.sum_apply, Pi.smul_apply, smul_eq_mul, Pi.zero_apply]
    rw [← hc j j.2, Finset.sum_range]
  · intro h c hc i
    have := h (ofFin' c) ?_ i i.2
    · simpa [ofFin'] using this
    · intro j hj
      have := congrFun hc ⟨j, hj⟩
      simp only [Finset.sum_apply, Pi.smul_apply, smul_eq_mul, Pi.zero_apply] at this
      rw [Finset.sum_range, ← this]
      apply Finset.sum_congr rfl
      intro a _
      simp [ofFin']

/-- full rank of a square matrix: only the zero vector is mapped to zero -/
theorem rank_square_iff (n : Nat) (M : Nat → Nat → K) :
    matRank n n M = n ↔ ∀ v : Nat → K, (∀ a < n, ∑ b ∈ Finset.range n, M a b * v b = 0) → ∀ b < n, v b = 0 := by
  have ht : matRank n n M = matRank n n fun a b => M b a := by
    unfold matRank
    rw [← Matrix.rank_transpose]
    rfl
  rw [ht, rank_rows_iff]
  constructor
  · intro h v hv
    refine h v fun j hj => ?_
    rw [← hv j hj]
    exact Finset.sum_congr rfl fun a _ => mul_comm _ _
  · intro h v hv
    refine h v fun j hj => ?_
    rw [← hv j hj]
    exact Finset.sum_congr rfl fun a _ => mul_comm _ _

theorem rank_le_rows (n m : Nat) (M : Nat → Nat → K) : matRank n m M ≤ n := Matrix.rank_le_height _

/-! ### The checks for the problem that is solved -/

/-- the column sums of the gradients of active constraints -/
theorem cons_sum (N : Nlp K) (x p : Nat → K) (act : List Nat) (hn : act.Nodup) (hM : ∀ m ∈ act, m < N.ng + N.nx) (c : Nat → K) (j : Nat) (hj : j < N.nx) :
    ∑ a ∈ Finset.range act.length, c a * consJac N x p (act.getD a 0) j =
      ∑ m ∈ Finset.range N.ng, (if m ∈ act then c (act.idxOf m) else 0) * N.jac x p m j +
      (if N.ng + j ∈ act then c (act.idxOf (N.ng + j)) else 0) := by
  have h := sum_list_eq act hn (N.ng + N.nx) hM (fun m => consJac N x p m j) c
  rw [show ∑ a ∈ Finset.range act.length, c a * consJac N x p (act.getD a 0) j = ∑ a ∈ Finset.range act.length, consJac N x p (act.getD a 0) j * c a
    from Finset.sum_congr rfl fun a _ => mul_comm _ _, h, Finset.sum_range_add]
  congr 1
  · apply Finset.sum_congr rfl
    intro m hm
    rw [consJac, if_pos (Finset.mem_range.1 hm), mul_comm]
  · rw [← sum_ite_pick N.nx j hj fun i => if N.ng + i ∈ act then c (act.idxOf (N.ng + i)) else 0]
    apply Finset.sum_congr rfl
    intro i _
    have h1 : ¬ N.ng + i < N.ng := by omega
    rw [consJac, if_neg h1, Nat.add_sub_cancel_left]

/-- `_check_LICQ` decides the constraint qualification. -/
theorem checkLICQ_iff (N : Nlp K) (x p : Nat → K) (act : List Nat) (hn : act.Nodup) (hM : ∀ m ∈ act, m < N.ng + N.nx) :
    checkLICQ N x p act = true ↔ LICQ N x p (fun c => c ∈ act) (fun i => N.ng + i ∈ act) := by
  have h0 : checkLICQ N x p act = true ↔ matRank act.length N.nx (fun a j => consJac N x p (act.getD a 0) j) = act.length := by
    have hle := rank_le_rows act.length N.nx (fun a j => consJac N x p (act.getD a 0) j)
    unfold checkLICQ
    dsimp only
    split_ifs with h1 h2
    · refine ⟨fun _ => ?_, fun _ => rfl⟩
      omega
    · refine ⟨fun e => (by cases e), fun e => ?_⟩
      omega
    · refine ⟨fun _ => ?_, fun _ => rfl⟩
      omega
  rw [h0, rank_rows_iff]
  constructor
  · intro h muG muX hs hG hX
    let c : Nat → K := fun a => if act.getD a 0 < N.ng then muG (act.getD a 0) else muX (act.getD a 0 - N.ng)
    have hval : ∀ m ∈ act, c (act.idxOf m) = if m < N.ng then muG m else muX (m - N.ng) := by
      intro m hm
      have hl := List.idxOf_lt_length_of_mem hm
      have : act.getD (act.idxOf m) 0 = m := by rw [getD_mem hl]; exact List.getElem_idxOf hl
      simp only [c, this]
    have hz := h c ?_
    · have hzm : ∀ m ∈ act, (if m < N.ng then muG m else muX (m - N.ng)) = 0 := by
        intro m hm
        rw [← hval m hm]
        exact hz _ (List.idxOf_lt_length_of_mem hm)
      refine ⟨fun c' hc' => ?_, fun i hi => ?_⟩
      · by_cases hm : c' ∈ act
        · have := hzm c' hm
          rwa [if_pos hc'] at this
        · exact hG c' hc' hm
      · by_cases hm : N.ng + i ∈ act
        · have := hzm _ hm
          rwa [if_neg (by omega), Nat.add_sub_cancel_left] at this
        · exact hX i hi hm
    · intro j hj
      rw [cons_sum N x p act hn hM c j hj]
      refine Eq.trans ?_ (hs j hj)
      congr 1
      · apply Finset.sum_congr rfl
        intro m hm
        have hm' := Finset.mem_range.1 hm
        by_cases hma : m ∈ act
        · rw [if_pos hma, hval m hma, if_pos hm']
        · rw [if_neg hma, hG m hm' hma]
      · by_cases hma : N.ng + j ∈ act
        · rw [if_pos hma, hval _ hma, if_neg (by omega), Nat.add_sub_cancel_left]
        · rw [if_neg hma, hX j hj hma]
  · intro h c hc a ha
    obtain ⟨r1, r2⟩ := h (fun m => if m ∈ act then c (act.idxOf m) else 0) (fun i => if N.ng + i ∈ act then c (act.idxOf (N.ng + i)) else 0)
      (fun j hj => by rw [← cons_sum N x p act hn hM c j hj]; exact hc j hj) (fun m _ hm => if_neg hm) (fun i _ hm => if_neg hm)
    have hmem : act[a] ∈ act := List.getElem_mem ha
    have hidx : act.idxOf act[a] = a := hn.idxOf_getElem a ha
    have hlt := hM _ hmem
    by_cases hg : act[a] < N.ng
    · have := r1 _ hg
      rwa [if_pos hmem, hidx] at this
    · have := r2 (act[a] - N.ng) (by omega)
      rw [show N.ng + (act[a] - N.ng) = act[a] by omega] at this
      rwa [if_pos hmem, hidx] at this

/-- the homogeneous problem -/
def Nlp.homog (N : Nlp K) : Nlp K := { N with hxp := fun _ _ _ _ _ => 0, jacP := fun _ _ _ _ => 0 }

/-- `_check_rank` decides whether the linearised conditions determine the direction. -/
theorem checkRank_iff (N : Nlp K) (x l p : Nat → K) (act : List Nat) (hn : act.Nodup) (hM : ∀ m ∈ act, m < N.ng + N.nx)
    (hdep : ∀ i < N.nx, N.depX i = true) :
    checkRank N x l p act = true ↔ Regular N x l p (fun c => c ∈ act) (fun i => N.ng + i ∈ act) := by
  unfold checkRank
  dsimp only
  rw [decide_eq_true_eq, rank_square_iff]
  have hsys : ∀ sv : Nat → K, (∀ a < (keepIdx N act).length, ∑ b ∈ Finset.range (keepIdx N act).length,
      takeMat (keepIdx N act) (keepIdx N act) (kktA N x l p) a b * sv b = 0) ↔
      LinearizedKkt N.homog x l p (fun c => c ∈ act) (fun i => N.ng + i ∈ act) sv
        (fun c => if c ∈ act then sv (N.nx + act.idxOf c) else 0) (fun i => if N.ng + i ∈ act then sv (N.nx + act.idxOf (N.ng + i)) else 0) 0 := by
    intro sv
    refine Iff.trans ?_ (system_kkt N.homog x l p act hn hM sv 0)
    have hB : ∀ r, kktB N.homog x l p r 0 = 0 := by
      intro r
      unfold kktB
      split
      · rfl
      · split <;> rfl
    simp only [hB, neg_zero]
    rfl
  constructor
  · intro h dx dG dX hs hG hX hiG hiX
    let sv : Nat → K := fun a => if a < N.nx then dx a else
      if act.getD (a - N.nx) 0 < N.ng then dG (act.getD (a - N.nx) 0) else dX (act.getD (a - N.nx) 0 - N.ng)
    have hval : ∀ m ∈ act, sv (N.nx + act.idxOf m) = if m < N.ng then dG m else dX (m - N.ng) := by
      intro m hm
      have hl := List.idxOf_lt_length_of_mem hm
      have : act.getD (act.idxOf m) 0 = m := by rw [getD_mem hl]; exact List.getElem_idxOf hl
      have hnl : ¬ N.nx + act.idxOf m < N.nx := by omega
      simp only [sv, if_neg hnl, Nat.add_sub_cancel_left, this]
    have hsvx : ∀ j < N.nx, sv j = dx j := by intro j hj; simp only [sv, if_pos hj]
    have eG : ∀ c < N.ng, (if c ∈ act then sv (N.nx + act.idxOf c) else 0) = dG c := by
      intro c hc
      by_cases hm : c ∈ act
      · rw [if_pos hm, hval c hm, if_pos hc]
      · rw [if_neg hm, hiG c hc hm]
    have eX : ∀ i < N.nx, (if N.ng + i ∈ act then sv (N.nx + act.idxOf (N.ng + i)) else 0) = dX i := by
      intro i hi
      by_cases hm : N.ng + i ∈ act
      · rw [if_pos hm, hval _ hm, if_neg (by omega), Nat.add_sub_cancel_left]
      · rw [if_neg hm, hiX i hi hm]
    have sx : ∀ F : Nat → K, ∑ j ∈ Finset.range N.nx, F j * sv j = ∑ j ∈ Finset.range N.nx, F j * dx j := by
      intro F
      exact Finset.sum_congr rfl fun j hj => by rw [hsvx j (Finset.mem_range.1 hj)]
    have hz := h sv ((hsys sv).2 ?_)
    · rw [keep_length] at hz
      refine ⟨fun i hi _ => ?_, fun c hc => ?_, fun i hi => ?_⟩
      · rw [← hsvx i hi]; exact hz i (by omega)
      · rw [← eG c hc]
        by_cases hm : c ∈ act
        · rw [if_pos hm]
          have := List.idxOf_lt_length_of_mem hm
          exact hz _ (by omega)
        · rw [if_neg hm]
      · rw [← eX i hi]
        by_cases hm : N.ng + i ∈ act
        · rw [if_pos hm]
          have := List.idxOf_lt_length_of_mem hm
          exact hz _ (by omega)
        · rw [if_neg hm]
    · refine ⟨?_, ?_, ?_, ?_, ?_⟩
      · intro i hi
        show ∑ j ∈ Finset.range N.nx, N.hxx x l p i j * sv j +
          ∑ c ∈ Finset.range N.ng, N.jac x p c i * (if c ∈ act then sv (N.nx + act.idxOf c) else 0) +
          (if N.ng + i ∈ act then sv (N.nx + act.idxOf (N.ng + i)) else 0) + 0 = 0
        rw [sx, eX i hi, add_zero]
        refine Eq.trans ?_ (hs i hi)
        congr 2
        exact Finset.sum_congr rfl fun c hc => by rw [eG c (Finset.mem_range.1 hc)]
      · intro c hc ha
        show ∑ j ∈ Finset.range N.nx, N.jac x p c j * sv j + 0 = 0
        rw [sx, add_zero]
        exact hG c hc ha
      · intro i hi ha
        rw [hsvx i hi]
        exact hX i hi ha
      · intro c hc hm; exact if_neg hm
      · intro i hi hm; exact if_neg hm
  · intro h sv hsv
    have hK := (hsys sv).1 hsv
    obtain ⟨r1, r2, r3⟩ := h sv (fun c => if c ∈ act then sv (N.nx + act.idxOf c) else 0)
      (fun i => if N.ng + i ∈ act then sv (N.nx + act.idxOf (N.ng + i)) else 0)
      (fun i hi => by
        have := hK.stationarity i hi
        change _ + (0 : K) = 0 at this
        rw [add_zero] at this
        exact this)
      (fun c hc ha => by
        have := hK.activeG c hc ha
        change _ + (0 : K) = 0 at this
        rw [add_zero] at this
        exact this) hK.activeX hK.inactiveG hK.inactiveX
    rw [keep_length]
    intro b hb
    by_cases hbx : b < N.nx
    · exact r1 b hbx (hdep b hbx)
    · obtain ⟨a, rfl⟩ := Nat.exists_eq_add_of_le (not_lt.1 hbx)
      have ha : a < act.length := by omega
      have hmem : act[a] ∈ act := List.getElem_mem ha
      have hidx : act.idxOf act[a] = a := hn.idxOf_getElem a ha
      have hlt := hM _ hmem
      by_cases hg : act[a] < N.ng
      · have := r2 _ hg
        rwa [if_pos hmem, hidx] at this
      · have := r3 (act[a] - N.ng) (by omega)
        rw [show N.ng + (act[a] - N.ng) = act[a] by omega] at this
        rwa [if_pos hmem, hidx] at this

/-! ### Removing variables that do not occur -/

section Reduce

variable (N : Nlp K) (hdep : DependsCorrect N) (x l p : Nat → K)

/-- the remaining values -/
def redX : Nat → K := takeIdx 0 (detIdx N.nx N.depX) x
/-- the remaining parameters -/
def redP : Nat → K := takeIdx 0 (detIdx N.np N.depP) p

include hdep

theorem red_unchanged : N.hxx (embed (detIdx N.nx N.depX) (redX N x)) l (embed (detIdx N.np N.depP) (redP N p)) = N.hxx x l p ∧
    N.jac (embed (detIdx N.nx N.depX) (redX N x)) (embed (detIdx N.np N.depP) (redP N p)) = N.jac x p := by
  obtain ⟨u1, _, u3, _⟩ := hdep.unchanged (embed (detIdx N.nx N.depX) (redX N x)) x l (embed (detIdx N.np N.depP) (redP N p)) p
    (fun i hi hd => embed_take _ x i ((mem_detIdx ..).2 ⟨hi, hd⟩)) (fun i hi hd => embed_take _ p i ((mem_detIdx ..).2 ⟨hi, hd⟩))
  exact ⟨u1, u3⟩

theorem red_jac (c a : Nat) : N.reduce.jac (redX N x) (redP N p) c a = N.jac x p c ((detIdx N.nx N.depX).getD a 0) := by
  have h := (red_unchanged N hdep x (fun _ => 0) p).2
  show N.jac (embed (detIdx N.nx N.depX) (redX N x)) (embed (detIdx N.np N.depP) (redP N p)) c ((detIdx N.nx N.depX).getD a 0) = _
  rw [h]

theorem red_hxx (a b : Nat) : N.reduce.hxx (redX N x) l (redP N p) a b =
    N.hxx x l p ((detIdx N.nx N.depX).getD a 0) ((detIdx N.nx N.depX).getD b 0) := by
  have h := (red_unchanged N hdep x l p).1
  show takeMat (detIdx N.nx N.depX) (detIdx N.nx N.depX)
    (N.hxx (embed (detIdx N.nx N.depX) (redX N x)) l (embed (detIdx N.np N.depP) (redP N p))) a b = _
  rw [h]
  rfl

omit hdep in
theorem red_sum (F v : Nat → K) (hF : ∀ j < N.nx, N.depX j = false → F j = 0) :
    ∑ a ∈ Finset.range (detIdx N.nx N.depX).length, F ((detIdx N.nx N.depX).getD a 0) * v ((detIdx N.nx N.depX).getD a 0) =
      ∑ j ∈ Finset.range N.nx, F j * v j := by
  rw [sum_list_eq _ (nodup_detIdx N.nx N.depX) N.nx (fun m hm => ((mem_detIdx ..).1 hm).1) F
    (fun a => v ((detIdx N.nx N.depX).getD a 0))]
  apply Finset.sum_congr rfl
  intro j hj
  have hj' := Finset.mem_range.1 hj
  by_cases hd : N.depX j = true
  · have hm : j ∈ detIdx N.nx N.depX := (mem_detIdx ..).2 ⟨hj', hd⟩
    have hl := List.idxOf_lt_length_of_mem hm
    rw [if_pos hm, getD_mem hl, List.getElem_idxOf hl]
  · have hd' : N.depX j = false := by simpa using hd
    rw [hF j hj' hd', zero_mul, zero_mul]

omit hdep in
theorem red_idx (a : Nat) (ha : a < (detIdx N.nx N.depX).length) :
    (detIdx N.nx N.depX).getD a 0 < N.nx ∧ N.depX ((detIdx N.nx N.depX).getD a 0) = true ∧
    (detIdx N.nx N.depX).idxOf ((detIdx N.nx N.depX).getD a 0) = a := by
  rw [getD_mem ha]
  have := (mem_detIdx N.nx N.depX _).1 (List.getElem_mem ha)
  exact ⟨this.1, this.2, (nodup_detIdx N.nx N.depX).idxOf_getElem a ha⟩

omit hdep in
theorem red_pos (j : Nat) (hj : j < N.nx) (hd : N.depX j = true) :
    (detIdx N.nx N.depX).idxOf j < (detIdx N.nx N.depX).length ∧ (detIdx N.nx N.depX).getD ((detIdx N.nx N.depX).idxOf j) 0 = j := by
  have hm : j ∈ detIdx N.nx N.depX := (mem_detIdx ..).2 ⟨hj, hd⟩
  have hl := List.idxOf_lt_length_of_mem hm
  exact ⟨hl, by rw [getD_mem hl, List.getElem_idxOf hl]⟩

/-- values given for the remaining variables, extended by 0 -/
theorem licq_reduce (aG aX : Nat → Prop) :
    LICQ N.reduce (redX N x) (redP N p) aG (fun a => aX ((detIdx N.nx N.depX).getD a 0)) ↔ LICQ N x p aG aX := by
  set dX := detIdx N.nx N.depX with hdX
  constructor
  · intro h muG muX hs hG hX
    obtain ⟨r1, r2⟩ := h muG (fun a => muX (dX.getD a 0))
      (fun a ha => by
        have hi := red_idx N a ha
        have := hs _ hi.1
        refine Eq.trans ?_ this
        congr 1
        exact Finset.sum_congr rfl fun c _ => by rw [red_jac N hdep x p])
      hG (fun a ha hna => hX _ (red_idx N a ha).1 hna)
    refine ⟨r1, fun i hi => ?_⟩
    by_cases hd : N.depX i = true
    · obtain ⟨h1, h2⟩ := red_pos N i hi hd
      have := r2 _ h1
      rwa [h2] at this
    · have hd' : N.depX i = false := by simpa using hd
      have := hs i hi
      rw [Finset.sum_eq_zero (fun c _ => by rw [hdep.jac x p c i hi hd', mul_zero]), zero_add] at this
      exact this
  · intro h muG muX hs hG hX
    obtain ⟨r1, r2⟩ := h muG (fun i => if N.depX i = true then muX (dX.idxOf i) else 0)
      (fun i hi => by
        by_cases hd : N.depX i = true
        · obtain ⟨h1, h2⟩ := red_pos N i hi hd
          have := hs _ h1
          refine Eq.trans ?_ this
          rw [if_pos hd]
          congr 1
          refine Finset.sum_congr rfl fun c _ => ?_
          rw [red_jac N hdep x p, h2]
        · have hd' : N.depX i = false := by simpa using hd
          rw [if_neg hd, add_zero]
          exact Finset.sum_eq_zero (fun c _ => by rw [hdep.jac x p c i hi hd', mul_zero]))
      hG (fun i hi hna => by
        by_cases hd : N.depX i = true
        · obtain ⟨h1, h2⟩ := red_pos N i hi hd
          rw [if_pos hd]
          refine hX _ h1 ?_
          dsimp only
          rw [h2]
          exact hna
        · rw [if_neg hd])
    refine ⟨r1, fun a ha => ?_⟩
    obtain ⟨h1, h2, h3⟩ := red_idx N a ha
    have := r2 _ h1
    rw [if_pos h2, h3] at this
    exact this

theorem regular_reduce (aG aX : Nat → Prop) :
    Regular N.reduce (redX N x) l (redP N p) aG (fun a => aX ((detIdx N.nx N.depX).getD a 0)) ↔ Regular N x l p aG aX := by
  set dX := detIdx N.nx N.depX with hdX
  constructor
  · intro h dx dG dL hs hG hX hiG hiX
    obtain ⟨r1, r2, r3⟩ := h (fun a => dx (dX.getD a 0)) dG (fun a => dL (dX.getD a 0))
      (fun a ha => by
        have hi := red_idx N a ha
        have := hs _ hi.1
        refine Eq.trans ?_ this
        congr 1
        congr 1
        · rw [← red_sum N (fun j => N.hxx x l p (dX.getD a 0) j) dx fun j hj hd => hdep.hxx_right x l p _ j hj hd]
          exact Finset.sum_congr rfl fun b _ => by rw [red_hxx N hdep x l p]
        · exact Finset.sum_congr rfl fun c _ => by rw [red_jac N hdep x p])
      (fun c hc ha => by
        have := hG c hc ha
        rw [← red_sum N (fun j => N.jac x p c j) dx fun j hj hd => hdep.jac x p c j hj hd] at this
        refine Eq.trans ?_ this
        exact Finset.sum_congr rfl fun b _ => by rw [red_jac N hdep x p])
      (fun a ha hact => hX _ (red_idx N a ha).1 hact) hiG (fun a ha hna => hiX _ (red_idx N a ha).1 hna)
    refine ⟨fun i hi hd => ?_, r2, fun i hi => ?_⟩
    · obtain ⟨h1, h2⟩ := red_pos N i hi hd
      have := r1 _ h1 rfl
      rwa [h2] at this
    · by_cases hd : N.depX i = true
      · obtain ⟨h1, h2⟩ := red_pos N i hi hd
        have := r3 _ h1
        rwa [h2] at this
      · have hd' : N.depX i = false := by simpa using hd
        have := hs i hi
        rw [Finset.sum_eq_zero (fun j _ => by rw [hdep.hxx_left x l p i j hi hd', zero_mul]),
          Finset.sum_eq_zero (fun c _ => by rw [hdep.jac x p c i hi hd', zero_mul]), zero_add, zero_add] at this
        exact this
  · intro h dx dG dL hs hG hX hiG hiX
    have hsum : ∀ F : Nat → K, (∀ j < N.nx, N.depX j = false → F j = 0) →
        ∑ j ∈ Finset.range N.nx, F j * (if N.depX j = true then dx (dX.idxOf j) else 0) = ∑ a ∈ Finset.range dX.length, F (dX.getD a 0) * dx a := by
      intro F hF
      rw [← red_sum N F (fun j => if N.depX j = true then dx (dX.idxOf j) else 0) hF]
      refine Finset.sum_congr rfl fun a ha => ?_
      obtain ⟨h1, h2, h3⟩ := red_idx N a (Finset.mem_range.1 ha)
      rw [if_pos h2, h3]
    obtain ⟨r1, r2, r3⟩ := h (fun i => if N.depX i = true then dx (dX.idxOf i) else 0) dG (fun i => if N.depX i = true then dL (dX.idxOf i) else 0)
      (fun i hi => by
        rw [hsum _ fun j hj hd => hdep.hxx_right x l p _ j hj hd]
        by_cases hd : N.depX i = true
        · obtain ⟨h1, h2⟩ := red_pos N i hi hd
          have := hs _ h1
          refine Eq.trans ?_ this
          rw [if_pos hd]
          congr 1
          congr 1
          · refine Finset.sum_congr rfl fun b _ => ?_
            rw [red_hxx N hdep x l p, h2]
          · refine Finset.sum_congr rfl fun c _ => ?_
            rw [red_jac N hdep x p, h2]
        · have hd' : N.depX i = false := by simpa using hd
          rw [if_neg hd, add_zero, Finset.sum_eq_zero (fun a _ => by rw [hdep.hxx_left x l p i _ hi hd', zero_mul]),
            Finset.sum_eq_zero (fun c _ => by rw [hdep.jac x p c i hi hd', zero_mul]), zero_add])
      (fun c hc ha => by
        rw [hsum _ fun j hj hd => hdep.jac x p c j hj hd]
        refine Eq.trans ?_ (hG c hc ha)
        exact Finset.sum_congr rfl fun b _ => by rw [red_jac N hdep x p])
      (fun i hi hact => by
        by_cases hd : N.depX i = true
        · obtain ⟨h1, h2⟩ := red_pos N i hi hd
          rw [if_pos hd]
          refine hX _ h1 ?_
          dsimp only
          rw [h2]
          exact hact
        · rw [if_neg hd])
      hiG
      (fun i hi hna => by
        by_cases hd : N.depX i = true
        · obtain ⟨h1, h2⟩ := red_pos N i hi hd
          rw [if_pos hd]
          refine hiX _ h1 ?_
          dsimp only
          rw [h2]
          exact hna
        · rw [if_neg hd])
    refine ⟨fun a ha _ => ?_, r2, fun a ha => ?_⟩
    · obtain ⟨h1, h2, h3⟩ := red_idx N a ha
      have := r1 _ h1 h2
      rw [if_pos h2, h3] at this
      exact this
    · obtain ⟨h1, h2, h3⟩ := red_idx N a ha
      have := r3 _ h1
      rw [if_pos h2, h3] at this
      exact this

theorem red_hxp (a b : Nat) : N.reduce.hxp (redX N x) l (redP N p) a b =
    N.hxp x l p ((detIdx N.nx N.depX).getD a 0) ((detIdx N.np N.depP).getD b 0) := by
  obtain ⟨_, u2, _, _⟩ := hdep.unchanged (embed (detIdx N.nx N.depX) (redX N x)) x l (embed (detIdx N.np N.depP) (redP N p)) p
    (fun i hi hd => embed_take _ x i ((mem_detIdx ..).2 ⟨hi, hd⟩)) (fun i hi hd => embed_take _ p i ((mem_detIdx ..).2 ⟨hi, hd⟩))
  show takeMat (detIdx N.nx N.depX) (detIdx N.np N.depP)
    (N.hxp (embed (detIdx N.nx N.depX) (redX N x)) l (embed (detIdx N.np N.depP) (redP N p))) a b = _
  rw [u2]
  rfl

theorem red_jacP (c b : Nat) : N.reduce.jacP (redX N x) (redP N p) c b = N.jacP x p c ((detIdx N.np N.depP).getD b 0) := by
  obtain ⟨_, _, _, u4⟩ := hdep.unchanged (embed (detIdx N.nx N.depX) (redX N x)) x (fun _ => 0) (embed (detIdx N.np N.depP) (redP N p)) p
    (fun i hi hd => embed_take _ x i ((mem_detIdx ..).2 ⟨hi, hd⟩)) (fun i hi hd => embed_take _ p i ((mem_detIdx ..).2 ⟨hi, hd⟩))
  show N.jacP (embed (detIdx N.nx N.depX) (redX N x)) (embed (detIdx N.np N.depP) (redP N p)) c ((detIdx N.np N.depP).getD b 0) = _
  rw [u4]

/-- a solution of the linearised conditions, restricted to the variables that occur -/
theorem kkt_restrict (aG aX : Nat → Prop) (dx dG dL : Nat → K) (b : Nat)
    (h : LinearizedKkt N x l p aG aX dx dG dL ((detIdx N.np N.depP).getD b 0)) :
    LinearizedKkt N.reduce (redX N x) l (redP N p) aG (fun a => aX ((detIdx N.nx N.depX).getD a 0))
      (fun a => dx ((detIdx N.nx N.depX).getD a 0)) dG (fun a => dL ((detIdx N.nx N.depX).getD a 0)) b := by
  refine ⟨fun a ha => ?_, fun c hc ha => ?_, fun a ha hact => h.activeX _ (red_idx N a ha).1 hact, h.inactiveG,
    fun a ha hna => h.inactiveX _ (red_idx N a ha).1 hna⟩
  · have hi := red_idx N a ha
    refine Eq.trans ?_ (h.stationarity _ hi.1)
    rw [red_hxp N hdep x l p]
    congr 1
    congr 1
    congr 1
    · rw [← red_sum N (fun j => N.hxx x l p ((detIdx N.nx N.depX).getD a 0) j) dx fun j hj hd => hdep.hxx_right x l p _ j hj hd]
      exact Finset.sum_congr rfl fun b _ => by rw [red_hxx N hdep x l p]
    · exact Finset.sum_congr rfl fun c _ => by rw [red_jac N hdep x p]
  · have := h.activeG c hc ha
    rw [← red_sum N (fun j => N.jac x p c j) dx fun j hj hd => hdep.jac x p c j hj hd] at this
    refine Eq.trans ?_ this
    rw [red_jacP N hdep x p]
    congr 1
    exact Finset.sum_congr rfl fun b _ => by rw [red_jac N hdep x p]

end Reduce

theorem licq_congr {N : Nlp K} {x p : Nat → K} {aG aX aG' aX' : Nat → Prop} (hG : ∀ c < N.ng, (aG c ↔ aG' c)) (hX : ∀ i < N.nx, (aX i ↔ aX' i)) :
    LICQ N x p aG aX ↔ LICQ N x p aG' aX' := by
  unfold LICQ
  constructor
  · intro h muG muX hs h1 h2
    exact h muG muX hs (fun c hc hn => h1 c hc fun e => hn ((hG c hc).2 e)) (fun i hi hn => h2 i hi fun e => hn ((hX i hi).2 e))
  · intro h muG muX hs h1 h2
    exact h muG muX hs (fun c hc hn => h1 c hc fun e => hn ((hG c hc).1 e)) (fun i hi hn => h2 i hi fun e => hn ((hX i hi).1 e))

theorem regular_congr {N : Nlp K} {x l p : Nat → K} {aG aX aG' aX' : Nat → Prop} (hG : ∀ c < N.ng, (aG c ↔ aG' c))
    (hX : ∀ i < N.nx, (aX i ↔ aX' i)) : Regular N x l p aG aX ↔ Regular N x l p aG' aX' := by
  unfold Regular
  constructor
  · intro h dx dG dL hs h1 h2 h3 h4
    exact h dx dG dL hs (fun c hc hn => h1 c hc ((hG c hc).1 hn)) (fun i hi hn => h2 i hi ((hX i hi).1 hn))
      (fun c hc hn => h3 c hc fun e => hn ((hG c hc).2 e)) (fun i hi hn => h4 i hi fun e => hn ((hX i hi).2 e))
  · intro h dx dG dL hs h1 h2 h3 h4
    exact h dx dG dL hs (fun c hc hn => h1 c hc ((hG c hc).2 hn)) (fun i hi hn => h2 i hi ((hX i hi).2 hn))
      (fun c hc hn => h3 c hc fun e => hn ((hG c hc).1 e)) (fun i hi hn => h4 i hi fun e => hn ((hX i hi).1 e))

/-- the active set, constraints and bounds -/
theorem act_iff (N : Nlp K) (tol : K) (s : Sol K) :
    (∀ c < N.ng, (c ∈ consActive N tol s ↔ AtBound tol (s.g c) (N.lbg c) (N.ubg c))) ∧
    ∀ i < N.nx, (N.ng + i ∈ consActive N tol s ↔ AtBound tol (s.x i) (N.lbx i) (N.ubx i)) := by
  constructor
  · intro c hc
    rw [mem_consActive]
    simp [ActiveCons, hc]
    omega
  · intro i hi
    rw [mem_consActive]
    simp [ActiveCons, hi]

theorem act_red (N : Nlp K) (tol : K) (s : Sol K) (a : Nat) (ha : a < N.reduce.nx) :
    AtBound tol ((reduceSol N s).x a) (N.reduce.lbx a) (N.reduce.ubx a) ↔
      AtBound tol (s.x ((detIdx N.nx N.depX).getD a 0)) (N.lbx ((detIdx N.nx N.depX).getD a 0)) (N.ubx ((detIdx N.nx N.depX).getD a 0)) := by
  have ha' : a < (detIdx N.nx N.depX).length := ha
  rw [getD_mem ha']
  show AtBound tol (takeIdx 0 (detIdx N.nx N.depX) s.x a) (takeIdx none (detIdx N.nx N.depX) N.lbx a) (takeIdx none (detIdx N.nx N.depX) N.ubx a) ↔ _
  rw [takeIdx_get _ _ _ _ ha', takeIdx_get _ _ _ _ ha', takeIdx_get _ _ _ _ ha']

/-- what a successful call does to the status -/
theorem differentiateSt_ok (N : Nlp K) (S : Settings K) (C : Checks) (lin lstsq : LinSolver K) (s : Sol K) (p : List K) (st st' : Status K) (o : Out K)
    (h : differentiateSt N S C lin lstsq s p st = (.ok o, st')) :
    differentiate N S lin lstsq s p = .ok o ∧
    st' = if N.isReduced then coreStatus N.reduce S C lin lstsq (reduceSol N s) (redP N fun i => p.getD i 0) st
      else coreStatus N S C lin lstsq s (fun i => p.getD i 0) st := by
  unfold differentiateSt at h
  cases hd : differentiate N S lin lstsq s p with
  | error e => rw [hd] at h; cases h
  | ok o' =>
    rw [hd] at h
    obtain ⟨h1, h2⟩ := Prod.mk.inj h
    exact ⟨h1, h2.symm⟩

/-- **C91.**  `status.LICQ` after a call with `check_LICQ`: true exactly when the gradients of the constraints and bounds that are active (up to the
tolerance) are linearly independent - in the problem passed to the constructor, also when variables were removed. -/
theorem C91_licq (N : Nlp K) (hdep : DependsCorrect N) (S : Settings K) (C : Checks) (lin lstsq : LinSolver K) (s : Sol K) (p : List K)
    (st st' : Status K) (o : Out K) (h : differentiateSt N S C lin lstsq s p st = (.ok o, st')) (hC : C.licq = true) :
    ∃ b, st'.licq = some b ∧ (b = true ↔ LICQ N s.x (fun i => p.getD i 0) (fun c => AtBound S.tol (s.g c) (N.lbg c) (N.ubg c))
      (fun i => AtBound S.tol (s.x i) (N.lbx i) (N.ubx i))) := by
  obtain ⟨_, rfl⟩ := differentiateSt_ok N S C lin lstsq s p st st' o h
  split
  · refine ⟨_, by rw [coreStatus, hC]; rfl, ?_⟩
    rw [checkLICQ_iff _ _ _ _ (nodup_consActive ..) (fun m hm => ((mem_consActive ..).1 hm).1)]
    obtain ⟨a1, a2⟩ := act_iff N.reduce S.tol (reduceSol N s)
    rw [← licq_reduce N hdep s.x (fun i => p.getD i 0)]
    exact licq_congr a1 fun a ha => (a2 a ha).trans (act_red N S.tol s a ha)
  · refine ⟨_, by rw [coreStatus, hC]; rfl, ?_⟩
    rw [checkLICQ_iff _ _ _ _ (nodup_consActive ..) (fun m hm => ((mem_consActive ..).1 hm).1)]
    obtain ⟨a1, a2⟩ := act_iff N S.tol s
    exact licq_congr a1 a2

/-- **C91.**  `status.full_rank` after a call with `check_rank`: true exactly when the linearised conditions determine the sensitivities. -/
theorem C91_full_rank (N : Nlp K) (hdep : DependsCorrect N) (S : Settings K) (C : Checks) (lin lstsq : LinSolver K) (s : Sol K) (p : List K)
    (st st' : Status K) (o : Out K) (h : differentiateSt N S C lin lstsq s p st = (.ok o, st')) (hC : C.rank = true) :
    ∃ b, st'.fullRank = some b ∧ (b = true ↔ Regular N s.x s.lamG (fun i => p.getD i 0)
      (fun c => AtBound S.tol (s.g c) (N.lbg c) (N.ubg c)) (fun i => AtBound S.tol (s.x i) (N.lbx i) (N.ubx i))) := by
  obtain ⟨_, rfl⟩ := differentiateSt_ok N S C lin lstsq s p st st' o h
  split
  · refine ⟨_, by rw [coreStatus, hC]; rfl, ?_⟩
    rw [checkRank_iff _ _ _ _ _ (nodup_consActive ..) (fun m hm => ((mem_consActive ..).1 hm).1) (fun _ _ => rfl)]
    obtain ⟨a1, a2⟩ := act_iff N.reduce S.tol (reduceSol N s)
    rw [← regular_reduce N hdep s.x s.lamG (fun i => p.getD i 0)]
    exact regular_congr a1 fun a ha => (a2 a ha).trans (act_red N S.tol s a ha)
  · rename_i hred
    refine ⟨_, by rw [coreStatus, hC]; rfl, ?_⟩
    rw [checkRank_iff _ _ _ _ _ (nodup_consActive ..) (fun m hm => ((mem_consActive ..).1 hm).1) (isReduced_false hred).1]
    obtain ⟨a1, a2⟩ := act_iff N S.tol s
    exact regular_congr a1 a2

theorem checkSC_iff (N : Nlp K) (tol : K) (s : Sol K) : checkSC N tol s = true ↔
    StrictCompl N tol s (fun c => AtBound tol (s.g c) (N.lbg c) (N.ubg c)) (fun i => AtBound tol (s.x i) (N.lbx i) (N.ubx i)) := by
  obtain ⟨a1, a2⟩ := act_iff N tol s
  simp only [checkSC, List.all_eq_true, decide_eq_true_eq]
  constructor
  · intro h
    refine ⟨fun c hc ha => ?_, fun i hi ha => ?_⟩
    · have := h c ((a1 c hc).2 ha)
      rwa [if_pos hc] at this
    · have := h _ ((a2 i hi).2 ha)
      rwa [if_neg (by omega), Nat.add_sub_cancel_left] at this
  · rintro ⟨h1, h2⟩ m hm
    have hlt := ((mem_consActive N tol s m).1 hm).1
    by_cases hg : m < N.ng
    · rw [if_pos hg]
      exact h1 m hg ((a1 m hg).1 hm)
    · rw [if_neg hg]
      refine h2 (m - N.ng) (by omega) ((a2 (m - N.ng) (by omega)).1 ?_)
      rwa [show N.ng + (m - N.ng) = m by omega]

/-- **C91 (partial).**  `status.SC` after a call with `check_SC`: true exactly when the multipliers of all active constraints and of all active bounds of
variables that occur in the problem are at least the tolerance.  Missing: bounds of variables that do not occur, see `C91_fails_sc_removed`. -/
theorem C91_sc_partial (N : Nlp K) (S : Settings K) (C : Checks) (lin lstsq : LinSolver K) (s : Sol K) (p : List K) (st st' : Status K) (o : Out K)
    (h : differentiateSt N S C lin lstsq s p st = (.ok o, st')) (hC : C.sc = true) :
    ∃ b, st'.sc = some b ∧ (b = true ↔ StrictCompl N S.tol s (fun c => AtBound S.tol (s.g c) (N.lbg c) (N.ubg c))
      (fun i => N.depX i = true ∧ AtBound S.tol (s.x i) (N.lbx i) (N.ubx i))) := by
  obtain ⟨_, rfl⟩ := differentiateSt_ok N S C lin lstsq s p st st' o h
  split
  · refine ⟨_, by rw [coreStatus, hC]; rfl, ?_⟩
    rw [checkSC_iff]
    constructor
    · rintro ⟨h1, h2⟩
      refine ⟨h1, fun i hi ha => ?_⟩
      obtain ⟨e1, e2⟩ := red_pos N i hi ha.1
      have := h2 _ e1 ((act_red N S.tol s _ e1).2 (by rw [e2]; exact ha.2))
      have hl : (reduceSol N s).lamX ((detIdx N.nx N.depX).idxOf i) = s.lamX i := by
        show takeIdx 0 (detIdx N.nx N.depX) s.lamX _ = _
        rw [takeIdx_get _ _ _ _ e1, List.getElem_idxOf e1]
      rwa [hl] at this
    · rintro ⟨h1, h2⟩
      refine ⟨h1, fun a ha hact => ?_⟩
      obtain ⟨e1, e2, e3⟩ := red_idx N a ha
      have := h2 _ e1 ⟨e2, (act_red N S.tol s a ha).1 hact⟩
      have ha' : a < (detIdx N.nx N.depX).length := ha
      have hl : (reduceSol N s).lamX a = s.lamX ((detIdx N.nx N.depX).getD a 0) := by
        show takeIdx 0 (detIdx N.nx N.depX) s.lamX _ = _
        rw [takeIdx_get _ _ _ _ ha', getD_mem ha']
      rwa [hl]
  · rename_i hred
    refine ⟨_, by rw [coreStatus, hC]; rfl, ?_⟩
    rw [checkSC_iff]
    have hd := (isReduced_false hred).1
    constructor
    · rintro ⟨h1, h2⟩
      exact ⟨h1, fun i hi ha => h2 i hi ha.2⟩
    · rintro ⟨h1, h2⟩
      exact ⟨h1, fun i hi ha => h2 i hi ⟨hd i hi, ha⟩⟩

/-! ### Residuals -/

theorem residual_zero_iff (N : Nlp K) (x l p : Nat → K) (act : List Nat) (sens : Option (Nat → Nat → K)) :
    residualOf N x l p act sens = some 0 ↔ ∃ sv, sens = some sv ∧ ∀ k < N.np, ∀ a < (keepIdx N act).length,
      ∑ b ∈ Finset.range (keepIdx N act).length, takeMat (keepIdx N act) (keepIdx N act) (kktA N x l p) a b * sv b k =
        - kktB N x l p ((keepIdx N act).getD a 0) k := by
  unfold residualOf
  dsimp only
  rcases sens with _ | sv
  · simp
  · simp only [Option.map_some, Option.some.injEq, exists_eq_left']
    rw [Finset.sum_eq_zero_iff_of_nonneg (fun a _ => Finset.sum_nonneg fun k _ => sq_nonneg _)]
    constructor
    · intro h k hk a ha
      have h1 := h a (Finset.mem_range.2 ha)
      rw [Finset.sum_eq_zero_iff_of_nonneg (fun k _ => sq_nonneg _)] at h1
      have h2 := h1 k (Finset.mem_range.2 hk)
      rw [sq_eq_zero_iff] at h2
      exact eq_neg_of_add_eq_zero_left h2
    · intro h a ha
      refine Finset.sum_eq_zero fun k hk => ?_
      rw [h k (Finset.mem_range.1 hk) a (Finset.mem_range.1 ha)]
      simp

/-- a solver that checks the result of another one -/
noncomputable def checked (f : LinSolver K) : LinSolver K := fun n m A R =>
  open Classical in
  match f n m A R with
  | some s => if ∀ a < n, ∀ k < m, ∑ b ∈ Finset.range n, A a b * s b k = R a k then some s else none
  | none => none

theorem checked_solves (f : LinSolver K) : Solves (checked f) := by
  classical
  intro n m A R s h
  unfold checked at h
  split at h
  · split_ifs at h with hc
    cases h
    exact hc
  · cases h

/-- the solver whose result is used -/
def combined (S : Settings K) (lin lstsq : LinSolver K) : LinSolver K := fun n m A R =>
  match lin n m A R with
  | some s => some s
  | none => if S.lstsqFallback then lstsq n m A R else none

theorem solve_combined (N : Nlp K) (S : Settings K) (lin lstsq : LinSolver K) (x l p : Nat → K) (act : List Nat) :
    solveSystem N S lin lstsq x l p act = combined S lin lstsq (keepIdx N act).length N.np (takeMat (keepIdx N act) (keepIdx N act) (kktA N x l p))
      (fun a k => - kktB N x l p ((keepIdx N act).getD a 0) k) := rfl

/-- with a residual of zero, the checked solver gives the same result -/
theorem core_checked (N : Nlp K) (S : Settings K) (lin lstsq : LinSolver K) (s : Sol K) (p : Nat → K)
    (h : residualOf N s.x s.lamG p (consActive N S.tol s) (solveSystem N S lin lstsq s.x s.lamG p (consActive N S.tol s)) = some 0) :
    core N { S with lstsqFallback := false } (checked (combined S lin lstsq)) lstsq s p = core N S lin lstsq s p ∧
    (core N S lin lstsq s p).solved = true := by
  classical
  obtain ⟨sv, h1, h2⟩ := (residual_zero_iff ..).1 h
  have e : solveSystem N { S with lstsqFallback := false } (checked (combined S lin lstsq)) lstsq s.x s.lamG p (consActive N S.tol s) = some sv := by
    have hch : checked (combined S lin lstsq) (keepIdx N (consActive N S.tol s)).length N.np
        (takeMat (keepIdx N (consActive N S.tol s)) (keepIdx N (consActive N S.tol s)) (kktA N s.x s.lamG p))
        (fun a k => - kktB N s.x s.lamG p ((keepIdx N (consActive N S.tol s)).getD a 0) k) = some sv := by
      unfold checked
      rw [solve_combined] at h1
      rw [h1]
      dsimp only
      rw [if_pos]
      intro a ha k hk
      exact h2 k hk a ha
    unfold solveSystem
    dsimp only
    rw [hch]
  unfold core paramSens
  dsimp only
  rw [e, h1]
  exact ⟨rfl, rfl⟩

/-- the linearised conditions for the returned matrices of the problem that is solved give a zero residual -/
theorem core_residual (N : Nlp K) (S : Settings K) (lin lstsq : LinSolver K) (s : Sol K) (p : Nat → K)
    (h : ∀ k < N.np, ∃ dx dlam : Nat → K, (∀ i < N.nx, (core N S lin lstsq s p).dx i k = some (dx i)) ∧
      (∀ m < N.ng + N.nx, (core N S lin lstsq s p).dlam m k = some (dlam m)) ∧
      LinearizedKkt N s.x s.lamG p (fun c => AtBound S.tol (s.g c) (N.lbg c) (N.ubg c)) (fun i => AtBound S.tol (s.x i) (N.lbx i) (N.ubx i))
        dx dlam (fun i => dlam (N.ng + i)) k) (hsolved : (core N S lin lstsq s p).solved = true) :
    residualOf N s.x s.lamG p (consActive N S.tol s) (solveSystem N S lin lstsq s.x s.lamG p (consActive N S.tol s)) = some 0 := by
  have hn := nodup_consActive N S.tol s
  have hM : ∀ m ∈ consActive N S.tol s, m < N.ng + N.nx := fun m hm => ((mem_consActive ..).1 hm).1
  obtain ⟨sv, hsv⟩ := Option.isSome_iff_exists.1 hsolved
  rw [residual_zero_iff]
  refine ⟨sv, hsv, fun k hk => ?_⟩
  refine (system_kkt N s.x s.lamG p (consActive N S.tol s) hn hM (fun a => sv a k) k).2 ?_
  obtain ⟨dx, dlam, e1, e2, hK⟩ := h k hk
  obtain ⟨a1, a2⟩ := act_iff N S.tol s
  have hdx : ∀ i < N.nx, sv i k = dx i := by
    intro i hi
    have := e1 i hi
    simp only [core, paramSens, hsv, Option.map_some, Option.some.injEq] at this
    exact this
  have hdl : ∀ m < N.ng + N.nx, (if m ∈ consActive N S.tol s then sv (N.nx + (consActive N S.tol s).idxOf m) k else 0) = dlam m := by
    intro m hm
    have := e2 m hm
    simp only [core, mapDlam, scatterRows_spec _ hn] at this
    split_ifs at this ⊢ <;> simp_all [zeros, paramSens]
  refine ⟨fun i hi => ?_, fun c hc ha => ?_, fun i hi ha => ?_, fun c hc ha => if_neg ha, fun i hi ha => if_neg ha⟩
  · refine Eq.trans ?_ (hK.stationarity i hi)
    rw [hdl _ (by omega)]
    congr 1
    congr 1
    congr 1
    · exact Finset.sum_congr rfl fun j hj => by rw [hdx j (Finset.mem_range.1 hj)]
    · refine Finset.sum_congr rfl fun c hc => ?_
      rw [hdl c (by have := Finset.mem_range.1 hc; omega)]
  · refine Eq.trans ?_ (hK.activeG c hc ((a1 c hc).1 ha))
    congr 1
    exact Finset.sum_congr rfl fun j hj => by rw [hdx j (Finset.mem_range.1 hj)]
  · rw [hdx i hi]
    exact hK.activeX i hi ((a2 i hi).1 ha)

/-- **C91.**  `status.residuals` after a call with `track_residuals`: zero exactly when the linear solver returned (`status.lse_solved`) and the returned
matrices satisfy the linearised first-order conditions of the problem passed to the constructor - whatever linear solver is used. -/
theorem C91_residual (N : Nlp K) (hdep : DependsCorrect N) (S : Settings K) (C : Checks) (lin lstsq : LinSolver K) (s : Sol K) (p : List K)
    (st st' : Status K) (o : Out K) (h : differentiateSt N S C lin lstsq s p st = (.ok o, st')) (hC : C.residuals = true) :
    st'.lseSolved = o.solved ∧
    (st'.residual = some (some 0) ↔ o.solved = true ∧ ∀ k < N.np, ∃ dx dlam : Nat → K, (∀ i < N.nx, o.dx i k = some (dx i)) ∧
      (∀ m < N.ng + N.nx, o.dlam m k = some (dlam m)) ∧
      LinearizedKkt N s.x s.lamG (fun i => p.getD i 0) (fun c => AtBound S.tol (s.g c) (N.lbg c) (N.ubg c))
        (fun i => AtBound S.tol (s.x i) (N.lbx i) (N.ubx i)) dx dlam (fun i => dlam (N.ng + i)) k) := by
  obtain ⟨hd, rfl⟩ := differentiateSt_ok N S C lin lstsq s p st st' o h
  have hd0 := hd
  unfold differentiate at hd
  dsimp only at hd
  by_cases hred : N.isReduced = true
  · rw [if_pos hred] at hd ⊢
    split_ifs at hd with h1 h2
    have ho := Except.ok.inj hd
    refine ⟨by rw [← ho]; rfl, ?_⟩
    simp only [coreStatus, hC, if_true, Option.some.injEq]
    constructor
    · intro hr
      obtain ⟨e1, e2⟩ := core_checked N.reduce S lin lstsq (reduceSol N s) (redP N fun i => p.getD i 0) hr
      have hd' : differentiate N { S with lstsqFallback := false } (checked (combined S lin lstsq)) lstsq s p = .ok o := by
        unfold differentiate
        dsimp only
        rw [if_pos hred, if_neg h1, if_neg h2]
        rw [← ho]
        exact congrArg (fun z => Except.ok (mapFull N z)) e1
      have hs : o.solved = true := by rw [← ho]; exact e2
      exact ⟨hs, fun k hk => C58_linearized_kkt N hdep _ _ _ (checked_solves _) (fun e => by cases e) s p o hd' hs k hk⟩
    · rintro ⟨hs, hk⟩
      refine core_residual N.reduce S lin lstsq (reduceSol N s) (redP N fun i => p.getD i 0) ?_ (by rw [← ho] at hs; exact hs)
      intro b hb
      obtain ⟨m1, m2, m3, m4⟩ := C50_map_back N (core N.reduce S lin lstsq (reduceSol N s) (redP N fun i => p.getD i 0))
      have hb' : b < (detIdx N.np N.depP).length := hb
      have hkm := (mem_detIdx N.np N.depP _).1 (List.getElem_mem hb')
      obtain ⟨dx, dlam, e1, e2, hK⟩ := hk _ hkm.1
      have hgb : (detIdx N.np N.depP).getD b 0 = (detIdx N.np N.depP)[b] := getD_mem hb'
      refine ⟨fun a => dx ((detIdx N.nx N.depX).getD a 0),
        fun m => if m < N.ng then dlam m else dlam (N.ng + (detIdx N.nx N.depX).getD (m - N.ng) 0), ?_, ?_, ?_⟩
      · intro a ha
        have ha' : a < (detIdx N.nx N.depX).length := ha
        rw [← (m1 a ha' b hb').1]
        have := e1 _ (red_idx N a ha').1
        rw [← ho] at this
        dsimp only
        rw [getD_mem ha'] at this ⊢
        exact this
      · intro m hm
        dsimp only
        by_cases hmg : m < N.ng
        · rw [if_pos hmg, ← m2 m hmg b hb']
          have := e2 m (by omega)
          rw [← ho] at this
          exact this
        · rw [if_neg hmg]
          obtain ⟨a, rfl⟩ := Nat.exists_eq_add_of_le (not_lt.1 hmg)
          have ha' : a < (detIdx N.nx N.depX).length := by
            have h3 : N.ng + a < N.ng + (detIdx N.nx N.depX).length := hm
            omega
          rw [← (m1 a ha' b hb').2, Nat.add_sub_cancel_left]
          have := e2 (N.ng + (detIdx N.nx N.depX).getD a 0) (by have := (red_idx N a ha').1; omega)
          rw [← ho] at this
          rw [getD_mem ha'] at this ⊢
          exact this
      · have hr := kkt_restrict N hdep s.x s.lamG (fun i => p.getD i 0) _ _ dx dlam (fun i => dlam (N.ng + i)) b (by rw [hgb]; exact hK)
        have hr2 := Spec.LinearizedKkt.congr hr (aG' := fun c => AtBound S.tol (s.g c) (N.lbg c) (N.ubg c))
          (aX' := fun a => AtBound S.tol ((reduceSol N s).x a) (N.reduce.lbx a) (N.reduce.ubx a)) (fun c hc => Iff.rfl)
          (fun a ha => (act_red N S.tol s a ha).symm)
        have hG : ∀ c < N.ng, (if c < N.ng then dlam c else dlam (N.ng + (detIdx N.nx N.depX).getD (c - N.ng) 0)) = dlam c := fun c hc => if_pos hc
        have hX : ∀ a, (if N.ng + a < N.ng then dlam (N.ng + a) else dlam (N.ng + (detIdx N.nx N.depX).getD (N.ng + a - N.ng) 0)) =
            dlam (N.ng + (detIdx N.nx N.depX).getD a 0) := by
          intro a
          rw [if_neg (by omega), Nat.add_sub_cancel_left]
        refine ⟨fun i hi => ?_, hr2.activeG, hr2.activeX, fun c hc ha => ?_, fun a ha hna => ?_⟩
        · refine Eq.trans ?_ (hr2.stationarity i hi)
          congr 1
          congr 1
          · congr 1
            refine Finset.sum_congr rfl fun c hc => ?_
            congr 1
            exact hG c (Finset.mem_range.1 hc)
          · exact hX i
        · exact (hG c hc).trans (hr2.inactiveG c hc ha)
        · exact (hX a).trans (hr2.inactiveX a ha hna)
  · rw [if_neg hred] at hd ⊢
    split_ifs at hd with h1 h2
    have ho := Except.ok.inj hd
    refine ⟨by rw [← ho]; rfl, ?_⟩
    simp only [coreStatus, hC, if_true, Option.some.injEq]
    constructor
    · intro hr
      obtain ⟨e1, e2⟩ := core_checked N S lin lstsq s (fun i => p.getD i 0) hr
      have hd' : differentiate N { S with lstsqFallback := false } (checked (combined S lin lstsq)) lstsq s p = .ok o := by
        unfold differentiate
        dsimp only
        rw [if_neg hred, if_neg h1, if_neg h2]
        rw [← ho]
        exact congrArg Except.ok e1
      have hs : o.solved = true := by rw [← ho]; exact e2
      exact ⟨hs, fun k hk => C58_linearized_kkt N hdep _ _ _ (checked_solves _) (fun e => by cases e) s p o hd' hs k hk⟩
    · rintro ⟨hs, hk⟩
      subst ho
      exact core_residual N S lin lstsq s (fun i => p.getD i 0) hk hs

/-! ### Second order -/

/-- With linearly independent gradients and the condition of second order, the linearised conditions determine the sensitivities. -/
theorem regular_of_second_order (N : Nlp K) (hdep : DependsCorrect N) (x l p : Nat → K) (aG aX : Nat → Prop) (h1 : LICQ N x p aG aX)
    (h2 : SecondOrder N x l p aG aX) : Regular N x l p aG aX := by
  intro dx dG dL hs hG hX hiG hiX
  have hquad : ∑ i ∈ Finset.range N.nx, dx i * ∑ j ∈ Finset.range N.nx, N.hxx x l p i j * dx j = 0 := by
    have e : ∀ i ∈ Finset.range N.nx, dx i * ∑ j ∈ Finset.range N.nx, N.hxx x l p i j * dx j =
        - ∑ c ∈ Finset.range N.ng, dG c * (N.jac x p c i * dx i) := by
      intro i hi
      have hi' := Finset.mem_range.1 hi
      have h := hs i hi'
      have hli : dx i * dL i = 0 := by
        by_cases ha : aX i
        · rw [hX i hi' ha, zero_mul]
        · rw [hiX i hi' ha, mul_zero]
      have e2 : ∑ c ∈ Finset.range N.ng, dG c * (N.jac x p c i * dx i) = dx i * ∑ c ∈ Finset.range N.ng, N.jac x p c i * dG c := by
        rw [Finset.mul_sum]
        exact Finset.sum_congr rfl fun c _ => by ring
      rw [e2]
      linear_combination dx i * h - hli
    rw [Finset.sum_congr rfl e, Finset.sum_neg_distrib, Finset.sum_comm]
    rw [Finset.sum_eq_zero, neg_zero]
    intro c hc
    have hc' := Finset.mem_range.1 hc
    rw [← Finset.mul_sum]
    by_cases ha : aG c
    · rw [hG c hc' ha, mul_zero]
    · rw [hiG c hc' ha, zero_mul]
  have hzero : ∀ i < N.nx, N.depX i = true → dx i = 0 := by
    intro i hi hd
    by_contra hne
    exact absurd hquad (ne_of_gt (h2 dx hG hX ⟨i, hi, hd, hne⟩))
  refine ⟨hzero, ?_⟩
  refine h1 dG dL (fun i hi => ?_) hiG hiX
  have h := hs i hi
  rw [Finset.sum_eq_zero, zero_add] at h
  · rw [← h]
    congr 1
    exact Finset.sum_congr rfl fun c _ => mul_comm _ _
  · intro j hj
    have hj' := Finset.mem_range.1 hj
    by_cases hd : N.depX j = true
    · rw [hzero j hj' hd, mul_zero]
    · rw [hdep.hxx_right x l p i j hj' (by simpa using hd), zero_mul]

/-- A linear solver that succeeds for every nonsingular matrix. -/
def Complete (lin : LinSolver K) : Prop :=
  ∀ n m A R, (∀ v : Nat → K, (∀ a < n, ∑ b ∈ Finset.range n, A a b * v b = 0) → ∀ b < n, v b = 0) → (lin n m A R).isSome = true

/-- **C91.**  If `check_LICQ` reports independent gradients and the condition of second order holds, then the linear system is solved
(`status.lse_solved`), `check_rank` would report full rank, and the sensitivities are the only ones that satisfy the linearised conditions. -/
theorem C91_certificate (N : Nlp K) (hdep : DependsCorrect N) (S : Settings K) (C : Checks) (lin lstsq : LinSolver K) (hlin : Solves lin)
    (hcomp : Complete lin) (s : Sol K) (p : List K) (st st' : Status K) (o : Out K)
    (h : differentiateSt N S C lin lstsq s p st = (.ok o, st')) (hC : C.licq = true) (hlicq : st'.licq = some true)
    (h2 : SecondOrder N s.x s.lamG (fun i => p.getD i 0) (fun c => AtBound S.tol (s.g c) (N.lbg c) (N.ubg c))
      (fun i => AtBound S.tol (s.x i) (N.lbx i) (N.ubx i))) :
    st'.lseSolved = true ∧ (C.rank = true → st'.fullRank = some true) ∧ (C.residuals = true → st'.residual = some (some 0)) ∧
    Regular N s.x s.lamG (fun i => p.getD i 0) (fun c => AtBound S.tol (s.g c) (N.lbg c) (N.ubg c))
      (fun i => AtBound S.tol (s.x i) (N.lbx i) (N.ubx i)) := by
  obtain ⟨b, hb, hbi⟩ := C91_licq N hdep S C lin lstsq s p st st' o h hC
  have hb1 : b = true := by rw [hb] at hlicq; exact Option.some.inj hlicq
  have hreg := regular_of_second_order N hdep _ _ _ _ _ (hbi.1 hb1) h2
  have hrank : ∀ (N' : Nlp K) (s' : Sol K) (p' : Nat → K), checkRank N' s'.x s'.lamG p' (consActive N' S.tol s') = true →
      (solveSystem N' S lin lstsq s'.x s'.lamG p' (consActive N' S.tol s')).isSome = true := by
    intro N' s' p' hr
    simp only [checkRank, decide_eq_true_eq, rank_square_iff] at hr
    obtain ⟨sv, hsv⟩ := Option.isSome_iff_exists.1 (hcomp _ N'.np _ (fun a k => - kktB N' s'.x s'.lamG p' ((keepIdx N' (consActive N' S.tol s')).getD a 0) k) hr)
    unfold solveSystem
    dsimp only
    rw [hsv]
    rfl
  have hsol0 : ∀ C', (differentiateSt N S C' lin lstsq s p st).2.lseSolved = o.solved := by
    intro C'
    have h' : differentiateSt N S { C' with residuals := true } lin lstsq s p st = (.ok o, (differentiateSt N S { C' with residuals := true } lin lstsq s p st).2) := by
      obtain ⟨hd, _⟩ := differentiateSt_ok N S C lin lstsq s p st st' o h
      simp only [differentiateSt, hd]
    have := (C91_residual N hdep S _ lin lstsq s p st _ o h' rfl).1
    rw [← this]
    unfold differentiateSt
    cases differentiate N S lin lstsq s p with
    | error e => rfl
    | ok o' => dsimp only; split <;> rfl
  have hsolved : o.solved = true := by
    have h' : differentiateSt N S { C with rank := true } lin lstsq s p st = (.ok o, (differentiateSt N S { C with rank := true } lin lstsq s p st).2) := by
      obtain ⟨hd, _⟩ := differentiateSt_ok N S C lin lstsq s p st st' o h
      simp only [differentiateSt, hd]
    obtain ⟨b', hb', hbi'⟩ := C91_full_rank N hdep S { C with rank := true } lin lstsq s p st _ o h' rfl
    have hbt := hbi'.2 hreg
    subst hbt
    rw [← hsol0 { C with rank := true }]
    obtain ⟨_, hst⟩ := differentiateSt_ok N S _ lin lstsq s p st _ o h'
    rw [hst] at hb' ⊢
    split at hb'
    · rename_i hred
      rw [if_pos hred]
      simp only [coreStatus, if_true, Option.some.injEq] at hb' ⊢
      exact hrank N.reduce (reduceSol N s) _ hb'
    · rename_i hred
      rw [if_neg hred]
      simp only [coreStatus, if_true, Option.some.injEq] at hb' ⊢
      exact hrank N s _ hb'
  have hst : st'.lseSolved = true := by
    have := hsol0 C
    rw [h] at this
    rw [this, hsolved]
  refine ⟨hst, fun hr => ?_, fun hr => ?_, hreg⟩
  · obtain ⟨b', hb', hbi'⟩ := C91_full_rank N hdep S C lin lstsq s p st st' o h hr
    rw [hb', hbi'.2 hreg]
  · refine ((C91_residual N hdep S C lin lstsq s p st st' o h hr).2).2 ⟨hsolved, fun k hk => ?_⟩
    obtain ⟨hd, _⟩ := differentiateSt_ok N S C lin lstsq s p st st' o h
    -- the solver that succeeded is `lin`
    have hd' : differentiate N { S with lstsqFallback := false } lin lstsq s p = .ok o := by
      have hcore : ∀ (N' : Nlp K) (s' : Sol K) (p' : Nat → K), checkRank N' s'.x s'.lamG p' (consActive N' S.tol s') = true →
          core N' { S with lstsqFallback := false } lin lstsq s' p' = core N' S lin lstsq s' p' := by
        intro N' s' p' hr'
        simp only [checkRank, decide_eq_true_eq, rank_square_iff] at hr'
        obtain ⟨sv, hsv⟩ := Option.isSome_iff_exists.1 (hcomp _ N'.np _
          (fun a k => - kktB N' s'.x s'.lamG p' ((keepIdx N' (consActive N' S.tol s')).getD a 0) k) hr')
        unfold core paramSens solveSystem
        dsimp only
        rw [hsv]
      have h' : differentiateSt N S { C with rank := true } lin lstsq s p st = (.ok o, (differentiateSt N S { C with rank := true } lin lstsq s p st).2) := by
        simp only [differentiateSt, hd]
      obtain ⟨b', hb', hbi'⟩ := C91_full_rank N hdep S { C with rank := true } lin lstsq s p st _ o h' rfl
      have hbt := hbi'.2 hreg
      subst hbt
      obtain ⟨_, hst⟩ := differentiateSt_ok N S _ lin lstsq s p st _ o h'
      rw [hst] at hb'
      unfold differentiate at hd ⊢
      dsimp only at hd ⊢
      split at hb'
      · rename_i hred
        rw [if_pos hred] at hd ⊢
        simp only [coreStatus, if_true, Option.some.injEq] at hb'
        have e := hcore N.reduce (reduceSol N s) _ hb'
        split_ifs at hd ⊢
        rw [← hd]
        exact congrArg (fun z => Except.ok (mapFull N z)) e
      · rename_i hred
        rw [if_neg hred] at hd ⊢
        simp only [coreStatus, if_true, Option.some.injEq] at hb'
        have e := hcore N s _ hb'
        split_ifs at hd ⊢
        rw [← hd]
        exact congrArg Except.ok e
    exact C58_linearized_kkt N hdep _ lin lstsq hlin (fun e => by cases e) s p o hd' hsolved k hk

end DoMpc.Diff
