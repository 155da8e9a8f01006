import Verif.Lemmas.Collocation
import Verif.Spec.Collocation
import Verif.Props.MpcNlp
import Mathlib.Tactic.ComputeDegree
import Mathlib.Tactic.NormNum

/-! # Properties C10, C11: orthogonal collocation -/
set_option linter.unusedSectionVars false
namespace DoMpc
open Polynomial Spec
variable {K : Type} [Field K] [LinearOrder K] [IsStrictOrderedRing K] {d : Dims}

/-- what the setup returns, in closed form -/
theorem setupCollocation_ok (m : DaeModel K d) (sx : Vec K d.nx) (su : Vec K d.nu) (sz : Vec K d.nz) (sp : Vec K d.np)
    (deg ni : Nat) (tau : Nat → K) (tStep : K) (F : Ifcn K d) (hF : setupCollocation m sx su sz sp deg ni tau tStep = .ok F) :
    0 < ni ∧ F.ncoll = (deg + 1) * ni ∧
    (∀ x ξ u ζ tv p w, F.xf x ξ u ζ tv p w = ξ (ni * (deg + 1) - 1)) ∧
    (∀ x ξ u ζ tv p w, F.g x ξ u ζ tv p w =
      collRows m sx su sz sp deg ni tau (tStep / (ni : K))
        (fun i j => ((Alloc.run d.nx d.nz deg ni).ik i j).value x ξ)
        (fun i j => ((Alloc.run d.nx d.nz deg ni).zk i j).value 0 ζ) (ξ (ni * (deg + 1) - 1)) u tv p w) := by
  unfold setupCollocation at hF
  by_cases hni : ni = 0
  · rw [if_pos hni] at hF; exact absurd hF (by simp)
  · rw [if_neg hni] at hF
    simp only at hF
    split_ifs at hF
    obtain ⟨n, rfl⟩ : ∃ n, ni = n + 1 := ⟨ni - 1, by omega⟩
    obtain ⟨h1, h2, _, h4, h5⟩ := alloc_run d.nx d.nz deg n
    have hoff : (n * (deg + 1) + deg) = (n + 1) * (deg + 1) - 1 := by
      have : (n + 1) * (deg + 1) = n * (deg + 1) + deg + 1 := by ring
      omega
    have hsl : ∀ ξ : Nat → Vec K d.nx, sliceAt ξ (Alloc.run d.nx d.nz deg (n + 1)).offset = ξ ((n + 1) * (deg + 1) - 1) := by
      intro ξ; rw [h1, sliceAt_mul, hoff]
    injection hF with hF
    subst hF
    simp only [hsl]
    refine ⟨by omega, trivial, ?_, ?_⟩ <;> intros <;> trivial

/-- **C11**: for all dimensions, degrees and numbers of elements (at least one) the collocation setup succeeds (no assertion
fails); it introduces `(deg+1)*ni` states and as many algebraic states per interval, there are as many equations as unknowns,
the entries of `ik_split`/`zk_split` that the equations read are all set, each to a block of its own: point `j` of element `i`
is block `i*(deg+1)+j-1` of the intermediate states (the very first point being the node's state; the last block is the
successor state) and block `i*(deg+1)+j` of the algebraic states. -/
theorem C11_bookkeeping (m : DaeModel K d) (sx : Vec K d.nx) (su : Vec K d.nu) (sz : Vec K d.nz) (sp : Vec K d.np)
    (deg ni : Nat) (tau : Nat → K) (tStep : K) (hni : 0 < ni) :
    (∃ F, setupCollocation m sx su sz sp deg ni tau tStep = .ok F ∧ F.ncoll = (deg + 1) * ni ∧
      (∀ x ξ u ζ tv p w, (F.g x ξ u ζ tv p w).length = F.ncoll * d.nx + F.ncoll * d.nz) ∧
      (∀ x ξ u ζ tv p w, F.xf x ξ u ζ tv p w = ξ (F.ncoll - 1))) ∧
    (∀ i < ni, ∀ j ≤ deg, (Alloc.run d.nx d.nz deg ni).ik i j =
        if i = 0 ∧ j = 0 then .init else .at ((i * (deg + 1) + j - 1) * d.nx)) ∧
    (∀ i < ni, ∀ j ≤ deg, (Alloc.run d.nx d.nz deg ni).zk i j = .at ((i * (deg + 1) + j) * d.nz)) := by
  obtain ⟨n, rfl⟩ : ∃ n, ni = n + 1 := ⟨ni - 1, by omega⟩
  obtain ⟨h1, h2, _, h4, h5⟩ := alloc_run d.nx d.nz deg n
  refine ⟨?_, fun i hi j hj => h4 i j hi (by omega), fun i hi j hj => h5 i j hi (by omega)⟩
  have hok : ∃ F, setupCollocation m sx su sz sp deg (n + 1) tau tStep = .ok F := by
    unfold setupCollocation
    simp only
    rw [if_neg (by omega), if_neg, if_neg, if_neg]
    · exact ⟨_, rfl⟩
    · rw [collRows_length]; simp
    · rw [h2]; simp
    · rw [h1]
      simp only [ne_eq, not_not]
      ring
  obtain ⟨F, hF⟩ := hok
  obtain ⟨_, hn, hxf, hg⟩ := setupCollocation_ok m sx su sz sp deg (n + 1) tau tStep F hF
  refine ⟨F, hF, hn, ?_, ?_⟩
  · intro x ξ u ζ tv p w
    rw [hg, collRows_length, hn]; ring
  · intro x ξ u ζ tv p w
    rw [hxf, hn, Nat.mul_comm]

section
variable (deg : Nat) (tau : Nat → K) (hinj : ∀ i ≤ deg, ∀ j ≤ deg, tau i = tau j → i = j)
include hinj

theorem tau_injOn : Set.InjOn tau (Finset.range (deg + 1)) := by
  intro i hi j hj h
  simp only [Finset.coe_range, Set.mem_Iio] at hi hj
  exact hinj i (by omega) j (by omega) h

theorem interp_slope (r : Nat → K) (j : Nat) :
    (derivative (Lagrange.interpolate (Finset.range (deg + 1)) tau r)).eval (tau j) =
      ∑ i ∈ Finset.range (deg + 1), collC deg tau i j * r i := by
  rw [Lagrange.interpolate_apply, derivative_sum, eval_finsetSum]
  apply Finset.sum_congr rfl
  intro i _
  rw [derivative_C_mul, eval_C_mul, collC, lagrangeL_eq, mul_comm]

theorem interp_end (r : Nat → K) :
    (Lagrange.interpolate (Finset.range (deg + 1)) tau r).eval 1 = ∑ i ∈ Finset.range (deg + 1), collD deg tau i * r i := by
  rw [Lagrange.interpolate_apply, eval_finsetSum]
  apply Finset.sum_congr rfl
  intro i _
  rw [eval_C_mul, collD, lagrangeL_eq, mul_comm]

theorem interp_node (r : Nat → K) {j : Nat} (hj : j ≤ deg) :
    (Lagrange.interpolate (Finset.range (deg + 1)) tau r).eval (tau j) = r j :=
  Lagrange.eval_interpolate_at_node r (tau_injOn deg tau hinj) (by simp; omega)

theorem interp_degree (r : Nat → K) : (Lagrange.interpolate (Finset.range (deg + 1)) tau r).natDegree ≤ deg := by
  have := Lagrange.degree_interpolate_le r (tau_injOn deg tau hinj)
  simp only [Finset.card_range, Nat.add_sub_cancel] at this
  exact natDegree_le_of_degree_le this

theorem interp_unique (f : K[X]) (hf : f.natDegree ≤ deg) (r : Nat → K) (hr : ∀ j ≤ deg, f.eval (tau j) = r j) :
    f = Lagrange.interpolate (Finset.range (deg + 1)) tau r := by
  apply Lagrange.eq_interpolate_of_eval_eq _ (tau_injOn deg tau hinj)
  · rw [Finset.card_range]
    exact lt_of_le_of_lt degree_le_natDegree (by exact_mod_cast Nat.lt_succ_of_le hf)
  · intro i hi; exact hr i (by simp at hi; omega)
end

/-- The interval equations of the collocation scheme, for any parameter scaling and process noise. -/
theorem collocation_iff_general (m : DaeModel K d) (sx : Vec K d.nx) (su : Vec K d.nu) (sz : Vec K d.nz) (sp : Vec K d.np)
    (hx : ∀ i, 0 < sx i) (deg ni : Nat) (tau : Nat → K) (h0 : tau 0 = 0)
    (hinj : ∀ i ≤ deg, ∀ j ≤ deg, tau i = tau j → i = j) (tStep : K)
    (F : Ifcn K d) (hF : setupCollocation m sx su sz sp deg ni tau tStep = .ok F)
    (x : Vec K d.nx) (ξ : Nat → Vec K d.nx) (u : Vec K d.nu) (ζ : Nat → Vec K d.nz) (tv : Vec K d.ntv) (p : Vec K d.np) (w : Vec K d.nw)
    (x' : Vec K d.nx) :
    F.SolvesW x ξ u ζ tv p w x' ↔
      ∃ P : Nat → Fin d.nx → K[X],
        IsCollocationSolution m deg ni tau (tStep / ni) (x * sx) (u * su) tv (p * sp) w (x' * sx) P
          (fun i j => ζ (i * (deg + 1) + j) * sz) ∧
        (∀ i < ni, ∀ j ≤ deg, ¬ (i = 0 ∧ j = 0) → valueAt (P i) (tau j) = ξ (i * (deg + 1) + j - 1) * sx) ∧
        ξ (ni * (deg + 1) - 1) = x' := by
  obtain ⟨hni, hnc, hxf, hg⟩ := setupCollocation_ok m sx su sz sp deg ni tau tStep F hF
  obtain ⟨_, hik, hzk⟩ := C11_bookkeeping m sx su sz sp deg ni tau tStep hni
  -- values read from the allocation tables
  have vx : ∀ i < ni, ∀ j ≤ deg, ((Alloc.run d.nx d.nz deg ni).ik i j).value x ξ =
      if i = 0 ∧ j = 0 then x else ξ (i * (deg + 1) + j - 1) := by
    intro i hi j hj
    rw [hik i hi j hj]
    split_ifs
    · rfl
    · exact sliceAt_mul ξ _
  have vz : ∀ i < ni, ∀ j ≤ deg, ((Alloc.run d.nx d.nz deg ni).zk i j).value 0 ζ = ζ (i * (deg + 1) + j) := by
    intro i hi j hj
    rw [hzk i hi j hj]
    exact sliceAt_mul ζ _
  set xs : Nat → Nat → Vec K d.nx := fun i j => ((Alloc.run d.nx d.nz deg ni).ik i j).value x ξ with hxs
  set zs : Nat → Nat → Vec K d.nz := fun i j => ((Alloc.run d.nx d.nz deg ni).zk i j).value 0 ζ with hzs
  set h := tStep / (ni : K) with hh
  have ofFn0 : ∀ {n : Nat} (f : Vec K n), (∀ v ∈ List.ofFn f, v = 0) ↔ f = 0 := by
    intro n f
    simp only [List.mem_ofFn, forall_exists_index, forall_apply_eq_imp_iff]
    exact ⟨fun H => funext H, fun H j => by rw [H]; rfl⟩
  -- the rows as equations
  have hrows : (∀ v ∈ F.g x ξ u ζ tv p w, v = 0) ↔ ∀ i < ni,
      m.alg (xs i 0 * sx) (u * su) (zs i 0 * sz) tv (p * sp) w = 0 ∧
      (∀ j, 1 ≤ j → j ≤ deg →
        (∀ e, h * (m.rhs (xs i j * sx) (u * su) (zs i j * sz) tv (p * sp) w e / sx e) =
          ∑ r ∈ Finset.range (deg + 1), collC deg tau r j * xs i r e) ∧
        m.alg (xs i j * sx) (u * su) (zs i j * sz) tv (p * sp) w = 0) ∧
      (∀ e, (if i + 1 < ni then xs (i + 1) 0 else ξ (ni * (deg + 1) - 1)) e =
        ∑ r ∈ Finset.range (deg + 1), collD deg tau r * xs i r e) := by
    rw [hg]
    unfold collRows
    simp only [List.mem_flatMap, List.mem_append, List.mem_range]
    have expand : ∀ (f : Vec K d.nx), f = 0 ↔ ∀ e, f e = 0 := fun f => ⟨fun H e => by rw [H]; rfl, fun H => funext H⟩
    constructor
    · intro H i hi
      refine ⟨(ofFn0 _).mp fun v hv => H v ⟨i, hi, Or.inl (Or.inl hv)⟩, ?_, ?_⟩
      · intro j hj1 hj2
        have hjm : j ∈ List.range' 1 deg := by rw [List.mem_range'_1]; omega
        refine ⟨?_, (ofFn0 _).mp fun v hv => H v ⟨i, hi, Or.inl (Or.inr ⟨j, hjm, Or.inr hv⟩)⟩⟩
        have := (expand _).mp ((ofFn0 _).mp fun v hv => H v ⟨i, hi, Or.inl (Or.inr ⟨j, hjm, Or.inl hv⟩)⟩)
        intro e
        have := this e
        rw [Pi.sub_apply, foldl_smul_sum, sub_eq_zero] at this
        exact this
      · intro e
        have := (expand _).mp ((ofFn0 _).mp fun v hv => H v ⟨i, hi, Or.inr hv⟩) e
        rw [Pi.sub_apply, foldl_smul_sum, sub_eq_zero] at this
        exact this
    · rintro H v ⟨i, hi, (hv | ⟨j, hj, hv | hv⟩) | hv⟩
      · exact (ofFn0 _).mpr (H i hi).1 v hv
      · rw [List.mem_range'_1] at hj
        refine (ofFn0 _).mpr ?_ v hv
        rw [expand]
        intro e
        rw [Pi.sub_apply, foldl_smul_sum, sub_eq_zero]
        exact ((H i hi).2.1 j (by omega) (by omega)).1 e
      · rw [List.mem_range'_1] at hj
        exact (ofFn0 _).mpr ((H i hi).2.1 j (by omega) (by omega)).2 v hv
      · refine (ofFn0 _).mpr ?_ v hv
        rw [expand]
        intro e
        rw [Pi.sub_apply, foldl_smul_sum, sub_eq_zero]
        exact (H i hi).2.2 e
  unfold Ifcn.SolvesW
  rw [hrows, hxf]
  have hxs00 : xs 0 0 = x := by rw [hxs]; simp only; rw [vx 0 hni 0 (Nat.zero_le _)]; simp
  have hzs' : ∀ i < ni, ∀ j ≤ deg, zs i j = ζ (i * (deg + 1) + j) := vz
  constructor
  · rintro ⟨H, hend⟩
    let P : Nat → Fin d.nx → K[X] := fun i e =>
      Lagrange.interpolate (Finset.range (deg + 1)) tau (fun r => xs i r e * sx e)
    have hval : ∀ i, ∀ j ≤ deg, valueAt (P i) (tau j) = xs i j * sx := by
      intro i j hj; funext e; exact interp_node deg tau hinj _ hj
    have hv0 : ∀ i, valueAt (P i) 0 = xs i 0 * sx := by
      intro i; have := hval i 0 (Nat.zero_le _); rwa [h0] at this
    have hv1 : ∀ i < ni, valueAt (P i) 1 = (if i + 1 < ni then xs (i + 1) 0 else ξ (ni * (deg + 1) - 1)) * sx := by
      intro i hi
      funext e
      have := (H i hi).2.2 e
      rw [Pi.mul_apply, this]
      show (Lagrange.interpolate _ _ _).eval 1 = _
      rw [interp_end deg tau hinj, Finset.sum_mul]
      exact Finset.sum_congr rfl fun r _ => by ring
    refine ⟨P, ⟨?_, ?_, ?_, ?_, ?_, ?_⟩, ?_, hend⟩
    · intro i _ e; exact interp_degree deg tau hinj _
    · rw [hv0, hxs00]
    · intro i hi j hj1 hj2
      rw [hval i j hj2, ← hzs' i hi j hj2]
      funext e
      have := ((H i hi).2.1 j hj1 hj2).1 e
      show (derivative (Lagrange.interpolate _ _ _)).eval (tau j) = _
      rw [interp_slope deg tau hinj, Pi.smul_apply, smul_eq_mul]
      have hne := (hx e).ne'
      have h2 : ∑ r ∈ Finset.range (deg + 1), collC deg tau r j * (xs i r e * sx e) =
          (∑ r ∈ Finset.range (deg + 1), collC deg tau r j * xs i r e) * sx e := by
        rw [Finset.sum_mul]; exact Finset.sum_congr rfl fun r _ => by ring
      rw [h2, ← this]
      field_simp
    · intro i hi j hj
      rw [hval i j hj, ← hzs' i hi j hj]
      by_cases hj0 : j = 0
      · subst hj0; exact (H i hi).1
      · exact ((H i hi).2.1 j (by omega) hj).2
    · intro i hi
      rw [hv0, hv1 i (by omega), if_pos hi]
    · rw [hv1 (ni - 1) (by omega), if_neg (by omega), hend]
    · intro i hi j hj hij
      rw [hval i j hj]
      congr 1
      rw [hxs]; simp only; rw [vx i hi j hj, if_neg hij]
  · rintro ⟨P, S, hPval, hend⟩
    -- values of P at all points
    have hv : ∀ i < ni, ∀ j ≤ deg, valueAt (P i) (tau j) = xs i j * sx := by
      intro i hi j hj
      by_cases hij : i = 0 ∧ j = 0
      · obtain ⟨rfl, rfl⟩ := hij
        rw [h0, S.start, hxs00]
      · rw [hPval i hi j hj hij]
        congr 1
        rw [hxs]; simp only; rw [vx i hi j hj, if_neg hij]
    have hP : ∀ i < ni, ∀ e, P i e = Lagrange.interpolate (Finset.range (deg + 1)) tau (fun r => xs i r e * sx e) := by
      intro i hi e
      apply interp_unique deg tau hinj _ (S.degree i hi e)
      intro j hj
      exact congrFun (hv i hi j hj) e
    refine ⟨?_, hend⟩
    intro i hi
    refine ⟨?_, ?_, ?_⟩
    · have := S.algebraic i hi 0 (Nat.zero_le _)
      rwa [hv i hi 0 (Nat.zero_le _), ← hzs' i hi 0 (Nat.zero_le _)] at this
    · intro j hj1 hj2
      refine ⟨?_, ?_⟩
      · intro e
        have := congrFun (S.ode i hi j hj1 hj2) e
        rw [hv i hi j hj2, ← hzs' i hi j hj2] at this
        have h3 : slopeAt (P i) (tau j) e = (∑ r ∈ Finset.range (deg + 1), collC deg tau r j * xs i r e) * sx e := by
          show (derivative (P i e)).eval (tau j) = _
          rw [hP i hi e, interp_slope deg tau hinj, Finset.sum_mul]
          exact Finset.sum_congr rfl fun r _ => by ring
        rw [h3, Pi.smul_apply, smul_eq_mul] at this
        have hne := (hx e).ne'
        rw [← mul_div_assoc, ← this]
        field_simp
      · have := S.algebraic i hi j hj2
        rwa [hv i hi j hj2, ← hzs' i hi j hj2] at this
    · intro e
      have hne := (hx e).ne'
      have h4 : valueAt (P i) 1 e = (∑ r ∈ Finset.range (deg + 1), collD deg tau r * xs i r e) * sx e := by
        show (P i e).eval 1 = _
        rw [hP i hi e, interp_end deg tau hinj, Finset.sum_mul]
        exact Finset.sum_congr rfl fun r _ => by ring
      split_ifs with hi1
      · have := S.join i hi1
        have h5 : valueAt (P (i + 1)) 0 = xs (i + 1) 0 * sx := by
          have := hv (i + 1) hi1 0 (Nat.zero_le _); rwa [h0] at this
        have := congrFun this e
        rw [h4, h5, Pi.mul_apply] at this
        exact mul_right_cancel₀ hne this
      · have hi2 : i = ni - 1 := by omega
        have := congrFun S.final e
        rw [← hi2, h4, Pi.mul_apply, ← hend] at this
        exact (mul_right_cancel₀ hne this).symm

/-- **C10**: the equations the collocation setup hands to the solver hold for an interval iff, in physical units, there are
polynomials forming a collocation solution of the model from the node's state to the successor's state, the solver's
intermediate states being their values at the collocation points.  Every degree, number of elements, scaling, dimension and set
of distinct collocation points starting at 0. -/
theorem C10_collocation_iff (m : DaeModel K d) (sx : Vec K d.nx) (su : Vec K d.nu) (sz : Vec K d.nz)
    (hx : ∀ i, 0 < sx i) (deg ni : Nat) (tau : Nat → K) (h0 : tau 0 = 0)
    (hinj : ∀ i ≤ deg, ∀ j ≤ deg, tau i = tau j → i = j) (tStep : K)
    (F : Ifcn K d) (hF : setupCollocation m sx su sz 1 deg ni tau tStep = .ok F)
    (x : Vec K d.nx) (ξ : Nat → Vec K d.nx) (u : Vec K d.nu) (ζ : Nat → Vec K d.nz) (tv : Vec K d.ntv) (p : Vec K d.np)
    (x' : Vec K d.nx) :
    F.Solves x ξ u ζ tv p x' ↔
      ∃ P : Nat → Fin d.nx → K[X],
        IsCollocationSolution m deg ni tau (tStep / ni) (x * sx) (u * su) tv p 0 (x' * sx) P
          (fun i j => ζ (i * (deg + 1) + j) * sz) ∧
        (∀ i < ni, ∀ j ≤ deg, ¬ (i = 0 ∧ j = 0) → valueAt (P i) (tau j) = ξ (i * (deg + 1) + j - 1) * sx) ∧
        ξ (ni * (deg + 1) - 1) = x' := by
  have := collocation_iff_general m sx su sz 1 hx deg ni tau h0 hinj tStep F hF x ξ u ζ tv p 0 x'
  rw [mul_one] at this
  exact this

/-- **C04/C10** for collocation: with a continuous-time model the equality rows of the MPC problem hold iff the root state is the
measured state and on every branch of the scenario tree there is a collocation solution of the model, in physical units, from
the node's state under the node's input, the stage's time-varying parameter and the branch's parameter, ending in the
successor's state; the intermediate variables of the solver are its values at the collocation points. -/
theorem C04_C10_rows_iff_collocation (m : DaeModel K d) (cfg : MpcCfg K d) (hc : 0 < cfg.c) (hx : ∀ i, 0 < cfg.sx i)
    (deg ni : Nat) (tau : Nat → K) (h0 : tau 0 = 0) (hinj : ∀ i ≤ deg, ∀ j ≤ deg, tau i = tau j → i = j) (tStep : K)
    (hF : setupCollocation m cfg.sx cfg.su cfg.sz 1 deg ni tau tStep = .ok cfg.ifcn)
    (w : OptX K d) (q : OptP K d) (hnl : cfg.nl = []) :
    (∀ r ∈ cfg.rows w q, r.Holds) ↔
      cfg.X w 0 [] = q.x0 ∧
      ∀ k < cfg.N, ∀ h, IsHistory cfg.c cfg.nRobust k h → ∀ r, MayOccur cfg.c cfg.nRobust k h r →
        let h' := extend cfg.nRobust k h r
        let n' := number cfg.c h'
        ∃ P : Nat → Fin d.nx → K[X],
          IsCollocationSolution m deg ni tau (tStep / ni) (cfg.X w k h) (cfg.U w k h) (q.tvp k) (q.p r) 0 (cfg.X w (k + 1) h') P
            (fun i j => cfg.zPhys w k n' (i * (deg + 1) + j)) ∧
          (∀ i < ni, ∀ j ≤ deg, ¬ (i = 0 ∧ j = 0) → valueAt (P i) (tau j) = cfg.xPhys w (k + 1) n' (i * (deg + 1) + j - 1)) ∧
          w.x (k + 1) n' (ni * (deg + 1) - 1) = w.x (k + 1) n' cfg.xLast := by
  rw [C04_rows_iff_any_discretisation cfg hc hx w q hnl]
  apply and_congr Iff.rfl
  apply forall_congr'; intro k
  apply imp_congr Iff.rfl
  apply forall_congr'; intro h
  apply imp_congr Iff.rfl
  apply forall_congr'; intro r
  apply imp_congr Iff.rfl
  exact C10_collocation_iff m cfg.sx cfg.su cfg.sz hx deg ni tau h0 hinj tStep cfg.ifcn hF _ _ _ _ _ _ _

/-- Non-vacuity of `C10_collocation_iff`: `x' = 2 t`-like system `x' = u`, implicit Euler (`deg = 1`, Radau point 1), one element
of length 1, scaling 2: from physical state 1 with physical input 3 the interval equations have the solution 4. -/
example : ∃ (d : Dims) (m : DaeModel ℚ d) (F : Ifcn ℚ d) (sx : Vec ℚ d.nx) (x : Vec ℚ d.nx) (u : Vec ℚ d.nu)
    (ξ : Nat → Vec ℚ d.nx) (x' : Vec ℚ d.nx),
    setupCollocation m sx 1 1 1 1 1 (fun j => (j : ℚ)) 1 = .ok F ∧ F.Solves x ξ u 0 0 0 x' ∧ x ≠ x' := by
  let d : Dims := ⟨1, 1, 0, 0, 0, 0, 0, 0, 0⟩
  let m : DaeModel ℚ d := ⟨fun _ u _ _ _ _ => u, fun _ _ _ _ _ _ => Fin.elim0, fun _ _ _ _ _ _ => Fin.elim0, fun _ _ _ _ _ => Fin.elim0⟩
  obtain ⟨⟨F, hF, _⟩, _⟩ := C11_bookkeeping m (fun _ => 2) 1 1 1 1 1 (fun j => (j : ℚ)) 1 one_pos
  refine ⟨d, m, F, fun _ => 2, fun _ => 1/2, fun _ => 3, fun _ _ => 2, fun _ => 2, hF, ?_, ?_⟩
  · rw [C10_collocation_iff m (fun _ => 2) 1 1 (fun _ => two_pos) 1 1 (fun j => (j : ℚ)) (by simp) (by intro i _ j _ h; exact_mod_cast h) 1 F hF]
    refine ⟨fun _ _ => C 1 + C 3 * X, ⟨?_, ?_, ?_, ?_, ?_, ?_⟩, ?_, rfl⟩
    · intro i _ e
      compute_degree
    · funext e; simp [valueAt]
    · intro i hi j h1 h2
      funext e
      simp [slopeAt, m]
    · intro i hi j hj
      exact Subsingleton.elim (α := Fin 0 → ℚ) _ _
    · intro i hi; omega
    · funext e; simp [valueAt]; norm_num
    · intro i hi j hj hij
      have : j = 1 := by omega
      subst this
      funext e; simp [valueAt]; norm_num
  · intro h
    have := congrFun h 0
    norm_num at this

end DoMpc
