import Verif.Spec.Scaling
import Verif.Props.MpcOptimal
import Verif.Props.Collocation

/-! # Property C104: scaling factors change the numbers, not the problem -/
set_option linter.unusedSectionVars false
namespace DoMpc
open Polynomial
variable {K : Type} [Field K] [LinearOrder K] [IsStrictOrderedRing K] {d : Dims}

theorem vec_mul_ext {n : Nat} {a b s s' : Vec K n} (h : ∀ j, a j * s j = b j * s' j) : a * s = b * s' := funext h

theorem scaled_fold {sx sx' : Vec K d.nx} (c : Nat → K) (l : List Nat) (xs xs' : Nat → Vec K d.nx) (h : ∀ r ∈ l, xs r * sx = xs' r * sx') (a a' : Vec K d.nx)
    (ha : a * sx = a' * sx') :
    (l.foldl (fun acc r => acc + c r • xs r) a) * sx = (l.foldl (fun acc r => acc + c r • xs' r) a') * sx' := by
  induction l generalizing a a' with
  | nil => exact ha
  | cons r l ih =>
    simp only [List.foldl_cons]
    refine ih (fun r' hr' => h r' (by simp [hr'])) _ _ ?_
    rw [add_mul, add_mul, ha, smul_mul_assoc, smul_mul_assoc, h r (by simp)]

theorem zero_iff_scaled {n : Nat} {a b s s' : Vec K n} (hs : ∀ j, 0 < s j) (hs' : ∀ j, 0 < s' j) (h : a * s = b * s') : (∀ j, a j = 0) ↔ ∀ j, b j = 0 := by
  have e : ∀ j, a j * s j = b j * s' j := fun j => congrFun h j
  constructor
  · intro h0 j
    have := e j
    rw [h0 j, zero_mul] at this
    exact (mul_eq_zero.1 this.symm).resolve_right (hs' j).ne'
  · intro h0 j
    have := e j
    rw [h0 j, zero_mul] at this
    exact (mul_eq_zero.1 this).resolve_right (hs j).ne'

theorem div_mul_self {n : Nat} {s : Vec K n} (hs : ∀ j, 0 < s j) (a : Vec K n) : a / s * s = a := by
  funext j
  exact div_mul_cancel₀ _ (hs j).ne'

/-- the equations of an interval hold for scaled variables if they hold for the physical ones -/
theorem collRows_scaled (m : DaeModel K d) {sx sx' : Vec K d.nx} {su su' : Vec K d.nu} {sz sz' : Vec K d.nz} (hx : ∀ j, 0 < sx j) (hx' : ∀ j, 0 < sx' j)
    (sp : Vec K d.np) (deg ni : Nat) (tau : Nat → K) (h : K) (xs xs' : Nat → Nat → Vec K d.nx) (zs zs' : Nat → Nat → Vec K d.nz) (xkf xkf' : Vec K d.nx) (u u' : Vec K d.nu)
    (tv : Vec K d.ntv) (p : Vec K d.np) (w : Vec K d.nw) (exs : ∀ i < ni, ∀ j ≤ deg, xs i j * sx = xs' i j * sx') (ezs : ∀ i < ni, ∀ j ≤ deg, zs i j * sz = zs' i j * sz')
    (exf : xkf * sx = xkf' * sx') (eu : u * su = u' * su') :
    (∀ g ∈ collRows m sx su sz sp deg ni tau h xs zs xkf u tv p w, g = 0) ↔ ∀ g ∈ collRows m sx' su' sz' sp deg ni tau h xs' zs' xkf' u' tv p w, g = 0 := by
  unfold collRows
  simp only [List.forall_mem_flatMap, List.forall_mem_append, List.forall_mem_ofFn_iff, List.mem_range]
  refine forall₂_congr fun i hi => ?_
  refine and_congr (and_congr ?_ ?_) ?_
  · rw [exs i hi 0 (by omega), ezs i hi 0 (by omega), eu]
  · refine forall₂_congr fun j hj => ?_
    rw [List.mem_range'_1] at hj
    refine and_congr ?_ ?_
    · refine zero_iff_scaled (s := sx) (s' := sx') hx hx' ?_
      rw [sub_mul, sub_mul, smul_mul_assoc, smul_mul_assoc, div_mul_self hx, div_mul_self hx', exs i hi j (by omega), ezs i hi j (by omega), eu,
        scaled_fold (sx := sx) (sx' := sx') (fun r => collC deg tau r j) _ (xs i) (xs' i) (fun r hr => exs i hi r (by have := List.mem_range.1 hr; omega)) 0 0 (by simp)]
    · rw [exs i hi j (by omega), ezs i hi j (by omega), eu]
  · refine zero_iff_scaled (s := sx) (s' := sx') hx hx' ?_
    rw [sub_mul, sub_mul, scaled_fold (sx := sx) (sx' := sx') (fun r => collD deg tau r) _ (xs i) (xs' i) (fun r hr => exs i hi r (by have := List.mem_range.1 hr; omega)) 0 0 (by simp)]
    congr 1
    split_ifs with hl
    · exact exs (i + 1) hl 0 (by omega)
    · exact exf

/-- `F`, `F'` are the model discretised in the same way with different scaling factors -/
def SameDiscretisation (m : DaeModel K d) (sp : Vec K d.np) (sx sx' : Vec K d.nx) (su su' : Vec K d.nu) (sz sz' : Vec K d.nz) (F F' : Ifcn K d) : Prop :=
  (F = discreteIfcn m sx su sz sp ∧ F' = discreteIfcn m sx' su' sz' sp) ∨
    ∃ deg ni tau tStep, setupCollocation m sx su sz sp deg ni tau tStep = .ok F ∧ setupCollocation m sx' su' sz' sp deg ni tau tStep = .ok F'

/-- the discretised models agree on physical values -/
theorem ifcn_scaled {m : DaeModel K d} {sp : Vec K d.np} {sx sx' : Vec K d.nx} {su su' : Vec K d.nu} {sz sz' : Vec K d.nz} {F F' : Ifcn K d}
    (hx : ∀ j, 0 < sx j) (hx' : ∀ j, 0 < sx' j) (h : SameDiscretisation m sp sx sx' su su' sz sz' F F') :
    F.ncoll = F'.ncoll ∧ ∀ x x' ξ ξ' u u' ζ ζ' tv p w, x * sx = x' * sx' → (∀ i, ξ i * sx = ξ' i * sx') → u * su = u' * su' →
      (∀ i, ζ i * sz = ζ' i * sz') → ((∀ g ∈ F.g x ξ u ζ tv p w, g = 0) ↔ ∀ g ∈ F'.g x' ξ' u' ζ' tv p w, g = 0) ∧
      F.xf x ξ u ζ tv p w * sx = F'.xf x' ξ' u' ζ' tv p w * sx' := by
  obtain ⟨h1, h2⟩ | ⟨deg, ni, tau, tStep, h1, h2⟩ := h
  · rw [h1, h2]
    refine ⟨rfl, fun x x' ξ ξ' u u' ζ ζ' tv p w ex eξ eu eζ => ⟨?_, ?_⟩⟩
    · simp only [discreteIfcn, List.forall_mem_ofFn_iff]
      rw [ex, eu, eζ 0]
    · simp only [discreteIfcn]
      rw [div_mul_self hx, div_mul_self hx', ex, eu, eζ 0]
  · obtain ⟨hni, n1, f1, g1⟩ := setupCollocation_ok _ _ _ _ _ _ _ _ _ _ h1
    obtain ⟨-, n2, f2, g2⟩ := setupCollocation_ok _ _ _ _ _ _ _ _ _ _ h2
    refine ⟨by rw [n1, n2], fun x x' ξ ξ' u u' ζ ζ' tv p w ex eξ eu eζ => ⟨?_, ?_⟩⟩
    · rw [g1, g2]
      obtain ⟨_, hik, hzk⟩ := C11_bookkeeping m sx su sz sp deg ni tau tStep hni
      refine collRows_scaled m hx hx' sp deg ni tau _ _ _ _ _ _ _ u u' tv p w ?_ ?_ (eξ _) eu
      · intro i hi j hj
        rw [hik i hi j hj]
        split_ifs
        · exact ex
        · show sliceAt ξ _ * _ = sliceAt ξ' _ * _
          rw [sliceAt_mul, sliceAt_mul]
          exact eξ _
      · intro i hi j hj
        rw [hzk i hi j hj]
        show sliceAt ζ _ * _ = sliceAt ζ' _ * _
        rw [sliceAt_mul, sliceAt_mul]
        exact eζ _
    · rw [f1, f2]
      exact eξ _

theorem eq0_holds (v : K) : (Row.eq0 v).Holds ↔ v = 0 := by
  simp [Row.eq0, Row.Holds, Bound.le, Bound.ge, le_antisymm_iff, and_comm]

theorem other_fields {m : DaeModel K d} {cfg cfg' : MpcCfg K d} (h : OtherScaling m cfg cfg') :
    ∃ sx su sz F r, cfg' = { cfg with sx := sx, su := su, sz := sz, ifcn := F, rterm := r } := ⟨_, _, _, _, _, h.same⟩

theorem scaled_le {b : Bound K} {s s' v v' : K} (hs : 0 < s) (hs' : 0 < s') (e : v * s = v' * s') : (b.divBy s).le v ↔ (b.divBy s').le v' := by
  rw [Bound.divBy_le b hs, Bound.divBy_le b hs', e]

theorem scaled_ge {b : Bound K} {s s' v v' : K} (hs : 0 < s) (hs' : 0 < s') (e : v * s = v' * s') : (b.divBy s).ge v ↔ (b.divBy s').ge v' := by
  rw [Bound.divBy_ge b hs, Bound.divBy_ge b hs', e]

/-- **C104**: every plan can be written with every scaling. -/
theorem C104_same_plan (m : DaeModel K d) (cfg cfg' : MpcCfg K d) (h : OtherScaling m cfg cfg') (w : OptX K d) : ∃ w', SamePlan cfg cfg' w w' :=
  ⟨⟨fun k s i j => w.x k s i j * cfg.sx j / cfg'.sx j, fun k s i j => w.z k s i j * cfg.sz j / cfg'.sz j, fun k s j => w.u k s j * cfg.su j / cfg'.su j, w.eps⟩,
    fun k s i j => (div_mul_cancel₀ _ (h.positive'.1 j).ne').symm, fun k s i j => (div_mul_cancel₀ _ (h.positive'.2.2 j).ne').symm,
    fun k s j => (div_mul_cancel₀ _ (h.positive'.2.1 j).ne').symm, rfl⟩

/-- **C104**: the scaling does not change which plans are feasible. -/
theorem C104_feasible (m : DaeModel K d) (cfg cfg' : MpcCfg K d) (h : OtherScaling m cfg cfg') (w w' : OptX K d) (hw : SamePlan cfg cfg' w w') (q : OptP K d) :
    cfg.Feasible w q ↔ cfg'.Feasible w' q := by
  obtain ⟨hn, hF⟩ := ifcn_scaled h.positive.1 h.positive'.1 h.model
  obtain ⟨px, pu, pz⟩ := h.positive
  obtain ⟨px', pu', pz'⟩ := h.positive'
  have ex : ∀ k s i, w.x k s i * cfg.sx = w'.x k s i * cfg'.sx := fun k s i => funext (hw.states k s i)
  have eu : ∀ k s, w.u k s * cfg.su = w'.u k s * cfg'.su := fun k s => funext (hw.inputs k s)
  have ez : ∀ k s i, w.z k s i * cfg.sz = w'.z k s i * cfg'.sz := fun k s i => funext (hw.algebraic k s i)
  obtain ⟨sx', su', sz', F', r', rfl⟩ := other_fields h
  have hl : cfg.xLast = F'.ncoll := hn
  have hl' : cfg.zLast = max F'.ncoll 1 - 1 := by rw [← hn]; rfl
  unfold MpcCfg.Feasible
  refine and_congr ?_ ?_
  · unfold MpcCfg.rows
    simp only [List.forall_mem_append, List.forall_mem_flatMap]
    refine and_congr ?_ ?_
    · simp only [MpcCfg.initRows, List.forall_mem_ofFn_iff, eq0_holds]
      refine zero_iff_scaled (s := cfg.sx) (s' := sx') px px' ?_
      rw [sub_mul, sub_mul, div_mul_self px, div_mul_self px', ex, hl]
      rfl
    · refine forall₂_congr fun ksb _ => and_congr ?_ ?_
      · simp only [MpcCfg.dynRows, List.forall_mem_append, List.forall_mem_map, List.forall_mem_ofFn_iff, eq0_holds]
        have := hF (w.x ksb.1 ksb.2.1 cfg.xLast) (w'.x ksb.1 ksb.2.1 cfg.xLast) (w.x (ksb.1 + 1) (cfg.child ksb.1 ksb.2.1 ksb.2.2))
          (w'.x (ksb.1 + 1) (cfg.child ksb.1 ksb.2.1 ksb.2.2)) (w.u ksb.1 (cfg.sU ksb.2.1)) (w'.u ksb.1 (cfg.sU ksb.2.1))
          (w.z ksb.1 (cfg.child ksb.1 ksb.2.1 ksb.2.2)) (w'.z ksb.1 (cfg.child ksb.1 ksb.2.1 ksb.2.2)) (q.tvp ksb.1) (q.p (cfg.cur ksb.1 ksb.2.1 ksb.2.2)) 0
          (ex _ _ _) (fun i => ex _ _ i) (eu _ _) (fun i => ez _ _ i)
        obtain ⟨a, b⟩ := this
        rw [hl] at a b ⊢
        refine and_congr a ?_
        refine zero_iff_scaled (s := cfg.sx) (s' := sx') px px' ?_
        rw [sub_mul, sub_mul]
        exact congrArg₂ (· - ·) b (ex _ _ _)
      · suffices e : cfg.nlRowsAt w q ksb.1 ksb.2.1 ksb.2.2 =
            MpcCfg.nlRowsAt { cfg with sx := sx', su := su', sz := sz', ifcn := F', rterm := r' } w' q ksb.1 ksb.2.1 ksb.2.2 by rw [e]
        unfold MpcCfg.nlRowsAt MpcCfg.xPhys MpcCfg.uPhys MpcCfg.zPhys
        simp only [ex, eu, ez, hw.slacks, hn, hl]
        rfl
  · unfold MpcCfg.InBounds
    refine and_congr ?_ (and_congr ?_ (and_congr ?_ ?_))
    · rw [hl]
      refine forall₂_congr fun k _ => forall₂_congr fun s _ => forall₂_congr fun i _ => forall_congr' fun j => ?_
      have e := hw.states k s i j
      have hle : ∀ b : Bound K, (b.divBy (cfg.sx j)).le (w.x k s i j) ↔ (b.divBy (sx' j)).le (w'.x k s i j) := fun b => scaled_le (px j) (px' j) e
      have hge : ∀ b : Bound K, (b.divBy (cfg.sx j)).ge (w.x k s i j) ↔ (b.divBy (sx' j)).ge (w'.x k s i j) := fun b => scaled_ge (px j) (px' j) e
      have hxl : MpcCfg.xLast { cfg with sx := sx', su := su', sz := sz', ifcn := F', rterm := r' } = F'.ncoll := rfl
      simp only [MpcCfg.lbx, MpcCfg.ubx, MpcCfg.updateBounds, hl, hxl]
      cases cfg.consColloc <;> simp only [Bool.false_eq_true, if_false, if_true] <;> refine and_congr ?_ ?_ <;> split_ifs <;> first | exact hle _ | exact hge _ | exact Iff.rfl
    · rw [hl']
      refine forall₂_congr fun k _ => forall₂_congr fun s _ => forall₂_congr fun i _ => forall_congr' fun j => ?_
      have e := hw.algebraic k s i j
      have hle : ∀ b : Bound K, (b.divBy (cfg.sz j)).le (w.z k s i j) ↔ (b.divBy (sz' j)).le (w'.z k s i j) := fun b => scaled_le (pz j) (pz' j) e
      have hge : ∀ b : Bound K, (b.divBy (cfg.sz j)).ge (w.z k s i j) ↔ (b.divBy (sz' j)).ge (w'.z k s i j) := fun b => scaled_ge (pz j) (pz' j) e
      simp only [MpcCfg.lbx, MpcCfg.ubx, MpcCfg.updateBounds]
      cases cfg.consColloc <;> simp only [Bool.false_eq_true, if_false, if_true] <;> refine and_congr ?_ ?_ <;> (try split_ifs) <;> first | exact hle _ | exact hge _ | exact Iff.rfl
    · refine forall₂_congr fun k _ => forall₂_congr fun s _ => forall_congr' fun j => ?_
      have e := hw.inputs k s j
      exact and_congr (scaled_le (pu j) (pu' j) e) (scaled_ge (pu j) (pu' j) e)
    · rw [hw.slacks]
      exact Iff.rfl

/-- **C104** (partial: default penalty on input changes, with weights in the ratio of the squared scaling factors, in particular without penalty; otherwise false,
`C104_fails_default_penalty`): the scaling does not change the cost of a plan. -/
theorem C104_cost_partial (m : DaeModel K d) (cfg cfg' : MpcCfg K d) (h : OtherScaling m cfg cfg') (hr : SameChangePenalty cfg cfg') (w w' : OptX K d)
    (hw : SamePlan cfg cfg' w w') (q : OptP K d) : cfg.obj w q = cfg'.obj w' q := by
  obtain ⟨hn, -⟩ := ifcn_scaled h.positive.1 h.positive'.1 h.model
  obtain ⟨px, pu, pz⟩ := h.positive
  obtain ⟨px', pu', pz'⟩ := h.positive'
  have ex : ∀ k s i, w.x k s i * cfg.sx = w'.x k s i * cfg'.sx := fun k s i => funext (hw.states k s i)
  have eu : ∀ k s, w.u k s * cfg.su = w'.u k s * cfg'.su := fun k s => funext (hw.inputs k s)
  have ez : ∀ k s i, w.z k s i * cfg.sz = w'.z k s i * cfg'.sz := fun k s i => funext (hw.algebraic k s i)
  obtain ⟨r, r1, e1, e2, hr⟩ := hr
  obtain ⟨sx', su', sz', F', r', rfl⟩ := other_fields h
  have e2 : r' = .factor r1 := e2
  subst e2
  have hl : cfg.xLast = F'.ncoll := hn
  have hl' : cfg.zLast = max F'.ncoll 1 - 1 := by rw [← hn]; rfl
  unfold MpcCfg.obj
  refine congrArg List.sum (List.map_congr_left fun ksb _ => ?_)
  refine congrArg₂ (· + ·) (congrArg₂ (· + ·) ?_ ?_) ?_
  · unfold MpcCfg.econAt MpcCfg.xPhys MpcCfg.uPhys MpcCfg.zPhys
    simp only [ex, eu, ez, hl, hl']
    rfl
  · unfold MpcCfg.slackAt
    rw [hw.slacks]
    rfl
  · unfold MpcCfg.rtermAt
    rw [e1]
    dsimp only
    refine congrArg List.sum (congrArg List.ofFn (funext fun j => ?_))
    have key : ∀ a a' b b' : K, a * cfg.su j = a' * su' j → b * cfg.su j = b' * su' j → r j * (a - b) ^ 2 = r1 j * (a' - b') ^ 2 := by
      intro a a' b b' ha hb
      have h1 : (a - b) = ((a' - b') * su' j) / cfg.su j := by
        rw [eq_div_iff (pu j).ne']
        linear_combination ha - hb
      have h2 := hr j
      have hs := (pu j).ne'
      have hs' : su' j ≠ 0 := (pu' j).ne'
      have h3 : r j = r1 j / su' j ^ 2 * cfg.su j ^ 2 := by
        rw [← h2]
        field_simp
      rw [h1, h3]
      field_simp
    refine key _ _ _ _ (hw.inputs _ _ j) ?_
    split_ifs
    · show q.uPrev j / cfg.su j * cfg.su j = q.uPrev j / su' j * su' j
      rw [div_mul_cancel₀ _ (pu j).ne', div_mul_cancel₀ _ (pu' j).ne']
    · exact hw.inputs _ _ j

/-- **C104** (partial, as the cost): the scaling does not change which inputs `make_step` may return. -/
theorem C104_inputs_partial (m : DaeModel K d) (cfg cfg' : MpcCfg K d) (h : OtherScaling m cfg cfg') (hr : SameChangePenalty cfg cfg') (q : OptP K d) (u : Vec K d.nu) :
    BestInput cfg q u ↔ BestInput cfg' q u := by
  have one : ∀ cfg cfg' : MpcCfg K d, OtherScaling m cfg cfg' → SameChangePenalty cfg cfg' → OtherScaling m cfg' cfg → BestInput cfg q u → BestInput cfg' q u := by
    rintro cfg cfg' h hr h' ⟨w, ⟨hf, hm⟩, hu⟩
    obtain ⟨w', hw⟩ := C104_same_plan m cfg cfg' h w
    refine ⟨w', ⟨(C104_feasible m cfg cfg' h w w' hw q).1 hf, fun v' hv' => ?_⟩, fun j => by rw [hu j, hw.inputs]⟩
    obtain ⟨v, hv⟩ := C104_same_plan m cfg' cfg h' v'
    have hv2 : SamePlan cfg cfg' v v' := ⟨fun k s i j => (hv.states k s i j).symm, fun k s i j => (hv.algebraic k s i j).symm, fun k s j => (hv.inputs k s j).symm, hv.slacks.symm⟩
    rw [← C104_cost_partial m cfg cfg' h hr w w' hw, ← C104_cost_partial m cfg cfg' h hr v v' hv2]
    exact hm v ((C104_feasible m cfg cfg' h v v' hv2 q).2 hv')
  have h' : OtherScaling m cfg' cfg := ⟨by rw [h.same], h.positive', h.positive, h.model.imp And.symm fun ⟨a, b, c, e, h1, h2⟩ => ⟨a, b, c, e, h2, h1⟩⟩
  have hr' : SameChangePenalty cfg' cfg := by
    obtain ⟨r, r', h1, h2, h3⟩ := hr
    exact ⟨r', r, h2, h1, fun j => (h3 j).symm⟩
  exact ⟨one cfg cfg' h hr h', one cfg' cfg h' hr' h⟩

end DoMpc
