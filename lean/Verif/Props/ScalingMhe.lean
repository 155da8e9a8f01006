import Verif.Props.Scaling
import Verif.Lemmas.Mhe

/-! # Property C104 for the moving horizon estimator -/
set_option linter.unusedSectionVars false
namespace DoMpc
variable {K : Type} [Field K] [LinearOrder K] [IsStrictOrderedRing K] {d : Dims} {ne ns : Nat}

theorem other_mhe_fields {cfg cfg' : MheCfg K d ne ns} (h : OtherMheScaling cfg cfg') :
    ∃ sx su sz F, cfg' = { cfg with sx := sx, su := su, sz := sz, ifcn := F } := ⟨_, _, _, _, h.same⟩

/-- **C104** for estimators: every explanation can be written with every scaling. -/
theorem C104_same_explanation (cfg cfg' : MheCfg K d ne ns) (h : OtherMheScaling cfg cfg') (o : MheX K d ne) : ∃ o', SameExplanation cfg cfg' o o' :=
  ⟨⟨fun k i j => o.x k i j * cfg.sx j / cfg'.sx j, fun k i j => o.z k i j * cfg.sz j / cfg'.sz j, fun k j => o.u k j * cfg.su j / cfg'.su j, o.w, o.v, o.eps, o.pEst⟩,
    fun k i j => (div_mul_cancel₀ _ (h.positive'.1 j).ne').symm, fun k i j => (div_mul_cancel₀ _ (h.positive'.2.2 j).ne').symm,
    fun k j => (div_mul_cancel₀ _ (h.positive'.2.1 j).ne').symm, ⟨rfl, rfl⟩, rfl, rfl⟩

/-- a row list that holds exactly if the other does -/
def SameTruth : Except String (List (Row K)) → Except String (List (Row K)) → Prop
  | .ok a, .ok b => (∀ r ∈ a, r.Holds) ↔ ∀ r ∈ b, r.Holds
  | .error e, .error e' => e = e'
  | _, _ => False

theorem rows_scaled (cfg cfg' : MheCfg K d ne ns) (h : OtherMheScaling cfg cfg') (o o' : MheX K d ne) (ho : SameExplanation cfg cfg' o o') (q : MheP K d ne ns) :
    SameTruth (cfg.rows o q) (cfg'.rows o' q) := by
  have hmod : SameDiscretisation cfg.model cfg.pScaling cfg.sx cfg'.sx cfg.su cfg'.su cfg.sz cfg'.sz cfg.ifcn cfg'.ifcn := h.model
  obtain ⟨hn, hF⟩ := ifcn_scaled h.positive.1 h.positive'.1 hmod
  obtain ⟨px, pu, pz⟩ := h.positive
  obtain ⟨px', pu', pz'⟩ := h.positive'
  have ex : ∀ k i, o.x k i * cfg.sx = o'.x k i * cfg'.sx := fun k i => funext (ho.states k i)
  have eu : ∀ k, o.u k * cfg.su = o'.u k * cfg'.su := fun k => funext (ho.inputs k)
  have ez : ∀ k i, o.z k i * cfg.sz = o'.z k i * cfg'.sz := fun k i => funext (ho.algebraic k i)
  obtain ⟨hnw, hnv⟩ := ho.noise
  have hp := ho.parameters
  have hsl := ho.slacks
  obtain ⟨sx', su', sz', F', rfl⟩ := other_mhe_fields h
  have hl : cfg.xLast = F'.ncoll := hn
  have hpc : ∀ q, cfg.pCat o q = MheCfg.pCat { cfg with sx := sx', su := su', sz := sz', ifcn := F' } o' q := fun q => by
    unfold MheCfg.pCat
    rw [hp]
    rfl
  have hnl : ∀ k, cfg.nlRowsAt o q k = MheCfg.nlRowsAt { cfg with sx := sx', su := su', sz := sz', ifcn := F' } o' q k := by
    intro k
    unfold MheCfg.nlRowsAt MheCfg.nlAt MheCfg.xPhys MheCfg.uPhys MheCfg.zPhys
    simp only [ex, eu, ez, hsl, hn, hl, hpc]
    rfl
  have hdyn : ∀ k, (∀ r ∈ cfg.dynRows o q k, r.Holds) ↔ ∀ r ∈ MheCfg.dynRows { cfg with sx := sx', su := su', sz := sz', ifcn := F' } o' q k, r.Holds := by
    intro k
    simp only [MheCfg.dynRows, List.forall_mem_append, List.forall_mem_map, List.forall_mem_ofFn_iff, eq0_holds, ← hpc]
    obtain ⟨a, b⟩ := hF (o.x k cfg.xLast) (o'.x k cfg.xLast) (o.x (k + 1)) (o'.x (k + 1)) (o.u k) (o'.u k) (o.z k) (o'.z k) (q.tvp k) (cfg.pCat o q) (o.w k)
      (ex _ _) (fun i => ex _ i) (eu _) (fun i => ez _ i)
    rw [hl] at a b ⊢
    rw [← hnw]
    refine and_congr a ?_
    refine zero_iff_scaled (s := cfg.sx) (s' := sx') px px' ?_
    rw [sub_mul, sub_mul]
    exact congrArg₂ (· - ·) b (ex _ _)
  have hmeas : ∀ k, cfg.measRows o q k = MheCfg.measRows { cfg with sx := sx', su := su', sz := sz', ifcn := F' } o' q k := by
    intro k
    unfold MheCfg.measRows MheCfg.xPhys MheCfg.uPhys MheCfg.zPhys
    simp only [ex, eu, ez, hl, hpc, hnv]
    rfl
  unfold MheCfg.rows
  show SameTruth (List.foldl _ _ (List.range cfg.N)) (List.foldl _ _ (List.range cfg.N))
  generalize List.range cfg.N = l
  have key : ∀ A B : Except String (List (Row K)), SameTruth A B → SameTruth
      (List.foldl (fun acc k => match acc with
        | .error e => .error e
        | .ok rs => match cfg.nlRowsAt o q k with
          | .error e => .error e
          | .ok nl => .ok (rs ++ (cfg.dynRows o q k ++ cfg.measRows o q k ++ nl))) A l)
      (List.foldl (fun acc k => match acc with
        | .error e => .error e
        | .ok rs => match MheCfg.nlRowsAt { cfg with sx := sx', su := su', sz := sz', ifcn := F' } o' q k with
          | .error e => .error e
          | .ok nl => .ok (rs ++ (MheCfg.dynRows { cfg with sx := sx', su := su', sz := sz', ifcn := F' } o' q k ++
              MheCfg.measRows { cfg with sx := sx', su := su', sz := sz', ifcn := F' } o' q k ++ nl))) B l) := by
    induction l with
    | nil => exact fun A B h => h
    | cons k l ih =>
      intro A B hAB
      simp only [List.foldl_cons]
      refine ih _ _ ?_
      rcases A with e | a <;> rcases B with e' | b
      · exact hAB
      · exact hAB.elim
      · exact hAB.elim
      · dsimp only
        rw [← hnl k]
        cases cfg.nlRowsAt o q k with
        | error e => exact rfl
        | ok nl =>
          show (∀ r ∈ a ++ _, r.Holds) ↔ ∀ r ∈ b ++ _, r.Holds
          simp only [List.forall_mem_append, ← hmeas]
          have hAB : (∀ r ∈ a, r.Holds) ↔ ∀ r ∈ b, r.Holds := hAB
          rw [hAB, hdyn k]
  exact key (.ok []) (.ok []) Iff.rfl

/-- **C104** for estimators: the scaling does not change which explanations of the measurements are feasible. -/
theorem C104_mhe_feasible (cfg cfg' : MheCfg K d ne ns) (h : OtherMheScaling cfg cfg') (o o' : MheX K d ne) (ho : SameExplanation cfg cfg' o o') (q : MheP K d ne ns) :
    cfg.Feasible o q ↔ cfg'.Feasible o' q := by
  have hrows := rows_scaled cfg cfg' h o o' ho q
  have hmod : SameDiscretisation cfg.model cfg.pScaling cfg.sx cfg'.sx cfg.su cfg'.su cfg.sz cfg'.sz cfg.ifcn cfg'.ifcn := h.model
  obtain ⟨hn, -⟩ := ifcn_scaled h.positive.1 h.positive'.1 hmod
  obtain ⟨px, pu, pz⟩ := h.positive
  obtain ⟨px', pu', pz'⟩ := h.positive'
  have hb : cfg.InBounds o ↔ cfg'.InBounds o' := by
    obtain ⟨sx', su', sz', F', rfl⟩ := other_mhe_fields h
    have hl : cfg.xLast = F'.ncoll := hn
    have hl' : cfg.zLast = max F'.ncoll 1 - 1 := by rw [← hn]; rfl
    unfold MheCfg.InBounds
    refine and_congr ?_ (and_congr ?_ (and_congr ?_ (and_congr ?_ ?_)))
    · rw [hl]
      refine forall₂_congr fun k _ => forall₂_congr fun i _ => forall_congr' fun j => ?_
      have e := ho.states k i j
      have hle : ∀ b : Bound K, (b.divBy (cfg.sx j)).le (o.x k i j) ↔ (b.divBy (sx' j)).le (o'.x k i j) := fun b => scaled_le (px j) (px' j) e
      have hge : ∀ b : Bound K, (b.divBy (cfg.sx j)).ge (o.x k i j) ↔ (b.divBy (sx' j)).ge (o'.x k i j) := fun b => scaled_ge (px j) (px' j) e
      have hxl : MheCfg.xLast { cfg with sx := sx', su := su', sz := sz', ifcn := F' } = F'.ncoll := rfl
      simp only [MheCfg.lbx, MheCfg.ubx, MheCfg.updateBounds, hl, hxl]
      cases cfg.consColloc <;> simp only [Bool.false_eq_true, if_false, if_true] <;> refine and_congr ?_ ?_ <;> (try split_ifs) <;> first | exact hle _ | exact hge _ | exact Iff.rfl
    · rw [hl']
      refine forall₂_congr fun k _ => forall₂_congr fun i _ => forall_congr' fun j => ?_
      have e := ho.algebraic k i j
      have hle : ∀ b : Bound K, (b.divBy (cfg.sz j)).le (o.z k i j) ↔ (b.divBy (sz' j)).le (o'.z k i j) := fun b => scaled_le (pz j) (pz' j) e
      have hge : ∀ b : Bound K, (b.divBy (cfg.sz j)).ge (o.z k i j) ↔ (b.divBy (sz' j)).ge (o'.z k i j) := fun b => scaled_ge (pz j) (pz' j) e
      simp only [MheCfg.lbx, MheCfg.ubx, MheCfg.updateBounds]
      cases cfg.consColloc <;> simp only [Bool.false_eq_true, if_false, if_true] <;> refine and_congr ?_ ?_ <;> (try split_ifs) <;> first | exact hle _ | exact hge _ | exact Iff.rfl
    · refine forall₂_congr fun k _ => forall_congr' fun j => ?_
      have e := ho.inputs k j
      exact and_congr (scaled_le (pu j) (pu' j) e) (scaled_ge (pu j) (pu' j) e)
    · rw [ho.slacks]
      exact Iff.rfl
    · rw [ho.parameters]
      exact Iff.rfl
  unfold MheCfg.Feasible
  rcases e1 : cfg.rows o q with e | a <;> rcases e2 : cfg'.rows o' q with e' | b <;> rw [e1, e2] at hrows
  · simp
  · exact hrows.elim
  · exact hrows.elim
  · have hrows : (∀ r ∈ a, r.Holds) ↔ ∀ r ∈ b, r.Holds := hrows
    simp only [Except.ok.injEq, exists_eq_left', hrows, hb]

/-- **C104** for estimators: the scaling does not change the cost. -/
theorem C104_mhe_cost (cfg cfg' : MheCfg K d ne ns) (h : OtherMheScaling cfg cfg') (o o' : MheX K d ne) (ho : SameExplanation cfg cfg' o o') (q : MheP K d ne ns) :
    cfg.obj o q = cfg'.obj o' q := by
  have hmod : SameDiscretisation cfg.model cfg.pScaling cfg.sx cfg'.sx cfg.su cfg'.su cfg.sz cfg'.sz cfg.ifcn cfg'.ifcn := h.model
  obtain ⟨hn, -⟩ := ifcn_scaled h.positive.1 h.positive'.1 hmod
  have ex : ∀ k i, o.x k i * cfg.sx = o'.x k i * cfg'.sx := fun k i => funext (ho.states k i)
  obtain ⟨hw, hv⟩ := ho.noise
  have hp := ho.parameters
  have hsl := ho.slacks
  obtain ⟨sx', su', sz', F', rfl⟩ := other_mhe_fields h
  have hl : cfg.xLast = F'.ncoll := hn
  unfold MheCfg.obj MheCfg.xPhys MheCfg.pEstPhys MheCfg.pCat
  rw [hw, hv, hp, hsl, ex, hl]
  rfl

/-- **C104** for estimators: the scaling of states, inputs and algebraic states does not change which estimates `make_step` may return.  (Scaling an estimated
parameter does: `C72_fails_scaled_parameters`.) -/
theorem C104_estimates (cfg cfg' : MheCfg K d ne ns) (h : OtherMheScaling cfg cfg') (q : MheP K d ne ns) (x : Vec K d.nx) :
    BestEstimate cfg q x ↔ BestEstimate cfg' q x := by
  have one : ∀ cfg cfg' : MheCfg K d ne ns, OtherMheScaling cfg cfg' → OtherMheScaling cfg' cfg → BestEstimate cfg q x → BestEstimate cfg' q x := by
    rintro cfg cfg' h h' ⟨o, ⟨hf, hm⟩, hx⟩
    obtain ⟨o', ho⟩ := C104_same_explanation cfg cfg' h o
    have hmod : SameDiscretisation cfg.model cfg.pScaling cfg.sx cfg'.sx cfg.su cfg'.su cfg.sz cfg'.sz cfg.ifcn cfg'.ifcn := h.model
    have hn : cfg.xLast = cfg'.xLast := (ifcn_scaled h.positive.1 h.positive'.1 hmod).1
    have hN : cfg'.N = cfg.N := by obtain ⟨_, _, _, _, rfl⟩ := other_mhe_fields h; rfl
    refine ⟨o', ⟨(C104_mhe_feasible cfg cfg' h o o' ho q).1 hf, fun v' hv' => ?_⟩, fun j => by rw [hx j, ho.states, hn, hN]⟩
    obtain ⟨v, hv⟩ := C104_same_explanation cfg' cfg h' v'
    have hv2 : SameExplanation cfg cfg' v v' := ⟨fun k i j => (hv.states k i j).symm, fun k i j => (hv.algebraic k i j).symm, fun k j => (hv.inputs k j).symm,
      ⟨hv.noise.1.symm, hv.noise.2.symm⟩, hv.slacks.symm, hv.parameters.symm⟩
    rw [← C104_mhe_cost cfg cfg' h o o' ho, ← C104_mhe_cost cfg cfg' h v v' hv2]
    exact hm v ((C104_mhe_feasible cfg cfg' h v v' hv2 q).2 hv')
  have h' : OtherMheScaling cfg' cfg := by
    have e1 : cfg'.model = cfg.model := by obtain ⟨_, _, _, _, rfl⟩ := other_mhe_fields h; rfl
    have e2 : cfg'.pScaling = cfg.pScaling := by obtain ⟨_, _, _, _, rfl⟩ := other_mhe_fields h; rfl
    refine ⟨by rw [h.same], h.positive', h.positive, ?_⟩
    rw [e1, e2]
    exact h.model.imp And.symm fun ⟨a, b, c, e, h1, h2⟩ => ⟨a, b, c, e, h2, h1⟩
  exact ⟨one cfg cfg' h h', one cfg' cfg h' h⟩

end DoMpc
