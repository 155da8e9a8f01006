import Verif.Props.FlatMpc
import Verif.Spec.FlatMhe

set_option linter.unusedSectionVars false
set_option linter.unusedSimpArgs false

/-!
# C100: the flat problem that the moving horizon estimator hands to the solver is the structured problem
-/
namespace DoMpc
open FlatSpec Spec
variable {K : Type} [Field K] [LinearOrder K] [IsStrictOrderedRing K] {d : Dims} {ne ns : Nat}

/-! ### repeat indices -/

theorem all0 (Q : List Nat → Prop) : (∀ i, List.Forall₂ (fun a n => a < n) i [] → Q i) ↔ Q [] :=
  ⟨fun h => h _ .nil, fun h i hi => by rw [List.forall₂_nil_right_iff] at hi; subst hi; exact h⟩

theorem all1 (Q : List Nat → Prop) (a : Nat) : (∀ i, List.Forall₂ (fun a n => a < n) i [a] → Q i) ↔ ∀ k < a, Q [k] := by
  constructor
  · intro h k hk
    exact h _ (.cons hk .nil)
  · intro h i hi
    obtain ⟨x, _, hx, h1, rfl⟩ := List.forall₂_cons_right_iff.1 hi
    rw [List.forall₂_nil_right_iff] at h1
    subst h1
    exact h _ hx

theorem all2 (Q : List Nat → Prop) (a b : Nat) : (∀ i, List.Forall₂ (fun a n => a < n) i [a, b] → Q i) ↔ ∀ k < a, ∀ s < b, Q [k, s] := by
  constructor
  · intro h k hk s hs
    exact h _ (.cons hk (.cons hs .nil))
  · intro h i hi
    obtain ⟨x, _, hx, h1, rfl⟩ := List.forall₂_cons_right_iff.1 hi
    obtain ⟨y, _, hy, h2, rfl⟩ := List.forall₂_cons_right_iff.1 h1
    rw [List.forall₂_nil_right_iff] at h2
    subst h2
    exact h _ hx _ hy

section Structures
variable (cfg : MheCfg K d ne ns) (V : MheNames)

theorem mheX_distinct : Distinct (cfg.optX V) := by
  show (["_x", "_z", "_u", "_w", "_v", "_eps", "_p_est"] : List String).Nodup
  decide

theorem mheP_distinct : Distinct (cfg.optP V) := by
  show (["_x_prev", "_p_est_prev", "_p_set", "_tvp", "_y_meas"] : List String).Nodup
  decide

/-- a statement about all blocks of `opt_x` -/
theorem mheX_all (Q : SEntry → List Nat → Prop) : (∀ e ∈ cfg.optX V, ∀ i, List.Forall₂ (fun a n => a < n) i e.rep → Q e i) ↔
    (∀ k < cfg.N + 1, ∀ i < 1 + cfg.ifcn.ncoll, Q ⟨"_x", [cfg.N + 1, 1 + cfg.ifcn.ncoll], V.x⟩ [k, i]) ∧
    (∀ k < cfg.N, ∀ i < max cfg.ifcn.ncoll 1, Q ⟨"_z", [cfg.N, max cfg.ifcn.ncoll 1], V.z⟩ [k, i]) ∧
    (∀ k < cfg.N, Q ⟨"_u", [cfg.N], V.u⟩ [k]) ∧ (∀ k < cfg.N, Q ⟨"_w", [cfg.N], V.w⟩ [k]) ∧ (∀ k < cfg.N, Q ⟨"_v", [cfg.N], V.v⟩ [k]) ∧
    (∀ k < cfg.nEps, Q ⟨"_eps", [cfg.nEps], epsLayout cfg.nl⟩ [k]) ∧ Q ⟨"_p_est", [], V.pEst⟩ [] := by
  simp only [MheCfg.optX, List.forall_mem_cons, List.not_mem_nil, false_imp_iff, implies_true, and_true]
  rw [all2, all2, all1, all1, all1, all1, all0]

/-- a statement about all blocks of `opt_p` -/
theorem mheP_all (Q : SEntry → List Nat → Prop) : (∀ e ∈ cfg.optP V, ∀ i, List.Forall₂ (fun a n => a < n) i e.rep → Q e i) ↔
    Q ⟨"_x_prev", [], V.x⟩ [] ∧ Q ⟨"_p_est_prev", [], V.pEst⟩ [] ∧ Q ⟨"_p_set", [], V.pSet⟩ [] ∧
    (∀ k < cfg.N, Q ⟨"_tvp", [cfg.N], V.tvp⟩ [k]) ∧ ∀ k < cfg.N, Q ⟨"_y_meas", [cfg.N], V.y⟩ [k] := by
  simp only [MheCfg.optP, List.forall_mem_cons, List.not_mem_nil, false_imp_iff, implies_true, and_true]
  rw [all0, all0, all0, all1, all1]

theorem mheX_fits (hV : OkMhe V d ne ns) (o : MheX K d ne) : Fits (cfg.optX V) (o.block cfg.nl) :=
  (mheX_all cfg V fun e i => (o.block cfg.nl e.name i).length = e.sub.size).2
    ⟨fun _ _ _ _ => List.length_ofFn.trans hV.x.symm, fun _ _ _ _ => List.length_ofFn.trans hV.z.symm, fun _ _ => List.length_ofFn.trans hV.u.symm,
      fun _ _ => List.length_ofFn.trans hV.w.symm, fun _ _ => List.length_ofFn.trans hV.v.symm, fun _ _ => layout_flat_length _ _, List.length_ofFn.trans hV.pEst.symm⟩

theorem mheB_fits (hV : OkMhe V d ne ns) (B : MheBounds K d ne) (b : Bound K) : Fits (cfg.optX V) (B.block b cfg.nl) :=
  (mheX_all cfg V fun e i => (B.block b cfg.nl e.name i).length = e.sub.size).2
    ⟨fun _ _ _ _ => List.length_ofFn.trans hV.x.symm, fun _ _ _ _ => List.length_ofFn.trans hV.z.symm, fun _ _ => List.length_ofFn.trans hV.u.symm,
      fun _ _ => List.length_ofFn.trans hV.w.symm, fun _ _ => List.length_ofFn.trans hV.v.symm, fun _ _ => layout_flat_length _ _, List.length_ofFn.trans hV.pEst.symm⟩

theorem mheP_fits (hV : OkMhe V d ne ns) (q : MheP K d ne ns) : Fits (cfg.optP V) q.block :=
  (mheP_all cfg V fun e i => (q.block e.name i).length = e.sub.size).2
    ⟨List.length_ofFn.trans hV.x.symm, List.length_ofFn.trans hV.pEst.symm, List.length_ofFn.trans hV.pSet.symm, fun _ _ => List.length_ofFn.trans hV.tvp.symm,
      fun _ _ => List.length_ofFn.trans hV.y.symm⟩

/-- the selected block of non-negative indices -/
theorem selected_nat (S : SStruct) (hd : Distinct S) (e : SEntry) (he : e ∈ S) (i : List Nat) (hi : List.Forall₂ (fun a n => a < n) i e.rep) :
    Exists S e.name (i.map Int.ofNat) ∧ selected S e.name (i.map Int.ofNat) = i := by
  have hr : ∀ (i : List Nat) (ns : List Nat), List.Forall₂ (fun a n => a < n) i ns → List.Forall₂ InRange ns (i.map Int.ofNat) ∧
      List.zipWith counted ns (i.map Int.ofNat) = i := by
    intro i ns h
    induction h with
    | nil => exact ⟨.nil, rfl⟩
    | cons h1 _ ih => exact ⟨.cons (inRange_nat h1) ih.1, by rw [List.map_cons, List.zipWith_cons_cons, ih.2]; exact congrArg (· :: _) (counted_nat _ _)⟩
  refine ⟨⟨e, he, rfl, (hr _ _ hi).1⟩, ?_⟩
  have hfind : S.find? (·.name = e.name) = some e := by
    rcases hf : S.find? (·.name = e.name) with _ | a
    · rw [List.find?_eq_none] at hf
      exact absurd (rfl : e.name = e.name) (by simpa using hf e he)
    · rw [hf, List.inj_on_of_nodup_map hd (List.mem_of_find?_eq_some hf) he (by simpa using List.find?_some hf)]
  unfold selected
  rw [hfind]
  exact (hr _ _ hi).2

/-- reading the flat vector of blocks gives the blocks -/
theorem read_nat (S : SStruct) (v : String → List Nat → List K) (hv : Fits S v) (hd : Distinct S) (e : SEntry) (he : e ∈ S) (i : List Nat)
    (hi : List.Forall₂ (fun a n => a < n) i e.rep) : S.read (fun p => (S.cat v).getD p 0) e.name (i.map Int.ofNat) = v e.name i := by
  obtain ⟨h1, h2⟩ := selected_nat S hd e he i hi
  rw [read_cat S v hv hd _ _ h1, h2]

theorem mheEps_names (hn : (cfg.nl.map (·.name)).Nodup) : ((epsLayout cfg.nl).map (·.1)).Nodup := by
  unfold epsLayout slackVars
  rw [List.map_map]
  exact hn.sublist (List.Sublist.map _ List.filter_sublist)

theorem mheEps_mem (sl : NlCall K d) (hsl : sl ∈ cfg.nl) (hs : sl.soft = true) : (sl.name, sl.dim) ∈ epsLayout cfg.nl :=
  List.mem_map.2 ⟨sl, (slackVars_mem _ _).2 ⟨hsl, hs⟩, rfl⟩

/-- **C100**: the flat vector of a point, read with power indices, gives back every variable of the point. -/
theorem C100_opt_x_round_trip (hV : OkMhe V d ne ns) (hn : (cfg.nl.map (·.name)).Nodup) (o : MheX K d ne) :
    SameMheX cfg (cfg.ofX V fun p => (cfg.catX V o).getD p 0) o := by
  have hr := (mheX_all cfg V fun e i => (cfg.optX V).read (fun p => (cfg.catX V o).getD p 0) e.name (i.map Int.ofNat) = o.block cfg.nl e.name i).1
    fun e he i hi => read_nat _ _ (mheX_fits cfg V hV o) (mheX_distinct cfg V) e he i hi
  obtain ⟨r1, r2, r3, r4, r5, r6, r7⟩ := hr
  refine ⟨fun k hk i hi => ?_, fun k hk i hi => ?_, fun k hk => ?_, fun k hk => ?_, fun k hk => ?_, fun k hk sl hsl hso i hi => ?_, ?_⟩
  · exact Eq.trans (congrArg vecOf (r1 k (by omega) i (by omega))) (vecOf_ofFn _)
  · exact Eq.trans (congrArg vecOf (r2 k hk i hi)) (vecOf_ofFn _)
  · exact Eq.trans (congrArg vecOf (r3 k hk)) (vecOf_ofFn _)
  · exact Eq.trans (congrArg vecOf (r4 k hk)) (vecOf_ofFn _)
  · exact Eq.trans (congrArg vecOf (r5 k hk)) (vecOf_ofFn _)
  · show ((epsLayout cfg.nl).entry ((cfg.optX V).read (fun p => (cfg.catX V o).getD p 0) "_eps" [k]) sl.name).getD i 0 = _
    rw [show (cfg.optX V).read (fun p => (cfg.catX V o).getD p 0) "_eps" [(k : Int)] = (epsLayout cfg.nl).flat (o.eps k) from r6 k hk,
      entry_flat _ _ (mheEps_names cfg hn) _ (mheEps_mem cfg sl hsl hso)]
    exact getD_map_range _ _ _ hi _
  · exact Eq.trans (congrArg vecOf r7) (vecOf_ofFn _)

/-- **C100**: so does the flat vector of the parameters. -/
theorem C100_opt_p_round_trip (hV : OkMhe V d ne ns) (q : MheP K d ne ns) : SameMheP cfg (cfg.ofP V fun p => (cfg.catP V q).getD p 0) q := by
  have hr := (mheP_all cfg V fun e i => (cfg.optP V).read (fun p => (cfg.catP V q).getD p 0) e.name (i.map Int.ofNat) = q.block e.name i).1
    fun e he i hi => read_nat _ _ (mheP_fits cfg V hV q) (mheP_distinct cfg V) e he i hi
  obtain ⟨r1, r2, r3, r4, r5⟩ := hr
  exact ⟨Eq.trans (congrArg vecOf r1) (vecOf_ofFn _), Eq.trans (congrArg vecOf r2) (vecOf_ofFn _), Eq.trans (congrArg vecOf r3) (vecOf_ofFn _),
    fun k hk => Eq.trans (congrArg vecOf (r4 k hk)) (vecOf_ofFn _), fun k hk => Eq.trans (congrArg vecOf (r5 k hk)) (vecOf_ofFn _)⟩

/-- **C100**: the structure read from a flat vector has this flat vector: nothing of the solver's result is lost. -/
theorem C100_opt_x_vector (hV : OkMhe V d ne ns) (hn : (cfg.nl.map (·.name)).Nodup) (v : Nat → K) :
    cfg.catX V (cfg.ofX V v) = (List.range (cfg.optX V).size).map v := by
  refine cat_ext _ (mheX_distinct cfg V) _ (mheX_fits cfg V hV _) v ?_
  have hl := fun e (he : e ∈ cfg.optX V) i ps hps => f_length _ (mheX_distinct cfg V) e he i ps hps
  have hk := (mheX_all cfg V fun e i => e ∈ cfg.optX V).1 fun e he _ _ => he
  obtain ⟨m1, m2, m3, m4, m5, m6, m7⟩ := hk
  refine (mheX_all cfg V fun e i => ∀ ps, (cfg.optX V).f e.name (i.map Int.ofNat) = some ps → (cfg.ofX V v).block cfg.nl e.name i = ps.map v).2
    ⟨fun k hk i hi ps h => ?_, fun k hk i hi ps h => ?_, fun k hk ps h => ?_, fun k hk ps h => ?_, fun k hk ps h => ?_, fun k hk ps h => ?_, fun ps h => ?_⟩
  · have := hl _ (m1 k hk i hi) _ ps h
    show List.ofFn (vecOf ((cfg.optX V).read v "_x" ([k, i].map Int.ofNat))) = _
    rw [read_f _ v _ _ ps h]
    exact ofFn_vecOf _ (by rw [List.length_map, this, hV.x])
  · have := hl _ (m2 k hk i hi) _ ps h
    show List.ofFn (vecOf ((cfg.optX V).read v "_z" ([k, i].map Int.ofNat))) = _
    rw [read_f _ v _ _ ps h]
    exact ofFn_vecOf _ (by rw [List.length_map, this, hV.z])
  · have := hl _ (m3 k hk) _ ps h
    show List.ofFn (vecOf ((cfg.optX V).read v "_u" ([k].map Int.ofNat))) = _
    rw [read_f _ v _ _ ps h]
    exact ofFn_vecOf _ (by rw [List.length_map, this, hV.u])
  · have := hl _ (m4 k hk) _ ps h
    show List.ofFn (vecOf ((cfg.optX V).read v "_w" ([k].map Int.ofNat))) = _
    rw [read_f _ v _ _ ps h]
    exact ofFn_vecOf _ (by rw [List.length_map, this, hV.w])
  · have := hl _ (m5 k hk) _ ps h
    show List.ofFn (vecOf ((cfg.optX V).read v "_v" ([k].map Int.ofNat))) = _
    rw [read_f _ v _ _ ps h]
    exact ofFn_vecOf _ (by rw [List.length_map, this, hV.v])
  · have := hl _ (m6 k hk) _ ps h
    show (epsLayout cfg.nl).flat (fun n i => ((epsLayout cfg.nl).entry ((cfg.optX V).read v "_eps" ([k].map Int.ofNat)) n).getD i 0) = _
    rw [read_f _ v _ _ ps h]
    exact flat_of_entry _ (mheEps_names cfg hn) _ (by rw [List.length_map, this])
  · have := hl _ m7 _ ps h
    show List.ofFn (vecOf ((cfg.optX V).read v "_p_est" ([].map Int.ofNat))) = _
    rw [read_f _ v _ _ ps h]
    exact ofFn_vecOf _ (by rw [List.length_map, this, hV.pEst])

/-- **C100**: the same for the parameters. -/
theorem C100_opt_p_vector (hV : OkMhe V d ne ns) (v : Nat → K) : cfg.catP V (cfg.ofP V v) = (List.range (cfg.optP V).size).map v := by
  refine cat_ext _ (mheP_distinct cfg V) _ (mheP_fits cfg V hV _) v ?_
  have hl := fun e (he : e ∈ cfg.optP V) i ps hps => f_length _ (mheP_distinct cfg V) e he i ps hps
  have hk := (mheP_all cfg V fun e i => e ∈ cfg.optP V).1 fun e he _ _ => he
  obtain ⟨m1, m2, m3, m4, m5⟩ := hk
  refine (mheP_all cfg V fun e i => ∀ ps, (cfg.optP V).f e.name (i.map Int.ofNat) = some ps → (cfg.ofP V v).block e.name i = ps.map v).2
    ⟨fun ps h => ?_, fun ps h => ?_, fun ps h => ?_, fun k hk ps h => ?_, fun k hk ps h => ?_⟩
  · have := hl _ m1 _ ps h
    show List.ofFn (vecOf ((cfg.optP V).read v "_x_prev" ([].map Int.ofNat))) = _
    rw [read_f _ v _ _ ps h]
    exact ofFn_vecOf _ (by rw [List.length_map, this, hV.x])
  · have := hl _ m2 _ ps h
    show List.ofFn (vecOf ((cfg.optP V).read v "_p_est_prev" ([].map Int.ofNat))) = _
    rw [read_f _ v _ _ ps h]
    exact ofFn_vecOf _ (by rw [List.length_map, this, hV.pEst])
  · have := hl _ m3 _ ps h
    show List.ofFn (vecOf ((cfg.optP V).read v "_p_set" ([].map Int.ofNat))) = _
    rw [read_f _ v _ _ ps h]
    exact ofFn_vecOf _ (by rw [List.length_map, this, hV.pSet])
  · have := hl _ (m4 k hk) _ ps h
    show List.ofFn (vecOf ((cfg.optP V).read v "_tvp" ([k].map Int.ofNat))) = _
    rw [read_f _ v _ _ ps h]
    exact ofFn_vecOf _ (by rw [List.length_map, this, hV.tvp])
  · have := hl _ (m5 k hk) _ ps h
    show List.ofFn (vecOf ((cfg.optP V).read v "_y_meas" ([k].map Int.ofNat))) = _
    rw [read_f _ v _ _ ps h]
    exact ofFn_vecOf _ (by rw [List.length_map, this, hV.y])

/-- **C100**: the number of variables that the solver gets. -/
theorem C100_size (hV : OkMhe V d ne ns) : (cfg.optX V).size = (cfg.N + 1) * (1 + cfg.ifcn.ncoll) * d.nx + cfg.N * max cfg.ifcn.ncoll 1 * d.nz +
    cfg.N * d.nu + cfg.N * d.nw + cfg.N * d.nv + cfg.nEps * ((cfg.nl.filter (·.soft)).map (·.dim)).sum + ne := by
  have he : (epsLayout cfg.nl).size = ((cfg.nl.filter (·.soft)).map (·.dim)).sum := by
    unfold epsLayout Layout.size slackVars
    rw [List.map_map]; rfl
  simp only [SStruct.size, MheCfg.optX, List.map_cons, List.map_nil, List.sum_cons, List.sum_nil, SEntry.size, List.prod_cons, List.prod_nil, he, hV.x, hV.z, hV.u,
    hV.w, hV.v, hV.pEst]
  ring

end Structures

/-! ### The problem depends only on the entries -/

section Same
variable (cfg : MheCfg K d ne ns) (hn : (cfg.nl.map (·.name)).Nodup) (o o' : MheX K d ne) (q q' : MheP K d ne ns) (ho : SameMheX cfg o o')
  (hq : SameMheP cfg q q')
include hn ho hq

/-- **C100**: the constraints depend only on the variables of `opt_x` and the parameters of `opt_p`. -/
theorem C100_rows_congr (hI : OwnPoints cfg.ifcn) : cfg.rows o q = cfg.rows o' q' := by
  unfold MheCfg.rows
  refine List.foldl_ext _ _ _ fun acc k hk => ?_
  have hk' := List.mem_range.1 hk
  have hp : cfg.pCat o q = cfg.pCat o' q' := by
    unfold MheCfg.pCat
    rw [ho.pEst, hq.pSet]
  have hx : o.x k cfg.xLast = o'.x k cfg.xLast := ho.x k (by omega) _ le_rfl
  have hx1 : o.x (k + 1) cfg.xLast = o'.x (k + 1) cfg.xLast := ho.x (k + 1) (by omega) _ le_rfl
  have hs := hI (o'.x k cfg.xLast) (o.x (k + 1)) (o'.x (k + 1)) (o'.u k) (o.z k) (o'.z k) (q'.tvp k) (cfg.pCat o' q') (o'.w k)
    (fun i hi => ho.x (k + 1) (by omega) i (by omega)) (fun i hi => ho.z k hk' i hi)
  have h1 : cfg.dynRows o q k = cfg.dynRows o' q' k := by
    unfold MheCfg.dynRows
    dsimp only
    rw [hx, hx1, ho.u k hk', ho.w k hk', hq.tvp k hk', hp, hs.1, hs.2]
  have hz0 : o.z k 0 = o'.z k 0 := ho.z k hk' 0 (lt_of_lt_of_le one_pos (le_max_right _ _))
  have h2 : cfg.measRows o q k = cfg.measRows o' q' k := by
    unfold MheCfg.measRows MheCfg.xPhys MheCfg.uPhys MheCfg.zPhys
    rw [hx1, ho.u k hk', hz0, ho.v k hk', hq.tvp k hk', hq.yMeas k hk', hp]
  have he : cfg.kEps k < cfg.nEps := by
    unfold MheCfg.kEps MheCfg.nEps
    split_ifs <;> omega
  have hnl : ∀ i iz, i ≤ cfg.ifcn.ncoll → iz < max cfg.ifcn.ncoll 1 → cfg.nlAt o q k i iz = cfg.nlAt o' q' k i iz := by
    intro i iz hi hiz
    unfold MheCfg.nlAt MheCfg.xPhys MheCfg.uPhys MheCfg.zPhys
    rw [ho.x k (by omega) i hi, ho.u k hk', ho.z k hk' iz hiz, hq.tvp k hk', hp]
    exact nlRows_congr cfg.nl hn _ _ _ _ _ _ _ (ho.eps _ he)
  have h3 : cfg.nlRowsAt o q k = cfg.nlRowsAt o' q' k := by
    unfold MheCfg.nlRowsAt
    split_ifs with h h'
    · rfl
    · rw [hnl (cfg.ifcn.ncoll - 1) (cfg.ifcn.ncoll - 1) (by omega) (by omega), List.flatMap_congr fun i hi => hnl i i (by have := List.mem_range.1 hi; omega)
        (by have := List.mem_range.1 hi; omega)]
    · rw [hnl cfg.xLast 0 le_rfl (by omega)]
  rw [h1, h2, h3]

/-- **C100**: so does the objective. -/
theorem C100_obj_congr : cfg.obj o q = cfg.obj o' q' := by
  unfold MheCfg.obj
  have hp : cfg.pCat o q = cfg.pCat o' q' := by
    unfold MheCfg.pCat
    rw [ho.pEst, hq.pSet]
  have ha : cfg.arrival (cfg.xPhys o 0 cfg.xLast) q.xPrev (cfg.pEstPhys o) q.pEstPrev q.pSet =
      cfg.arrival (cfg.xPhys o' 0 cfg.xLast) q'.xPrev (cfg.pEstPhys o') q'.pEstPrev q'.pSet := by
    unfold MheCfg.xPhys MheCfg.pEstPhys
    rw [ho.x 0 (Nat.zero_le _) cfg.xLast le_rfl, ho.pEst, hq.xPrev, hq.pEstPrev, hq.pSet]
  rw [ha]
  refine List.foldl_ext _ _ _ fun acc k hk => ?_
  have hk' := List.mem_range.1 hk
  have he : cfg.kEps k < cfg.nEps := by
    unfold MheCfg.kEps MheCfg.nEps
    split_ifs <;> omega
  rw [ho.w k hk', ho.v k hk', hq.tvp k hk', hp, epsTerm_congr _ _ _ (ho.eps _ he)]

end Same

/-! ### The flat problem -/

section FlatProblem
variable (cfg : MheCfg K d ne ns) (V : MheNames)

theorem SameMheX.rfl (o : MheX K d ne) : SameMheX cfg o o :=
  ⟨fun _ _ _ _ => Eq.refl _, fun _ _ _ _ => Eq.refl _, fun _ _ => Eq.refl _, fun _ _ => Eq.refl _, fun _ _ => Eq.refl _, fun _ _ _ _ _ _ _ => Eq.refl _, Eq.refl _⟩

theorem SameMheX.symm {o o' : MheX K d ne} (h : SameMheX cfg o o') : SameMheX cfg o' o :=
  ⟨fun k hk i hi => (h.x k hk i hi).symm, fun k hk i hi => (h.z k hk i hi).symm, fun k hk => (h.u k hk).symm, fun k hk => (h.w k hk).symm,
    fun k hk => (h.v k hk).symm, fun k hk sl h1 h2 i hi => (h.eps k hk sl h1 h2 i hi).symm, h.pEst.symm⟩

/-- the bounds of one side, flat and structured -/
theorem mhe_side (hV : OkMhe V d ne ns) (hn : (cfg.nl.map (·.name)).Nodup) (P : Bound K → K → Prop) (B : MheBounds K d ne) (b : Bound K) (hb : ∀ a, P b a) (v : Nat → K) :
    List.Forall₂ P ((cfg.optX V).cat (B.block b cfg.nl)) ((List.range (cfg.optX V).size).map v) ↔
      (∀ k ≤ cfg.N, ∀ i ≤ cfg.xLast, ∀ j, P (B.x k i j) ((cfg.ofX V v).x k i j)) ∧ (∀ k < cfg.N, ∀ i ≤ cfg.zLast, ∀ j, P (B.z k i j) ((cfg.ofX V v).z k i j)) ∧
      (∀ k < cfg.N, ∀ j, P (B.u k j) ((cfg.ofX V v).u k j)) ∧
      (∀ k < cfg.nEps, ∀ sl ∈ slackVars cfg.nl, ∀ i < sl.dim, P (B.eps k sl.name i) ((cfg.ofX V v).eps k sl.name i)) ∧ ∀ j, P (B.pEst j) ((cfg.ofX V v).pEst j) := by
  rw [← C100_opt_x_vector cfg V hV hn v]
  unfold MheCfg.catX SStruct.cat
  have hf1 := mheB_fits cfg V hV B b
  have hf2 := mheX_fits cfg V hV (cfg.ofX V v)
  have hlen : ∀ e ∈ cfg.optX V, ∀ i ∈ multi e.rep, (B.block b cfg.nl e.name i).length = ((cfg.ofX V v).block cfg.nl e.name i).length := fun e he i hi =>
    (hf1 e he i ((mem_multi _ _).1 hi)).trans (hf2 e he i ((mem_multi _ _).1 hi)).symm
  rw [forall₂_flatMap_iff P _ _ _ fun e he => by
    rw [List.length_flatMap, List.length_flatMap]
    exact congrArg List.sum (List.map_congr_left fun i hi => hlen e he i hi)]
  rw [show (∀ e ∈ cfg.optX V, List.Forall₂ P ((multi e.rep).flatMap fun i => B.block b cfg.nl e.name i) ((multi e.rep).flatMap fun i => (cfg.ofX V v).block cfg.nl e.name i)) ↔
    ∀ e ∈ cfg.optX V, ∀ i, List.Forall₂ (fun a n => a < n) i e.rep → List.Forall₂ P (B.block b cfg.nl e.name i) ((cfg.ofX V v).block cfg.nl e.name i) from
    forall₂_congr fun e he => by
      rw [forall₂_flatMap_iff P _ _ _ (hlen e he)]
      exact forall_congr' fun i => by rw [mem_multi]]
  rw [mheX_all cfg V fun e i => List.Forall₂ P (B.block b cfg.nl e.name i) ((cfg.ofX V v).block cfg.nl e.name i)]
  have hz : ∀ i, i < max cfg.ifcn.ncoll 1 ↔ i ≤ cfg.zLast := fun i => by unfold MheCfg.zLast; omega
  have heps : ∀ k, List.Forall₂ P ((epsLayout cfg.nl).flat (B.eps k)) ((epsLayout cfg.nl).flat ((cfg.ofX V v).eps k)) ↔
      ∀ sl ∈ slackVars cfg.nl, ∀ i < sl.dim, P (B.eps k sl.name i) ((cfg.ofX V v).eps k sl.name i) := by
    intro k
    unfold Layout.flat
    rw [forall₂_flatMap_iff P _ _ _ fun e _ => by simp]
    constructor
    · intro h sl hsl
      exact (forall₂_map_range P _ _ _).1 (h _ (List.mem_map.2 ⟨sl, hsl, rfl⟩))
    · intro h e he
      obtain ⟨sl, hsl, rfl⟩ := List.mem_map.1 he
      exact (forall₂_map_range P _ _ _).2 (h sl hsl)
  constructor
  · rintro ⟨a1, a2, a3, -, -, a6, a7⟩
    exact ⟨fun k hk i hi => (forall₂_ofFn_iff P _ _).1 (a1 k (by omega) i (by unfold MheCfg.xLast at hi; omega)), fun k hk i hi => (forall₂_ofFn_iff P _ _).1 (a2 k hk i ((hz i).2 hi)),
      fun k hk => (forall₂_ofFn_iff P _ _).1 (a3 k hk), fun k hk => (heps k).1 (a6 k hk), (forall₂_ofFn_iff P _ _).1 a7⟩
  · rintro ⟨a1, a2, a3, a6, a7⟩
    exact ⟨fun k hk i hi => (forall₂_ofFn_iff P _ _).2 (a1 k (by omega) i (by unfold MheCfg.xLast; omega)), fun k hk i hi => (forall₂_ofFn_iff P _ _).2 (a2 k hk i ((hz i).1 hi)),
      fun k hk => (forall₂_ofFn_iff P _ _).2 (a3 k hk), fun k hk => (forall₂_ofFn_iff P _ _).2 fun _ => hb _, fun k hk => (forall₂_ofFn_iff P _ _).2 fun _ => hb _,
      fun k hk => (heps k).2 (a6 k hk), (forall₂_ofFn_iff P _ _).2 a7⟩

theorem mhe_bounds_iff (hV : OkMhe V d ne ns) (hn : (cfg.nl.map (·.name)).Nodup) (v : Nat → K) :
    (∀ i < (cfg.optX V).size, ((cfg.flatLb V).getD i .ninf).le (v i) ∧ ((cfg.flatUb V).getD i .pinf).ge (v i)) ↔ cfg.InBounds (cfg.ofX V v) := by
  have h1 := mhe_side cfg V hV hn Bound.le cfg.lbx .ninf (fun _ => trivial) v
  have h2 := mhe_side cfg V hV hn Bound.ge cfg.ubx .pinf (fun _ => trivial) v
  have l1 : (cfg.flatLb V).length = (cfg.optX V).size := cat_length _ _ (mheB_fits cfg V hV _ _)
  have l2 : (cfg.flatUb V).length = (cfg.optX V).size := cat_length _ _ (mheB_fits cfg V hV _ _)
  have e1 := forall_getD_iff Bound.le (cfg.flatLb V) v .ninf
  have e2 := forall_getD_iff Bound.ge (cfg.flatUb V) v .pinf
  rw [l1] at e1
  rw [l2] at e2
  rw [show (∀ i < (cfg.optX V).size, ((cfg.flatLb V).getD i .ninf).le (v i) ∧ ((cfg.flatUb V).getD i .pinf).ge (v i)) ↔
    (∀ i < (cfg.optX V).size, ((cfg.flatLb V).getD i .ninf).le (v i)) ∧ ∀ i < (cfg.optX V).size, ((cfg.flatUb V).getD i .pinf).ge (v i) from
    ⟨fun h => ⟨fun i hi => (h i hi).1, fun i hi => (h i hi).2⟩, fun h i hi => ⟨h.1 i hi, h.2 i hi⟩⟩, ← e1, ← e2]
  unfold MheCfg.flatLb MheCfg.flatUb
  rw [h1, h2]
  unfold MheCfg.InBounds
  constructor
  · rintro ⟨⟨a1, a2, a3, a4, a5⟩, b1, b2, b3, b4, b5⟩
    exact ⟨fun k hk i hi j => ⟨a1 k hk i hi j, b1 k hk i hi j⟩, fun k hk i hi j => ⟨a2 k hk i hi j, b2 k hk i hi j⟩, fun k hk j => ⟨a3 k hk j, b3 k hk j⟩,
      fun k hk sl hsl i hi => ⟨a4 k hk sl hsl i hi, b4 k hk sl hsl i hi⟩, fun j => ⟨a5 j, b5 j⟩⟩
  · rintro ⟨c1, c2, c3, c4, c5⟩
    exact ⟨⟨fun k hk i hi j => (c1 k hk i hi j).1, fun k hk i hi j => (c2 k hk i hi j).1, fun k hk j => (c3 k hk j).1, fun k hk sl hsl i hi => (c4 k hk sl hsl i hi).1,
      fun j => (c5 j).1⟩, fun k hk i hi j => (c1 k hk i hi j).2, fun k hk i hi j => (c2 k hk i hi j).2, fun k hk j => (c3 k hk j).2,
      fun k hk sl hsl i hi => (c4 k hk sl hsl i hi).2, fun j => (c5 j).2⟩

/-- **C100**: a vector is a feasible point of the problem that the solver gets if and only if the structure that do-mpc reads from it is feasible. -/
theorem C100_flat_feasible (hV : OkMhe V d ne ns) (hn : (cfg.nl.map (·.name)).Nodup) (v q : Nat → K) :
    cfg.FlatFeasible V v q ↔ cfg.Feasible (cfg.ofX V v) (cfg.ofP V q) := by
  unfold MheCfg.FlatFeasible MheCfg.Feasible MheCfg.flatRows
  rw [mhe_bounds_iff cfg V hV hn]

theorem mhe_inBounds_congr (o o' : MheX K d ne) (ho : SameMheX cfg o o') : cfg.InBounds o → cfg.InBounds o' := by
  rintro ⟨c1, c2, c3, c4, c5⟩
  have hz : ∀ i, i < max cfg.ifcn.ncoll 1 ↔ i ≤ cfg.zLast := fun i => by unfold MheCfg.zLast; omega
  refine ⟨fun k hk i hi j => ?_, fun k hk i hi j => ?_, fun k hk j => ?_, fun k hk sl hsl i hi => ?_, fun j => ?_⟩
  · rw [← ho.x k hk i hi]; exact c1 k hk i hi j
  · rw [← ho.z k hk i ((hz i).2 hi)]; exact c2 k hk i hi j
  · rw [← ho.u k hk]; exact c3 k hk j
  · obtain ⟨h1, h2⟩ := (slackVars_mem _ _).1 hsl
    rw [← ho.eps k hk sl h1 h2 i hi]
    exact c4 k hk sl hsl i hi
  · rw [← ho.pEst]; exact c5 j

theorem mhe_feasible_congr (hn : (cfg.nl.map (·.name)).Nodup) (hI : OwnPoints cfg.ifcn) (o o' : MheX K d ne) (q q' : MheP K d ne ns) (ho : SameMheX cfg o o')
    (hq : SameMheP cfg q q') : cfg.Feasible o q ↔ cfg.Feasible o' q' := by
  unfold MheCfg.Feasible
  rw [C100_rows_congr cfg hn o o' q q' ho hq hI]
  exact exists_congr fun rs => and_congr_right fun _ => and_congr_right fun _ => ⟨mhe_inBounds_congr cfg _ _ ho, mhe_inBounds_congr cfg _ _ (SameMheX.symm cfg ho)⟩

/-- **C100**: the problem that the solver gets and the problem that do-mpc states have the same feasible points with the same cost. -/
theorem C100_same_problem (hV : OkMhe V d ne ns) (hn : (cfg.nl.map (·.name)).Nodup) (hI : OwnPoints cfg.ifcn) (o : MheX K d ne) (q : MheP K d ne ns) :
    (cfg.FlatFeasible V (fun p => (cfg.catX V o).getD p 0) (fun p => (cfg.catP V q).getD p 0) ↔ cfg.Feasible o q) ∧
      cfg.flatObj V (fun p => (cfg.catX V o).getD p 0) (fun p => (cfg.catP V q).getD p 0) = cfg.obj o q := by
  have ho := C100_opt_x_round_trip cfg V hV hn o
  have hq := C100_opt_p_round_trip cfg V hV q
  rw [C100_flat_feasible cfg V hV hn]
  exact ⟨mhe_feasible_congr cfg hn hI _ _ _ _ ho hq, C100_obj_congr cfg hn _ _ _ _ ho hq⟩

/-- **C100**: what the solver returns.  If the vector `v` is feasible and no feasible vector costs less, then the point that do-mpc reads from it is feasible and no
feasible point costs less. -/
theorem C100_minimiser (hV : OkMhe V d ne ns) (hn : (cfg.nl.map (·.name)).Nodup) (hI : OwnPoints cfg.ifcn) (q : MheP K d ne ns) (v : Nat → K) :
    (cfg.FlatFeasible V v (fun p => (cfg.catP V q).getD p 0) ∧ ∀ v', cfg.FlatFeasible V v' (fun p => (cfg.catP V q).getD p 0) →
      cfg.flatObj V v (fun p => (cfg.catP V q).getD p 0) ≤ cfg.flatObj V v' (fun p => (cfg.catP V q).getD p 0)) ↔
    cfg.Feasible (cfg.ofX V v) q ∧ ∀ o, cfg.Feasible o q → cfg.obj (cfg.ofX V v) q ≤ cfg.obj o q := by
  have hq := C100_opt_p_round_trip cfg V hV q
  have hF : ∀ v', cfg.FlatFeasible V v' (fun p => (cfg.catP V q).getD p 0) ↔ cfg.Feasible (cfg.ofX V v') q := by
    intro v'
    rw [C100_flat_feasible cfg V hV hn]
    exact mhe_feasible_congr cfg hn hI _ _ _ _ (SameMheX.rfl cfg _) hq
  have hO : ∀ v', cfg.flatObj V v' (fun p => (cfg.catP V q).getD p 0) = cfg.obj (cfg.ofX V v') q := fun v' =>
    C100_obj_congr cfg hn _ _ _ _ (SameMheX.rfl cfg (cfg.ofX V v')) hq
  simp only [hF, hO]
  refine and_congr_right fun _ => ⟨fun h o ho => ?_, fun h v' hv' => h _ hv'⟩
  have hr := C100_opt_x_round_trip cfg V hV hn o
  have hq' : SameMheP cfg q q := ⟨rfl, rfl, rfl, fun _ _ => rfl, fun _ _ => rfl⟩
  have := h (fun p => (cfg.catX V o).getD p 0) ((mhe_feasible_congr cfg hn hI _ _ _ _ hr hq').2 ho)
  rwa [C100_obj_congr cfg hn _ _ _ _ hr hq'] at this

/-- the flat vector depends only on the entries -/
theorem mhe_catX_congr (o o' : MheX K d ne) (ho : SameMheX cfg o o') : cfg.catX V o = cfg.catX V o' := by
  have hb := (mheX_all cfg V fun e i => o.block cfg.nl e.name i = o'.block cfg.nl e.name i).2
    ⟨fun k hk i hi => congrArg List.ofFn (ho.x k (by omega) i (by omega)), fun k hk i hi => congrArg List.ofFn (ho.z k hk i hi), fun k hk => congrArg List.ofFn (ho.u k hk),
      fun k hk => congrArg List.ofFn (ho.w k hk), fun k hk => congrArg List.ofFn (ho.v k hk), fun k hk => by
        show (epsLayout cfg.nl).flat (o.eps k) = (epsLayout cfg.nl).flat (o'.eps k)
        unfold Layout.flat
        refine List.flatMap_congr fun q hq => List.map_congr_left fun j hj => ?_
        obtain ⟨sl, hsl, rfl⟩ := List.mem_map.1 hq
        obtain ⟨h3, h4⟩ := (slackVars_mem _ _).1 hsl
        exact ho.eps k hk sl h3 h4 j (List.mem_range.1 hj), congrArg List.ofFn ho.pEst⟩
  unfold MheCfg.catX SStruct.cat
  exact List.flatMap_congr fun e he => List.flatMap_congr fun i hi => hb e he i ((mem_multi _ _).1 hi)

/-- **C100**: multiplying the solver's vector by the vector of scaling factors unscales every variable. -/
theorem C100_unscaled (hV : OkMhe V d ne ns) (hn : (cfg.nl.map (·.name)).Nodup) (o : MheX K d ne) (i : Nat) (hi : i < (cfg.optX V).size) :
    (cfg.catX V (cfg.unscaled o)).getD i 0 = (cfg.catX V o).getD i 0 * cfg.scalingFlat V i := by
  have hz : ∀ (n : Nat) (a b : Vec K n), List.ofFn (a * b) = List.zipWith (· * ·) (List.ofFn a) (List.ofFn b) := by
    intro n a b
    refine List.ext_getElem (by simp) fun j h1 h2 => ?_
    simp
  have hone : ∀ (n : Nat) (a : Vec K n), List.ofFn a = List.zipWith (· * ·) (List.ofFn a) (List.ofFn (1 : Vec K n)) := by
    intro n a
    rw [← hz, mul_one]
  have hb := (mheX_all cfg V fun e i => (cfg.unscaled o).block cfg.nl e.name i = List.zipWith (· * ·) (o.block cfg.nl e.name i) (cfg.scalingX.block cfg.nl e.name i)).2
    ⟨fun k _ i _ => hz _ _ _, fun k _ i _ => hz _ _ _, fun k _ => hz _ _ _, fun k _ => hone _ _, fun k _ => hone _ _, fun k _ => by
      show (epsLayout cfg.nl).flat (o.eps k) = List.zipWith (· * ·) ((epsLayout cfg.nl).flat (o.eps k)) ((epsLayout cfg.nl).flat fun _ _ => 1)
      generalize epsLayout cfg.nl = L
      unfold Layout.flat
      induction L with
      | nil => rfl
      | cons e L ih =>
        rw [List.flatMap_cons, List.flatMap_cons, List.zipWith_append (by simp), ← ih]
        congr 1
        refine List.ext_getElem (by simp) fun j h1 h2 => ?_
        simp, hz _ _ _⟩
  have hcat : cfg.catX V (cfg.unscaled o) = List.zipWith (· * ·) (cfg.catX V o) (cfg.catX V cfg.scalingX) := by
    have hzip : ∀ {α : Type} (l : List α) (f a b : α → List K), (∀ x ∈ l, f x = List.zipWith (· * ·) (a x) (b x) ∧ (a x).length = (b x).length) →
        l.flatMap f = List.zipWith (· * ·) (l.flatMap a) (l.flatMap b) ∧ (l.flatMap a).length = (l.flatMap b).length := by
      intro α l f a b
      induction l with
      | nil => intro _; exact ⟨rfl, rfl⟩
      | cons x l ih =>
        intro h
        obtain ⟨h1, h2⟩ := h x (by simp)
        obtain ⟨i1, i2⟩ := ih fun y hy => h y (List.mem_cons_of_mem _ hy)
        rw [List.flatMap_cons, List.flatMap_cons, List.flatMap_cons, List.zipWith_append h2, ← h1, ← i1]
        exact ⟨rfl, by rw [List.length_append, List.length_append, h2, i2]⟩
    have f1 := mheX_fits cfg V hV o
    have f2 := mheX_fits cfg V hV cfg.scalingX
    exact (hzip _ _ _ _ fun e he => hzip _ _ _ _ fun i hi => ⟨hb e he i ((mem_multi _ _).1 hi), by
      rw [f1 e he i ((mem_multi _ _).1 hi), f2 e he i ((mem_multi _ _).1 hi)]⟩).1
  have l1 : (cfg.catX V o).length = (cfg.optX V).size := cat_length _ _ (mheX_fits cfg V hV o)
  have l2 : (cfg.catX V cfg.scalingX).length = (cfg.optX V).size := cat_length _ _ (mheX_fits cfg V hV cfg.scalingX)
  unfold MheCfg.scalingFlat
  rw [hcat]
  simp only [List.getD_eq_getElem?_getD]
  rw [List.getElem?_zipWith, List.getElem?_eq_getElem (by omega : i < (cfg.catX V o).length), List.getElem?_eq_getElem (by omega : i < (cfg.catX V cfg.scalingX).length)]
  rfl

end FlatProblem
end DoMpc
