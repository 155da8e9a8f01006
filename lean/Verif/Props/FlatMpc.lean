import Verif.Props.Flat
import Verif.Props.Collocation
import Verif.Props.LinearRefine
import Verif.Props.MheParams
import Verif.Lemmas.MpcNlp
import Verif.Lemmas.MpcCost
import Verif.Model.Prediction
import Verif.Model.Lifecycle

set_option linter.unusedSectionVars false
set_option linter.unusedSimpArgs false

/-!
# C98: the flat problem handed to the solver is the structured problem
-/
namespace DoMpc
open FlatSpec Spec
variable {K : Type} [Field K] [LinearOrder K] [IsStrictOrderedRing K] {d : Dims}

theorem loop_valid (cfg : MpcCfg K d) (hc : 0 < cfg.c) (t : Nat × Nat × Nat) (ht : t ∈ cfg.loop) :
    t.1 < cfg.N ∧ t.2.1 < cfg.nMax ∧ cfg.child t.1 t.2.1 t.2.2 < cfg.nMax ∧ cfg.cur t.1 t.2.1 t.2.2 < cfg.c ∧ cfg.sU t.2.1 < cfg.nU ∧
      (t.1 ≠ 0 → cfg.par t.1 (cfg.sU t.2.1) < cfg.nU) ∧ cfg.kEps t.1 < cfg.nEps := by
  have hle : ∀ m ≤ cfg.nRobust, cfg.c ^ m ≤ cfg.c ^ cfg.nRobust := fun m hm => Nat.pow_le_pow_right hc hm
  have hns : ∀ k, nScenarios cfg.c cfg.nRobust k ≤ cfg.nMax := fun k => hle _ (Nat.min_le_right _ _)
  have hq := (loop_forall cfg hc (fun k s ch r => r < cfg.c)).2 (fun k _ h hh r hr => by
    unfold MayOccur at hr
    split_ifs at hr with h'
    · exact hr
    · subst hr
      rcases List.eq_nil_or_concat h with rfl | ⟨l, a, rfl⟩
      · exact hc
      · rw [List.concat_eq_append, List.getLastD_concat]
        exact hh.2 a (by simp)) t ht
  unfold MpcCfg.loop at ht
  simp only [List.mem_flatMap, List.mem_map, List.mem_range] at ht
  obtain ⟨k, hk, s, hs, b, hb, rfl⟩ := ht
  have hsm : s < cfg.nMax := lt_of_lt_of_le hs (hns k)
  have hch : cfg.child k s b < cfg.nMax := by
    unfold MpcCfg.child MpcCfg.tree
    rw [treeTables_child _ _ _ hc hk hs hb, Int.toNat_natCast]
    exact lt_of_lt_of_le (child_lt hs hb) (hns _)
  refine ⟨hk, hsm, hch, hq, ?_, ?_, ?_⟩
  · unfold MpcCfg.sU MpcCfg.nU
    split_ifs
    · omega
    · exact hsm
  · intro h0
    show cfg.par k (cfg.sU s) < cfg.nU
    obtain ⟨k', rfl⟩ : ∃ k', k = k' + 1 := ⟨k - 1, by have : k ≠ 0 := h0; omega⟩
    unfold MpcCfg.par MpcCfg.tree
    have hU : cfg.sU s < nScenarios cfg.c cfg.nRobust (k' + 1) := by
      unfold MpcCfg.sU
      split_ifs
      · exact nScenarios_pos _ _ _ hc
      · exact hs
    rw [treeTables_parent _ _ _ hc (show k' < cfg.N by omega) hU, Int.toNat_natCast]
    unfold MpcCfg.sU MpcCfg.nU
    split_ifs
    · simp
    · exact lt_of_le_of_lt (Nat.div_le_self _ _) hsm
  · show cfg.kEps k < cfg.nEps
    unfold MpcCfg.kEps MpcCfg.nEps
    split_ifs <;> omega

theorem slackVars_mem (calls : List (NlCall K d)) (sl : NlCall K d) : sl ∈ slackVars calls ↔ sl ∈ calls ∧ sl.soft = true := by
  unfold slackVars
  rw [List.mem_filter]

theorem epsTerm_congr (calls : List (NlCall K d)) (e e' : Eps K) (h : ∀ sl ∈ calls, sl.soft = true → ∀ i < sl.dim, e sl.name i = e' sl.name i) :
    epsTerm calls e = epsTerm calls e' := by
  unfold epsTerm
  congr 1
  refine List.map_congr_left fun sl hsl => ?_
  obtain ⟨h1, h2⟩ := (slackVars_mem calls sl).1 hsl
  congr 1
  exact List.map_congr_left fun i hi => by rw [h sl h1 h2 i (List.mem_range.1 hi)]

theorem nlRows_congr (calls : List (NlCall K d)) (hn : (calls.map (·.name)).Nodup) (x : Vec K d.nx) (u : Vec K d.nu) (z : Vec K d.nz) (tv : Vec K d.ntv)
    (p : Vec K d.np) (e e' : Eps K) (h : ∀ sl ∈ calls, sl.soft = true → ∀ i < sl.dim, e sl.name i = e' sl.name i) :
    nlRows calls x u z tv p e = nlRows calls x u z tv p e' := by
  unfold nlRows
  refine List.flatMap_congr fun call hcall => List.map_congr_left fun i hi => ?_
  have hv : nlConsValue calls call x u z tv p e i = nlConsValue calls call x u z tv p e' i := by
    unfold nlConsValue
    have : ∀ (l : List (NlCall K d)) (a : K), (∀ sl ∈ l, sl ∈ calls ∧ sl.soft = true) →
        l.foldl (fun v sl => if sl.name = call.name then v - e sl.name i else v) a = l.foldl (fun v sl => if sl.name = call.name then v - e' sl.name i else v) a := by
      intro l
      induction l with
      | nil => intro a _; rfl
      | cons sl l ih =>
        intro a hl
        obtain ⟨h1, h2⟩ := hl sl (by simp)
        rw [List.foldl_cons, List.foldl_cons]
        by_cases hname : sl.name = call.name
        · have : sl = call := List.inj_on_of_nodup_map hn h1 hcall hname
          subst this
          rw [h sl h1 h2 i (List.mem_range.1 hi)]
          exact ih _ fun s hs => hl s (List.mem_cons_of_mem _ hs)
        · rw [if_neg hname, if_neg hname]
          exact ih _ fun s hs => hl s (List.mem_cons_of_mem _ hs)
    exact this _ _ fun sl hsl => (slackVars_mem calls sl).1 hsl
  rw [hv]

section Same
variable (cfg : MpcCfg K d) (hc : 0 < cfg.c) (hn : (cfg.nl.map (·.name)).Nodup) (w w' : OptX K d) (q q' : OptP K d) (hw : SameEntries cfg w w')
  (hq : SameParams cfg q q')
include hc hn hw hq

/-- **C98**: the constraints depend only on the variables of `opt_x` and the parameters of `opt_p`. -/
theorem C98_rows_congr (hI : OwnPoints cfg.ifcn) : cfg.rows w q = cfg.rows w' q' := by
  unfold MpcCfg.rows
  have hz1 : 1 ≤ cfg.nMax := Nat.pow_pos hc
  refine congrArg₂ _ ?_ (List.flatMap_congr fun t ht => ?_)
  · unfold MpcCfg.initRows
    rw [hw.x 0 (Nat.zero_le _) 0 hz1 cfg.xLast le_rfl, hq.x0]
  · obtain ⟨h1, h2, h3, h4, h5, h6, h7⟩ := loop_valid cfg hc t ht
    have hx : w.x t.1 t.2.1 cfg.xLast = w'.x t.1 t.2.1 cfg.xLast := hw.x _ (by omega) _ h2 _ le_rfl
    have hu := hw.u _ h1 _ h5
    have hp := hq.p _ h4
    have ht' := hq.tvp t.1 (by omega)
    have hxs : ∀ i < cfg.ifcn.ncoll, w.x (t.1 + 1) (cfg.child t.1 t.2.1 t.2.2) i = w'.x (t.1 + 1) (cfg.child t.1 t.2.1 t.2.2) i :=
      fun i hi => hw.x _ (by omega) _ h3 i (by omega)
    have hxl := hw.x (t.1 + 1) (by omega) _ h3 cfg.xLast le_rfl
    have hzs : ∀ i < max cfg.ifcn.ncoll 1, w.z t.1 (cfg.child t.1 t.2.1 t.2.2) i = w'.z t.1 (cfg.child t.1 t.2.1 t.2.2) i := fun i hi => hw.z _ h1 _ h3 i hi
    refine congrArg₂ _ ?_ ?_
    · unfold MpcCfg.dynRows
      dsimp only
      rw [hx, hu, hp, ht', (hI _ _ _ _ _ _ _ _ _ hxs hzs).1, (hI _ _ _ _ _ _ _ _ _ hxs hzs).2, hxl]
    · unfold MpcCfg.nlRowsAt
      dsimp only
      have he := hw.eps _ h7 _ h2
      split_ifs
      · refine List.flatMap_congr fun i hi => ?_
        have hi' := List.mem_range.1 hi
        unfold MpcCfg.xPhys MpcCfg.uPhys MpcCfg.zPhys
        rw [hw.x t.1 (by omega) _ h2 i (by omega), hw.z t.1 h1 _ h2 i (lt_of_lt_of_le hi' (le_max_left _ _)), hu, hp, ht']
        exact nlRows_congr cfg.nl hn _ _ _ _ _ _ _ he
      · unfold MpcCfg.xPhys MpcCfg.uPhys MpcCfg.zPhys
        rw [hx, hw.z t.1 h1 _ h2 0 (lt_of_lt_of_le one_pos (le_max_right _ _)), hu, hp, ht']
        exact nlRows_congr cfg.nl hn _ _ _ _ _ _ _ he

/-- **C98**: so does the objective. -/
theorem C98_obj_congr : cfg.obj w q = cfg.obj w' q' := by
  unfold MpcCfg.obj
  congr 1
  refine List.map_congr_left fun t ht => ?_
  obtain ⟨h1, h2, h3, h4, h5, h6, h7⟩ := loop_valid cfg hc t ht
  have hx : w.x t.1 t.2.1 cfg.xLast = w'.x t.1 t.2.1 cfg.xLast := hw.x _ (by omega) _ h2 _ le_rfl
  have hx1 : w.x (t.1 + 1) t.2.1 cfg.xLast = w'.x (t.1 + 1) t.2.1 cfg.xLast := hw.x _ (by omega) _ h2 _ le_rfl
  have hu := hw.u _ h1 _ h5
  have hp := hq.p _ h4
  have ht0 := hq.tvp t.1 (by omega)
  have ht1 := hq.tvp (t.1 + 1) (by omega)
  have hz : w.z t.1 t.2.1 cfg.zLast = w'.z t.1 t.2.1 cfg.zLast := hw.z _ h1 _ h2 _ (by unfold MpcCfg.zLast; omega)
  have hold : (if t.1 = 0 then q.uPrev / cfg.su else w.u (t.1 - 1) (cfg.par t.1 (cfg.sU t.2.1))) =
      if t.1 = 0 then q'.uPrev / cfg.su else w'.u (t.1 - 1) (cfg.par t.1 (cfg.sU t.2.1)) := by
    split_ifs with h0
    · rw [hq.uPrev]
    · exact hw.u _ (by omega) _ (h6 h0)
  refine congrArg₂ _ (congrArg₂ _ ?_ ?_) ?_
  · unfold MpcCfg.econAt MpcCfg.xPhys MpcCfg.uPhys MpcCfg.zPhys
    dsimp only
    rw [hx, hx1, hu, hp, ht0, ht1, hz]
  · unfold MpcCfg.slackAt
    exact epsTerm_congr _ _ _ (hw.eps _ h7 _ h2)
  · unfold MpcCfg.rtermAt
    cases cfg.rterm with
    | factor r =>
      dsimp only
      rw [hold, hu]
    | user f =>
      dsimp only
      unfold MpcCfg.xPhys MpcCfg.uPhys MpcCfg.zPhys
      rw [hold, hx, hu, hp, ht0, hz]

end Same

/-! ### Reading the flat vector -/

section RoundTrip
variable (cfg : MpcCfg K d) (V : VarNames)

theorem exists_x {k s i : Nat} (hk : k ≤ cfg.N) (hs : s < cfg.nMax) (hi : i ≤ cfg.ifcn.ncoll) : Exists (cfg.optX V) "_x" [(k : Int), (s : Int), (i : Int)] :=
  ⟨_, List.mem_cons_self, rfl, .cons (inRange_nat (by omega)) (.cons (inRange_nat hs) (.cons (inRange_nat (by omega)) .nil))⟩

theorem exists_z {k s i : Nat} (hk : k < cfg.N) (hs : s < cfg.nMax) (hi : i < max cfg.ifcn.ncoll 1) :
    Exists (cfg.optX V) "_z" [(k : Int), (s : Int), (i : Int)] :=
  ⟨⟨"_z", [cfg.N, cfg.nMax, max cfg.ifcn.ncoll 1], V.z⟩, by simp [MpcCfg.optX], rfl, .cons (inRange_nat hk) (.cons (inRange_nat hs) (.cons (inRange_nat hi) .nil))⟩

theorem exists_u {k s : Nat} (hk : k < cfg.N) (hs : s < cfg.nU) : Exists (cfg.optX V) "_u" [(k : Int), (s : Int)] :=
  ⟨⟨"_u", [cfg.N, cfg.nU], V.u⟩, by simp [MpcCfg.optX], rfl, .cons (inRange_nat hk) (.cons (inRange_nat hs) .nil)⟩

theorem exists_eps {k s : Nat} (hk : k < cfg.nEps) (hs : s < cfg.nMax) : Exists (cfg.optX V) "_eps" [(k : Int), (s : Int)] :=
  ⟨⟨"_eps", [cfg.nEps, cfg.nMax], epsLayout cfg.nl⟩, by simp [MpcCfg.optX], rfl, .cons (inRange_nat hk) (.cons (inRange_nat hs) .nil)⟩

theorem selected_x (k s i : Nat) : selected (cfg.optX V) "_x" [(k : Int), (s : Int), (i : Int)] = [k, s, i] := by
  simp [selected, MpcCfg.optX, counted_nat]
theorem selected_z (k s i : Nat) : selected (cfg.optX V) "_z" [(k : Int), (s : Int), (i : Int)] = [k, s, i] := by
  simp [selected, MpcCfg.optX, counted_nat]
theorem selected_u (k s : Nat) : selected (cfg.optX V) "_u" [(k : Int), (s : Int)] = [k, s] := by
  simp [selected, MpcCfg.optX, counted_nat]
theorem selected_eps (k s : Nat) : selected (cfg.optX V) "_eps" [(k : Int), (s : Int)] = [k, s] := by
  simp [selected, MpcCfg.optX, counted_nat]

theorem getD_map_range {α : Type} (f : Nat → α) (n i : Nat) (hi : i < n) (a : α) : ((List.range n).map f).getD i a = f i := by
  rw [List.getD_eq_getElem?_getD, List.getElem?_map, List.getElem?_range hi]
  rfl

theorem epsLayout_names (hn : (cfg.nl.map (·.name)).Nodup) : ((epsLayout cfg.nl).map (·.1)).Nodup := by
  unfold epsLayout slackVars
  rw [List.map_map]
  exact hn.sublist (List.Sublist.map _ List.filter_sublist)

theorem epsLayout_mem (sl : NlCall K d) (hsl : sl ∈ cfg.nl) (hs : sl.soft = true) : (sl.name, sl.dim) ∈ epsLayout cfg.nl :=
  List.mem_map.2 ⟨sl, (slackVars_mem _ _).2 ⟨hsl, hs⟩, rfl⟩

/-- **C98**: the flat vector of a point, read with power indices, gives back every variable of the point. -/
theorem C98_opt_x_round_trip (hV : Ok V d) (hn : (cfg.nl.map (·.name)).Nodup) (w : OptX K d) :
    SameEntries cfg (cfg.ofX V fun p => (cfg.catX V w).getD p 0) w := by
  have hr := fun nm idx he => read_cat (cfg.optX V) (w.block cfg.nl) (optX_fits cfg V hV w) (optX_distinct cfg V) nm idx he
  refine ⟨fun k hk s hs i hi => ?_, fun k hk s hs i hi => ?_, fun k hk s hs => ?_, fun k hk s hs sl hsl hso i hi => ?_⟩
  · refine Eq.trans (congrArg vecOf ((hr _ _ (exists_x cfg V hk hs hi)).trans ?_)) (vecOf_ofFn _)
    rw [selected_x]; rfl
  · refine Eq.trans (congrArg vecOf ((hr _ _ (exists_z cfg V hk hs hi)).trans ?_)) (vecOf_ofFn _)
    rw [selected_z]; rfl
  · refine Eq.trans (congrArg vecOf ((hr _ _ (exists_u cfg V hk hs)).trans ?_)) (vecOf_ofFn _)
    rw [selected_u]; rfl
  · show ((epsLayout cfg.nl).entry ((cfg.optX V).read (fun p => (cfg.catX V w).getD p 0) "_eps" [k, s]) sl.name).getD i 0 = _
    rw [show (cfg.optX V).read (fun p => (cfg.catX V w).getD p 0) "_eps" [(k : Int), (s : Int)] = (epsLayout cfg.nl).flat (w.eps k s) from
      (hr _ _ (exists_eps cfg V hk hs)).trans (by rw [selected_eps]; rfl)]
    rw [entry_flat _ _ (epsLayout_names cfg hn) _ (epsLayout_mem cfg sl hsl hso)]
    exact getD_map_range _ _ _ hi _

/-- **C98**: so does the flat vector of the parameters. -/
theorem C98_opt_p_round_trip (hV : Ok V d) (q : OptP K d) : SameParams cfg (cfg.ofP V fun p => (cfg.catP V q).getD p 0) q := by
  have hr := fun nm idx he => read_cat (cfg.optP V) q.block (optP_fits cfg V hV q) (optP_distinct cfg V) nm idx he
  refine ⟨?_, fun k hk => ?_, fun c hc => ?_, ?_⟩
  · refine Eq.trans (congrArg vecOf ((hr "_x0" [] ⟨_, List.mem_cons_self, rfl, .nil⟩).trans ?_)) (vecOf_ofFn _)
    rw [show selected (cfg.optP V) "_x0" [] = [] by simp [selected, MpcCfg.optP]]; rfl
  · refine Eq.trans (congrArg vecOf ((hr "_tvp" [(k : Int)] ⟨⟨"_tvp", [cfg.N + 1], V.tvp⟩, by simp [MpcCfg.optP], rfl,
      .cons (inRange_nat (by omega)) .nil⟩).trans ?_)) (vecOf_ofFn _)
    rw [show selected (cfg.optP V) "_tvp" [(k : Int)] = [k] by simp [selected, MpcCfg.optP, counted_nat]]; rfl
  · refine Eq.trans (congrArg vecOf ((hr "_p" [(c : Int)] ⟨⟨"_p", [cfg.c], V.p⟩, by simp [MpcCfg.optP], rfl,
      .cons (inRange_nat (by omega)) .nil⟩).trans ?_)) (vecOf_ofFn _)
    rw [show selected (cfg.optP V) "_p" [(c : Int)] = [c] by simp [selected, MpcCfg.optP, counted_nat]]; rfl
  · refine Eq.trans (congrArg vecOf ((hr "_u_prev" [] ⟨⟨"_u_prev", [], V.u⟩, by simp [MpcCfg.optP], rfl, .nil⟩).trans ?_)) (vecOf_ofFn _)
    rw [show selected (cfg.optP V) "_u_prev" [] = [] by simp [selected, MpcCfg.optP]]; rfl

end RoundTrip

section Back

/-- Two vectors that are read alike at every power index are equal. -/
theorem cat_ext {α : Type} (S : SStruct) (hd : Distinct S) (b : String → List Nat → List α) (hb : Fits S b) (v : Nat → α)
    (h : ∀ e ∈ S, ∀ i, List.Forall₂ (fun a n => a < n) i e.rep → ∀ ps, S.f e.name (i.map Int.ofNat) = some ps → b e.name i = ps.map v) :
    S.cat b = (List.range S.size).map v := by
  refine List.ext_getElem? fun p => ?_
  by_cases hp : p < S.size
  · obtain ⟨nm, idx, ps, hps, hmem⟩ := (C98_cover S hd p).1 hp
    obtain ⟨e, he, rfl, hin⟩ := (C98_accepted S hd nm idx).1 (by rw [hps]; rfl)
    have hread := C98_read S b hb e.name idx ps hps
    have hfind : S.find? (·.name = e.name) = some e := by
      rcases hf : S.find? (·.name = e.name) with _ | a
      · rw [List.find?_eq_none] at hf
        exact absurd (rfl : e.name = e.name) (by simpa using hf e he)
      · rw [hf, List.inj_on_of_nodup_map hd (List.mem_of_find?_eq_some hf) he (by simpa using List.find?_some hf)]
    have hsel : selected S e.name idx = List.zipWith counted e.rep idx := by
      unfold selected
      rw [hfind]
    have hval : List.Forall₂ (fun a n => a < n) (selected S e.name idx) e.rep := by
      rw [hsel]
      have : ∀ ns is, List.Forall₂ InRange ns is → List.Forall₂ (fun a n => a < n) (List.zipWith counted ns is) ns := by
        intro ns is h
        induction h with
        | nil => exact .nil
        | cons h1 _ ih =>
          rename_i n i _ _ _
          refine .cons ?_ ih
          obtain ⟨ha, hb⟩ := h1
          unfold counted
          split_ifs <;> omega
      exact this _ _ hin
    have hsame : S.f e.name ((selected S e.name idx).map Int.ofNat) = some ps := by
      rw [← hps]
      unfold SStruct.f
      rcases hq : S.find e.name with _ | t
      · rfl
      · have hte : t.2 = e := by
          have := (find_spec S e.name).1 t hq
          rw [hfind] at this
          exact (Option.some.inj this).symm
        simp only [Option.bind_some, hte]
        have hrav : ravel e.rep ((selected S e.name idx).map Int.ofNat) = ravel e.rep idx := by
          rw [hsel]
          have : ∀ ns is, List.Forall₂ InRange ns is → ravel ns ((List.zipWith counted ns is).map Int.ofNat) = ravel ns is := by
            intro ns is h
            induction h with
            | nil => rfl
            | cons h1 _ ih =>
              rename_i n i _ _ _
              obtain ⟨ha, hb⟩ := h1
              rw [List.zipWith_cons_cons, List.map_cons, ravel, ravel, ih]
              have : pyPos n (Int.ofNat (counted n i)) = pyPos n i := by
                unfold pyPos counted
                simp only [Int.ofNat_eq_natCast]
                split_ifs <;> first | omega | (congr 1)
              rw [this]
          exact this _ _ hin
        rw [hrav]
    have hb' := h e he _ hval ps hsame
    rw [hb'] at hread
    obtain ⟨j, hj⟩ := List.mem_iff_getElem?.1 hmem
    have := congrArg (fun l => l[j]?) hread
    simp only [List.getElem?_map, hj, Option.map_some] at this
    rw [List.getElem?_map, List.getElem?_range hp]
    exact Option.some.inj this
  · rw [List.getElem?_eq_none (by rw [cat_length S b hb]; omega), List.getElem?_eq_none (by simp; omega)]


variable (cfg : MpcCfg K d) (V : VarNames)

theorem ofFn_vecOf {n : Nat} (l : List K) (h : l.length = n) : List.ofFn (vecOf l : Vec K n) = l := by
  subst h
  refine List.ext_getElem (by simp) fun i h1 h2 => ?_
  simp [vecOf, List.getD_eq_getElem?_getD, h2]

theorem read_f {α : Type} (S : SStruct) (v : Nat → α) (nm : String) (idx : List Int) (ps : List Nat) (h : S.f nm idx = some ps) : S.read v nm idx = ps.map v := by
  unfold SStruct.read
  rw [h]; rfl

theorem f_length (S : SStruct) (hd : Distinct S) (e : SEntry) (he : e ∈ S) (idx : List Int) (ps : List Nat) (h : S.f e.name idx = some ps) :
    ps.length = e.sub.size := by
  unfold SStruct.f at h
  rcases hq : S.find e.name with _ | t
  · rw [hq] at h; cases h
  · rw [hq] at h
    obtain ⟨hm, hne⟩ := find_mem S e.name t hq
    have hte : t.2 = e := List.inj_on_of_nodup_map hd hm he hne
    simp only [Option.bind_some, hte] at h
    rcases hr : ravel e.rep idx with _ | r
    · rw [hr] at h; cases h
    · rw [hr] at h
      obtain rfl := Option.some.inj h
      simp

/-- **C98**: the structure read from a flat vector has this flat vector: nothing of the solver's result is lost. -/
theorem C98_opt_x_vector (hV : Ok V d) (hn : (cfg.nl.map (·.name)).Nodup) (v : Nat → K) :
    cfg.catX V (cfg.ofX V v) = (List.range (cfg.optX V).size).map v := by
  refine cat_ext _ (optX_distinct cfg V) _ (optX_fits cfg V hV _) v ?_
  intro e he i hi ps hps
  have hl := f_length _ (optX_distinct cfg V) e he _ ps hps
  simp only [MpcCfg.optX, List.mem_cons, List.not_mem_nil, or_false] at he
  rcases he with rfl | rfl | rfl | rfl
  · obtain ⟨a, _, -, h1, rfl⟩ := List.forall₂_cons_right_iff.1 hi
    obtain ⟨b, _, -, h2, rfl⟩ := List.forall₂_cons_right_iff.1 h1
    obtain ⟨c, _, -, h3, rfl⟩ := List.forall₂_cons_right_iff.1 h2
    rw [List.forall₂_nil_right_iff] at h3
    subst h3
    show List.ofFn (vecOf ((cfg.optX V).read v "_x" [a, b, c])) = _
    rw [read_f (cfg.optX V) v "_x" [(a : Int), (b : Int), (c : Int)] ps hps]
    exact ofFn_vecOf _ (by rw [List.length_map, hl, hV.x])
  · obtain ⟨a, _, -, h1, rfl⟩ := List.forall₂_cons_right_iff.1 hi
    obtain ⟨b, _, -, h2, rfl⟩ := List.forall₂_cons_right_iff.1 h1
    obtain ⟨c, _, -, h3, rfl⟩ := List.forall₂_cons_right_iff.1 h2
    rw [List.forall₂_nil_right_iff] at h3
    subst h3
    show List.ofFn (vecOf ((cfg.optX V).read v "_z" [a, b, c])) = _
    rw [read_f (cfg.optX V) v "_z" [(a : Int), (b : Int), (c : Int)] ps hps]
    exact ofFn_vecOf _ (by rw [List.length_map, hl, hV.z])
  · obtain ⟨a, _, -, h1, rfl⟩ := List.forall₂_cons_right_iff.1 hi
    obtain ⟨b, _, -, h2, rfl⟩ := List.forall₂_cons_right_iff.1 h1
    rw [List.forall₂_nil_right_iff] at h2
    subst h2
    show List.ofFn (vecOf ((cfg.optX V).read v "_u" [a, b])) = _
    rw [read_f (cfg.optX V) v "_u" [(a : Int), (b : Int)] ps hps]
    exact ofFn_vecOf _ (by rw [List.length_map, hl, hV.u])
  · obtain ⟨a, _, -, h1, rfl⟩ := List.forall₂_cons_right_iff.1 hi
    obtain ⟨b, _, -, h2, rfl⟩ := List.forall₂_cons_right_iff.1 h1
    rw [List.forall₂_nil_right_iff] at h2
    subst h2
    show (epsLayout cfg.nl).flat (fun n i => ((epsLayout cfg.nl).entry ((cfg.optX V).read v "_eps" [a, b]) n).getD i 0) = _
    rw [read_f (cfg.optX V) v "_eps" [(a : Int), (b : Int)] ps hps]
    exact flat_of_entry _ (epsLayout_names cfg hn) _ (by rw [List.length_map, hl])

/-- **C98**: the same for the parameters. -/
theorem C98_opt_p_vector (hV : Ok V d) (v : Nat → K) : cfg.catP V (cfg.ofP V v) = (List.range (cfg.optP V).size).map v := by
  refine cat_ext _ (optP_distinct cfg V) _ (optP_fits cfg V hV _) v ?_
  intro e he i hi ps hps
  have hl := f_length _ (optP_distinct cfg V) e he _ ps hps
  simp only [MpcCfg.optP, List.mem_cons, List.not_mem_nil, or_false] at he
  rcases he with rfl | rfl | rfl | rfl
  · rw [List.forall₂_nil_right_iff] at hi
    subst hi
    show List.ofFn (vecOf ((cfg.optP V).read v "_x0" [])) = _
    rw [read_f (cfg.optP V) v "_x0" [] ps hps]
    exact ofFn_vecOf _ (by rw [List.length_map, hl, hV.x])
  · obtain ⟨a, _, -, h1, rfl⟩ := List.forall₂_cons_right_iff.1 hi
    rw [List.forall₂_nil_right_iff] at h1
    subst h1
    show List.ofFn (vecOf ((cfg.optP V).read v "_tvp" [a])) = _
    rw [read_f (cfg.optP V) v "_tvp" [(a : Int)] ps hps]
    exact ofFn_vecOf _ (by rw [List.length_map, hl, hV.tvp])
  · obtain ⟨a, _, -, h1, rfl⟩ := List.forall₂_cons_right_iff.1 hi
    rw [List.forall₂_nil_right_iff] at h1
    subst h1
    show List.ofFn (vecOf ((cfg.optP V).read v "_p" [a])) = _
    rw [read_f (cfg.optP V) v "_p" [(a : Int)] ps hps]
    exact ofFn_vecOf _ (by rw [List.length_map, hl, hV.p])
  · rw [List.forall₂_nil_right_iff] at hi
    subst hi
    show List.ofFn (vecOf ((cfg.optP V).read v "_u_prev" [])) = _
    rw [read_f (cfg.optP V) v "_u_prev" [] ps hps]
    exact ofFn_vecOf _ (by rw [List.length_map, hl, hV.u])

/-- **C98**: the number of variables that the solver gets. -/
theorem C98_size (hV : Ok V d) : (cfg.optX V).size = (cfg.N + 1) * cfg.nMax * (1 + cfg.ifcn.ncoll) * d.nx + cfg.N * cfg.nMax * max cfg.ifcn.ncoll 1 * d.nz +
    cfg.N * cfg.nU * d.nu + cfg.nEps * cfg.nMax * ((cfg.nl.filter (·.soft)).map (·.dim)).sum := by
  have he : (epsLayout cfg.nl).size = ((cfg.nl.filter (·.soft)).map (·.dim)).sum := by
    unfold epsLayout Layout.size slackVars
    rw [List.map_map]; rfl
  simp only [SStruct.size, MpcCfg.optX, List.map_cons, List.map_nil, List.sum_cons, List.sum_nil, SEntry.size, List.prod_cons, List.prod_nil, he, hV.x, hV.z, hV.u]
  ring

end Back

/-! ### The flat problem -/

section FlatProblem
variable (cfg : MpcCfg K d) (V : VarNames)

theorem bounds_fits (hV : Ok V d) (B : OptXBounds K d) : Fits (cfg.optX V) (B.block cfg.nl) := by
  intro e he i hi
  simp only [MpcCfg.optX, List.mem_cons, List.not_mem_nil, or_false] at he
  rcases he with rfl | rfl | rfl | rfl
  · obtain ⟨a, _, -, h1, rfl⟩ := List.forall₂_cons_right_iff.1 hi
    obtain ⟨b, _, -, h2, rfl⟩ := List.forall₂_cons_right_iff.1 h1
    obtain ⟨c, _, -, h3, rfl⟩ := List.forall₂_cons_right_iff.1 h2
    rw [List.forall₂_nil_right_iff] at h3
    subst h3
    exact (List.length_ofFn).trans hV.x.symm
  · obtain ⟨a, _, -, h1, rfl⟩ := List.forall₂_cons_right_iff.1 hi
    obtain ⟨b, _, -, h2, rfl⟩ := List.forall₂_cons_right_iff.1 h1
    obtain ⟨c, _, -, h3, rfl⟩ := List.forall₂_cons_right_iff.1 h2
    rw [List.forall₂_nil_right_iff] at h3
    subst h3
    exact (List.length_ofFn).trans hV.z.symm
  · obtain ⟨a, _, -, h1, rfl⟩ := List.forall₂_cons_right_iff.1 hi
    obtain ⟨b, _, -, h2, rfl⟩ := List.forall₂_cons_right_iff.1 h1
    rw [List.forall₂_nil_right_iff] at h2
    subst h2
    exact (List.length_ofFn).trans hV.u.symm
  · obtain ⟨a, _, -, h1, rfl⟩ := List.forall₂_cons_right_iff.1 hi
    obtain ⟨b, _, -, h2, rfl⟩ := List.forall₂_cons_right_iff.1 h1
    rw [List.forall₂_nil_right_iff] at h2
    subst h2
    exact layout_flat_length _ _

theorem forall₂_flatMap_iff {α β γ : Type} (P : β → γ → Prop) (l : List α) (f : α → List β) (g : α → List γ) (h : ∀ a ∈ l, (f a).length = (g a).length) :
    List.Forall₂ P (l.flatMap f) (l.flatMap g) ↔ ∀ a ∈ l, List.Forall₂ P (f a) (g a) := by
  induction l with
  | nil => simp
  | cons a l ih =>
    have ih' := ih fun b hb => h b (List.mem_cons_of_mem _ hb)
    have happ : ∀ (a1 a2 : List β) (b1 b2 : List γ), a1.length = b1.length → (List.Forall₂ P (a1 ++ a2) (b1 ++ b2) ↔ List.Forall₂ P a1 b1 ∧ List.Forall₂ P a2 b2) := by
      intro a1
      induction a1 with
      | nil => intro a2 b1 b2 hl; cases b1 with
        | nil => simp
        | cons _ _ => cases hl
      | cons x a1 ih => intro a2 b1 b2 hl; cases b1 with
        | nil => cases hl
        | cons y b1 =>
          rw [List.cons_append, List.cons_append, List.forall₂_cons, List.forall₂_cons, ih a2 b1 b2 (by simpa using hl), and_assoc]
    rw [List.flatMap_cons, List.flatMap_cons, happ _ _ _ _ (h a (by simp)), ih', List.forall_mem_cons]

theorem forall₂_ofFn_iff {β γ : Type} (P : β → γ → Prop) {n : Nat} (f : Fin n → β) (g : Fin n → γ) :
    List.Forall₂ P (List.ofFn f) (List.ofFn g) ↔ ∀ j, P (f j) (g j) := by
  induction n with
  | zero => simp [Fin.forall_iff]
  | succ n ih => rw [List.ofFn_succ, List.ofFn_succ, List.forall₂_cons, ih, Fin.forall_fin_succ]

theorem forall₂_map_range {β γ : Type} (P : β → γ → Prop) (n : Nat) (f : Nat → β) (g : Nat → γ) :
    List.Forall₂ P ((List.range n).map f) ((List.range n).map g) ↔ ∀ i < n, P (f i) (g i) := by
  rw [List.forall₂_map_left_iff, List.forall₂_map_right_iff, List.forall₂_same]
  simp

/-- the bounds of one side, flat and structured -/
theorem side_bounds (hV : Ok V d) (hn : (cfg.nl.map (·.name)).Nodup) (P : Bound K → K → Prop) (B : OptXBounds K d) (v : Nat → K) :
    List.Forall₂ P ((cfg.optX V).cat (B.block cfg.nl)) ((List.range (cfg.optX V).size).map v) ↔
      (∀ k ≤ cfg.N, ∀ s < cfg.nMax, ∀ i ≤ cfg.ifcn.ncoll, ∀ j, P (B.x k s i j) ((cfg.ofX V v).x k s i j)) ∧
      (∀ k < cfg.N, ∀ s < cfg.nMax, ∀ i < max cfg.ifcn.ncoll 1, ∀ j, P (B.z k s i j) ((cfg.ofX V v).z k s i j)) ∧
      (∀ k < cfg.N, ∀ s < cfg.nU, ∀ j, P (B.u k s j) ((cfg.ofX V v).u k s j)) ∧
      ∀ k < cfg.nEps, ∀ s < cfg.nMax, ∀ sl ∈ cfg.nl, sl.soft = true → ∀ i < sl.dim, P (B.eps k s sl.name i) ((cfg.ofX V v).eps k s sl.name i) := by
  rw [← C98_opt_x_vector cfg V hV hn v]
  unfold MpcCfg.catX SStruct.cat
  have hf1 := bounds_fits cfg V hV B
  have hf2 := optX_fits cfg V hV (cfg.ofX V v)
  have hlen : ∀ e ∈ cfg.optX V, ∀ i ∈ multi e.rep, (B.block cfg.nl e.name i).length = ((cfg.ofX V v).block cfg.nl e.name i).length := fun e he i hi =>
    (hf1 e he i ((mem_multi _ _).1 hi)).trans (hf2 e he i ((mem_multi _ _).1 hi)).symm
  rw [forall₂_flatMap_iff P _ _ _ fun e he => by
    rw [List.length_flatMap, List.length_flatMap, List.map_congr_left fun i hi => hlen e he i hi]]
  rw [show (∀ e ∈ cfg.optX V, List.Forall₂ P ((multi e.rep).flatMap fun i => B.block cfg.nl e.name i) ((multi e.rep).flatMap fun i => (cfg.ofX V v).block cfg.nl e.name i)) ↔
    ∀ e ∈ cfg.optX V, ∀ i, List.Forall₂ (fun a n => a < n) i e.rep → List.Forall₂ P (B.block cfg.nl e.name i) ((cfg.ofX V v).block cfg.nl e.name i) from
    forall₂_congr fun e he => by
      rw [forall₂_flatMap_iff P _ _ _ (hlen e he)]
      exact forall_congr' fun i => by rw [mem_multi]]
  simp only [MpcCfg.optX, List.forall_mem_cons, List.not_mem_nil, false_imp_iff, implies_true, and_true]
  have three : ∀ (Q : List Nat → Prop) (a b c : Nat), (∀ i, List.Forall₂ (fun a n => a < n) i [a, b, c] → Q i) ↔ ∀ k < a, ∀ s < b, ∀ i < c, Q [k, s, i] := by
    intro Q a b c
    constructor
    · intro h k hk s hs i hi
      exact h _ (.cons hk (.cons hs (.cons hi .nil)))
    · intro h i hi
      obtain ⟨x, _, hx, h1, rfl⟩ := List.forall₂_cons_right_iff.1 hi
      obtain ⟨y, _, hy, h2, rfl⟩ := List.forall₂_cons_right_iff.1 h1
      obtain ⟨z, _, hz, h3, rfl⟩ := List.forall₂_cons_right_iff.1 h2
      rw [List.forall₂_nil_right_iff] at h3
      subst h3
      exact h _ hx _ hy _ hz
  have two : ∀ (Q : List Nat → Prop) (a b : Nat), (∀ i, List.Forall₂ (fun a n => a < n) i [a, b] → Q i) ↔ ∀ k < a, ∀ s < b, Q [k, s] := by
    intro Q a b
    constructor
    · intro h k hk s hs
      exact h _ (.cons hk (.cons hs .nil))
    · intro h i hi
      obtain ⟨x, _, hx, h1, rfl⟩ := List.forall₂_cons_right_iff.1 hi
      obtain ⟨y, _, hy, h2, rfl⟩ := List.forall₂_cons_right_iff.1 h1
      rw [List.forall₂_nil_right_iff] at h2
      subst h2
      exact h _ hx _ hy
  rw [three, three, two, two]
  refine and_congr ?_ (and_congr ?_ (and_congr ?_ ?_))
  · constructor
    · intro h k hk s hs i hi
      exact (forall₂_ofFn_iff P _ _).1 (h k (by omega) s hs i (by omega))
    · intro h k hk s hs i hi
      exact (forall₂_ofFn_iff P _ _).2 (h k (by omega) s hs i (by omega))
  · exact forall₂_congr fun k _ => forall₂_congr fun s _ => forall₂_congr fun i _ => forall₂_ofFn_iff P _ _
  · exact forall₂_congr fun k _ => forall₂_congr fun s _ => forall₂_ofFn_iff P _ _
  · refine forall₂_congr fun k _ => forall₂_congr fun s _ => ?_
    show List.Forall₂ P ((epsLayout cfg.nl).flat (B.eps k s)) ((epsLayout cfg.nl).flat ((cfg.ofX V v).eps k s)) ↔ _
    unfold Layout.flat
    rw [forall₂_flatMap_iff P _ _ _ fun e _ => by simp]
    constructor
    · intro h sl hsl hso
      exact (forall₂_map_range P _ _ _).1 (h _ (epsLayout_mem cfg sl hsl hso))
    · intro h e he
      obtain ⟨sl, hsl, rfl⟩ := List.mem_map.1 he
      obtain ⟨h1, h2⟩ := (slackVars_mem _ _).1 hsl
      exact (forall₂_map_range P _ _ _).2 (h sl h1 h2)

theorem forall_getD_iff (P : Bound K → K → Prop) (l : List (Bound K)) (v : Nat → K) (a : Bound K) :
    List.Forall₂ P l ((List.range l.length).map v) ↔ ∀ i < l.length, P (l.getD i a) (v i) := by
  rw [← forall₂_map_range P l.length (fun i => l.getD i a) v]
  rw [show (List.range l.length).map (fun i => l.getD i a) = l from ?_]
  refine List.ext_getElem (by simp) fun i h1 h2 => ?_
  simp [List.getD_eq_getElem?_getD, h2]

/-- **C98**: a vector is a feasible point of the problem that the solver gets if and only if the structure that do-mpc reads from it is feasible. -/
theorem C98_flat_feasible (hV : Ok V d) (hn : (cfg.nl.map (·.name)).Nodup) (v q : Nat → K) :
    cfg.FlatFeasible V v q ↔ cfg.Feasible (cfg.ofX V v) (cfg.ofP V q) := by
  unfold MpcCfg.FlatFeasible MpcCfg.Feasible MpcCfg.flatRows
  refine and_congr Iff.rfl ?_
  have h1 := side_bounds cfg V hV hn Bound.le cfg.lbx v
  have h2 := side_bounds cfg V hV hn Bound.ge cfg.ubx v
  have l1 : (cfg.flatLb V).length = (cfg.optX V).size := cat_length _ _ (bounds_fits cfg V hV _)
  have l2 : (cfg.flatUb V).length = (cfg.optX V).size := cat_length _ _ (bounds_fits cfg V hV _)
  have e1 := forall_getD_iff Bound.le (cfg.flatLb V) v .ninf
  have e2 := forall_getD_iff Bound.ge (cfg.flatUb V) v .pinf
  rw [l1] at e1
  rw [l2] at e2
  rw [show (∀ i < (cfg.optX V).size, ((cfg.flatLb V).getD i .ninf).le (v i) ∧ ((cfg.flatUb V).getD i .pinf).ge (v i)) ↔
    (∀ i < (cfg.optX V).size, ((cfg.flatLb V).getD i .ninf).le (v i)) ∧ ∀ i < (cfg.optX V).size, ((cfg.flatUb V).getD i .pinf).ge (v i) from
    ⟨fun h => ⟨fun i hi => (h i hi).1, fun i hi => (h i hi).2⟩, fun h i hi => ⟨h.1 i hi, h.2 i hi⟩⟩, ← e1, ← e2]
  unfold MpcCfg.flatLb MpcCfg.flatUb
  rw [h1, h2]
  unfold MpcCfg.InBounds
  have hz : ∀ i, i < max cfg.ifcn.ncoll 1 ↔ i ≤ cfg.zLast := fun i => by unfold MpcCfg.zLast; omega
  constructor
  · rintro ⟨⟨a1, a2, a3, a4⟩, b1, b2, b3, b4⟩
    refine ⟨fun k hk s hs i hi j => ⟨a1 k hk s hs i hi j, b1 k hk s hs i hi j⟩, fun k hk s hs i hi j => ⟨a2 k hk s hs i ((hz i).2 hi) j, b2 k hk s hs i ((hz i).2 hi) j⟩,
      fun k hk s hs j => ⟨a3 k hk s hs j, b3 k hk s hs j⟩, fun k hk s hs sl hsl i hi => ?_⟩
    obtain ⟨c1, c2⟩ := (slackVars_mem _ _).1 hsl
    exact ⟨a4 k hk s hs sl c1 c2 i hi, b4 k hk s hs sl c1 c2 i hi⟩
  · rintro ⟨c1, c2, c3, c4⟩
    refine ⟨⟨fun k hk s hs i hi j => (c1 k hk s hs i hi j).1, fun k hk s hs i hi j => (c2 k hk s hs i ((hz i).1 hi) j).1, fun k hk s hs j => (c3 k hk s hs j).1,
      fun k hk s hs sl h1 h2 i hi => (c4 k hk s hs sl ((slackVars_mem _ _).2 ⟨h1, h2⟩) i hi).1⟩, fun k hk s hs i hi j => (c1 k hk s hs i hi j).2,
      fun k hk s hs i hi j => (c2 k hk s hs i ((hz i).1 hi) j).2, fun k hk s hs j => (c3 k hk s hs j).2,
      fun k hk s hs sl h1 h2 i hi => (c4 k hk s hs sl ((slackVars_mem _ _).2 ⟨h1, h2⟩) i hi).2⟩

theorem inBounds_congr (w w' : OptX K d) (hw : SameEntries cfg w w') : cfg.InBounds w → cfg.InBounds w' := by
  rintro ⟨c1, c2, c3, c4⟩
  have hz : ∀ i, i < max cfg.ifcn.ncoll 1 ↔ i ≤ cfg.zLast := fun i => by unfold MpcCfg.zLast; omega
  refine ⟨fun k hk s hs i hi j => ?_, fun k hk s hs i hi j => ?_, fun k hk s hs j => ?_, fun k hk s hs sl hsl i hi => ?_⟩
  · rw [← hw.x k hk s hs i hi]; exact c1 k hk s hs i hi j
  · rw [← hw.z k hk s hs i ((hz i).2 hi)]; exact c2 k hk s hs i hi j
  · rw [← hw.u k hk s hs]; exact c3 k hk s hs j
  · obtain ⟨h1, h2⟩ := (slackVars_mem _ _).1 hsl
    rw [← hw.eps k hk s hs sl h1 h2 i hi]
    exact c4 k hk s hs sl hsl i hi

theorem SameEntries.rfl (w : OptX K d) : SameEntries cfg w w :=
  ⟨fun _ _ _ _ _ _ => Eq.refl _, fun _ _ _ _ _ _ => Eq.refl _, fun _ _ _ _ => Eq.refl _, fun _ _ _ _ _ _ _ _ _ => Eq.refl _⟩

theorem SameEntries.symm {w w' : OptX K d} (h : SameEntries cfg w w') : SameEntries cfg w' w :=
  ⟨fun k hk s hs i hi => (h.x k hk s hs i hi).symm, fun k hk s hs i hi => (h.z k hk s hs i hi).symm, fun k hk s hs => (h.u k hk s hs).symm,
    fun k hk s hs sl h1 h2 i hi => (h.eps k hk s hs sl h1 h2 i hi).symm⟩

/-- **C98**: the problem that the solver gets and the problem that do-mpc states have the same feasible points with the same cost: every point of the
structured problem has a vector, every vector is that of a point. -/
theorem C98_same_problem (hc : 0 < cfg.c) (hV : Ok V d) (hn : (cfg.nl.map (·.name)).Nodup) (hI : OwnPoints cfg.ifcn) (w : OptX K d) (q : OptP K d) :
    (cfg.FlatFeasible V (fun p => (cfg.catX V w).getD p 0) (fun p => (cfg.catP V q).getD p 0) ↔ cfg.Feasible w q) ∧
      cfg.flatObj V (fun p => (cfg.catX V w).getD p 0) (fun p => (cfg.catP V q).getD p 0) = cfg.obj w q := by
  have hw := C98_opt_x_round_trip cfg V hV hn w
  have hq := C98_opt_p_round_trip cfg V hV q
  rw [C98_flat_feasible cfg V hV hn]
  refine ⟨and_congr ?_ ⟨inBounds_congr cfg _ _ hw, inBounds_congr cfg _ _ (SameEntries.symm cfg hw)⟩, C98_obj_congr cfg hc hn _ _ _ _ hw hq⟩
  rw [C98_rows_congr cfg hc hn _ _ _ _ hw hq hI]

/-- **C98**: what the solver returns.  If the vector `v` is feasible and no feasible vector costs less, then the point that do-mpc reads from it is feasible and no
feasible point costs less. -/
theorem C98_minimiser (hc : 0 < cfg.c) (hV : Ok V d) (hn : (cfg.nl.map (·.name)).Nodup) (hI : OwnPoints cfg.ifcn) (q : OptP K d) (v : Nat → K) :
    (cfg.FlatFeasible V v (fun p => (cfg.catP V q).getD p 0) ∧ ∀ v', cfg.FlatFeasible V v' (fun p => (cfg.catP V q).getD p 0) →
      cfg.flatObj V v (fun p => (cfg.catP V q).getD p 0) ≤ cfg.flatObj V v' (fun p => (cfg.catP V q).getD p 0)) ↔
    cfg.Feasible (cfg.ofX V v) q ∧ ∀ w, cfg.Feasible w q → cfg.obj (cfg.ofX V v) q ≤ cfg.obj w q := by
  have hq := C98_opt_p_round_trip cfg V hV q
  have hF : ∀ v', cfg.FlatFeasible V v' (fun p => (cfg.catP V q).getD p 0) ↔ cfg.Feasible (cfg.ofX V v') q := by
    intro v'
    rw [C98_flat_feasible cfg V hV hn]
    unfold MpcCfg.Feasible
    rw [C98_rows_congr cfg hc hn _ _ _ _ (SameEntries.rfl cfg (cfg.ofX V v')) hq hI]
  have hO : ∀ v', cfg.flatObj V v' (fun p => (cfg.catP V q).getD p 0) = cfg.obj (cfg.ofX V v') q := fun v' =>
    C98_obj_congr cfg hc hn _ _ _ _ (SameEntries.rfl cfg (cfg.ofX V v')) hq
  simp only [hF, hO]
  refine and_congr_right fun _ => ⟨fun h w hw => ?_, fun h v' hv' => h _ hv'⟩
  have hr := C98_opt_x_round_trip cfg V hV hn w
  have hq' : SameParams cfg q q := ⟨rfl, fun _ _ => rfl, fun _ _ => rfl, rfl⟩
  have := h (fun p => (cfg.catX V w).getD p 0) ⟨by rw [C98_rows_congr cfg hc hn _ _ _ _ hr hq' hI]; exact hw.1, inBounds_congr cfg _ _ (SameEntries.symm cfg hr) hw.2⟩
  rwa [C98_obj_congr cfg hc hn _ _ _ _ hr hq'] at this

/-- the discrete integrator reads only its block -/
theorem discrete_ownPoints (m : DaeModel K d) (sx : Vec K d.nx) (su : Vec K d.nu) (sz : Vec K d.nz) (sp : Vec K d.np) : OwnPoints (discreteIfcn m sx su sz sp) := by
  intro x xs xs' u zs zs' tv p w _ hz
  have h0 := hz 0 (lt_of_lt_of_le one_pos (le_max_right _ _))
  unfold discreteIfcn
  dsimp only
  rw [h0]
  exact ⟨rfl, rfl⟩

/-- the integrator of the collocation reads only its points -/
theorem collocation_ownPoints (m : DaeModel K d) (sx : Vec K d.nx) (su : Vec K d.nu) (sz : Vec K d.nz) (sp : Vec K d.np) (deg ni : Nat) (tau : Nat → K) (tStep : K)
    (I : Ifcn K d) (h : setupCollocation m sx su sz sp deg ni tau tStep = .ok I) : OwnPoints I := by
  obtain ⟨hni, hnc, hxf, hg⟩ := setupCollocation_ok m sx su sz sp deg ni tau tStep I h
  obtain ⟨n, rfl⟩ : ∃ n, ni = n + 1 := ⟨ni - 1, by omega⟩
  obtain ⟨-, -, -, h4, h5⟩ := alloc_run d.nx d.nz deg n
  intro x xs xs' u zs zs' tv p w hx hz
  rw [hnc] at hx hz
  have hlt : ∀ i j, i < n + 1 → j < deg + 1 → i * (deg + 1) + j < (deg + 1) * (n + 1) := by
    intro i j hi hj
    have : (i + 1) * (deg + 1) ≤ (n + 1) * (deg + 1) := Nat.mul_le_mul_right _ hi
    rw [Nat.mul_comm (deg + 1)]
    rw [Nat.add_mul, Nat.one_mul] at this
    omega
  have hlast : xs ((n + 1) * (deg + 1) - 1) = xs' ((n + 1) * (deg + 1) - 1) := by
    refine hx _ ?_
    have : 0 < (n + 1) * (deg + 1) := Nat.mul_pos (by omega) (by omega)
    rw [Nat.mul_comm (deg + 1)]
    omega
  refine ⟨?_, by rw [hxf, hxf, hlast]⟩
  have hik : ∀ i j, i < n + 1 → j < deg + 1 → ((Alloc.run d.nx d.nz deg (n + 1)).ik i j).value x xs = ((Alloc.run d.nx d.nz deg (n + 1)).ik i j).value x xs' := by
    intro i j hi hj
    rw [h4 i j hi hj]
    split_ifs
    · rfl
    · show sliceAt xs _ = sliceAt xs' _
      rw [sliceAt_mul, sliceAt_mul]
      exact hx _ (by have := hlt i j hi hj; omega)
  have hzk : ∀ i j, i < n + 1 → j < deg + 1 → ((Alloc.run d.nx d.nz deg (n + 1)).zk i j).value 0 zs = ((Alloc.run d.nx d.nz deg (n + 1)).zk i j).value 0 zs' := by
    intro i j hi hj
    rw [h5 i j hi hj]
    show sliceAt zs _ = sliceAt zs' _
    rw [sliceAt_mul, sliceAt_mul]
    exact hz _ (lt_of_lt_of_le (hlt i j hi hj) (le_max_left _ _))
  rw [hg, hg, hlast]
  unfold collRows
  dsimp only
  refine List.flatMap_congr fun i hi => ?_
  have hi' := List.mem_range.1 hi
  have hfold : ∀ (c : Nat → K), (List.range (deg + 1)).foldl (fun acc r => acc + c r • ((Alloc.run d.nx d.nz deg (n + 1)).ik i r).value x xs) (0 : Vec K d.nx) =
      (List.range (deg + 1)).foldl (fun acc r => acc + c r • ((Alloc.run d.nx d.nz deg (n + 1)).ik i r).value x xs') 0 := by
    intro c
    refine List.foldl_ext _ _ _ fun acc r hr => ?_
    rw [hik i r hi' (List.mem_range.1 hr)]
  rw [hik i 0 hi' (by omega), hzk i 0 hi' (by omega), hfold (collD deg tau)]
  refine congrArg₂ _ (congrArg₂ _ rfl (List.flatMap_congr fun j hj => ?_)) ?_
  · have hj' : j < deg + 1 := by
      rw [List.mem_range'_1] at hj
      omega
    rw [hik i j hi' hj', hzk i j hi' hj', hfold fun r => collC deg tau r j]
  · by_cases hl : i + 1 < n + 1
    · rw [if_pos hl, if_pos hl, hik (i + 1) 0 hl (by omega)]
    · rw [if_neg hl, if_neg hl]

/-- **C98**: multiplying the solver's vector by the vector of scaling factors unscales every variable. -/
theorem C98_unscaled (hV : Ok V d) (hn : (cfg.nl.map (·.name)).Nodup) (v : Nat → K) :
    SameEntries cfg (cfg.ofX V fun i => v i * cfg.scalingFlat V i) (cfg.unscaled (cfg.ofX V v)) := by
  have hs := C98_opt_x_round_trip cfg V hV hn cfg.scalingX
  have hmul : ∀ nm idx, (cfg.optX V).read (fun i => v i * cfg.scalingFlat V i) nm idx =
      List.zipWith (· * ·) ((cfg.optX V).read v nm idx) ((cfg.optX V).read (cfg.scalingFlat V) nm idx) := by
    intro nm idx
    unfold SStruct.read
    rw [List.zipWith_map, List.zipWith_self]
  have hvec : ∀ {n : Nat} (a b : List K), (vecOf (List.zipWith (· * ·) a b) : Vec K n) = vecOf a * vecOf b := by
    intro n a b
    funext j
    simp only [vecOf, Pi.mul_apply, List.getD_eq_getElem?_getD, List.getElem?_zipWith]
    rcases a[(j : Nat)]? with _ | x <;> rcases b[(j : Nat)]? with _ | y <;> simp
  refine ⟨fun k hk s hs' i hi => ?_, fun k hk s hs' i hi => ?_, fun k hk s hs' => ?_, fun k hk s hs' sl hsl hso i hi => ?_⟩
  · show vecOf _ = (vecOf _ : Vec K d.nx) * cfg.sx
    rw [hmul, hvec]
    exact congrArg _ (hs.x k hk s hs' i hi)
  · show vecOf _ = (vecOf _ : Vec K d.nz) * cfg.sz
    rw [hmul, hvec]
    exact congrArg _ (hs.z k hk s hs' i hi)
  · show vecOf _ = (vecOf _ : Vec K d.nu) * cfg.su
    rw [hmul, hvec]
    exact congrArg _ (hs.u k hk s hs')
  · have h1 : ((epsLayout cfg.nl).entry ((cfg.optX V).read (cfg.scalingFlat V) "_eps" [(k : Int), (s : Int)]) sl.name).getD i 0 = 1 := hs.eps k hk s hs' sl hsl hso i hi
    show ((epsLayout cfg.nl).entry ((cfg.optX V).read _ "_eps" [(k : Int), (s : Int)]) sl.name).getD i 0 =
      ((epsLayout cfg.nl).entry ((cfg.optX V).read v "_eps" [(k : Int), (s : Int)]) sl.name).getD i 0
    rw [hmul]
    have hent : ∀ (L : Layout) (a b : List K), L.entry (List.zipWith (· * ·) a b) sl.name = List.zipWith (· * ·) (L.entry a sl.name) (L.entry b sl.name) := by
      intro L
      induction L with
      | nil => intro a b; rfl
      | cons e L ih =>
        intro a b
        rw [Layout.entry, Layout.entry, Layout.entry]
        split_ifs
        · rw [List.take_zipWith]
        · rw [List.drop_zipWith, ih]
    rw [hent]
    rw [List.getD_eq_getElem?_getD] at h1 ⊢
    rw [List.getD_eq_getElem?_getD, List.getElem?_zipWith]
    generalize ((epsLayout cfg.nl).entry ((cfg.optX V).read (cfg.scalingFlat V) "_eps" [(k : Int), (s : Int)]) sl.name)[i]? = o at h1 ⊢
    rcases o with _ | y
    · exact absurd h1 (by simp)
    · have hy : y = 1 := h1
      subst hy
      rcases ((epsLayout cfg.nl).entry ((cfg.optX V).read v "_eps" [(k : Int), (s : Int)]) sl.name)[i]? with _ | x <;> simp

end FlatProblem
end DoMpc
