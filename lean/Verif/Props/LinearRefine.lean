import Verif.Props.LinearModel

/-!
# C31: `LinearModel` is a `Model`

`LinearModel.setup` configures a `Model` through `set_rhs` and `set_meas` and calls its `setup`.  Here the model of `LinearModel`, which works with
affine rows, is related to the model of `Model`, which knows nothing about linearity.
-/
set_option linter.unusedSectionVars false
namespace DoMpc
open Matrix Spec
section
variable {K : Type} [Field K] [LinearOrder K] [IsStrictOrderedRing K]
variable {nx nu : Nat}

/-- affine rows as an expression in the variables of a model with the given states and inputs -/
def AffExpr.toExpr (states inputs : Layout) (e : AffExpr K nx nu) : MExpr K where
  rows := e.length
  eval := fun val i => match e[i]? with
    | some r => (∑ j : Fin nx, r.a j * (states.flat (val .x)).getD j 0) + (∑ j : Fin nu, r.b j * (inputs.flat (val .u)).getD j 0) + r.c
    | none => 0

/-- The calls that configure a linear model as a `Model` (`_linearmodel.py:136-162`): everything gets noise. -/
def linCalls (states inputs : Layout) (rhs meas : List (String × AffExpr K nx nu)) : List (MOp K) :=
  states.map (fun s => .setVar "_x" s.1 s.2) ++ inputs.map (fun s => .setVar "_u" s.1 s.2) ++
  rhs.map (fun c => .setRhs c.1 (c.2.toExpr states inputs) true) ++ meas.map (fun c => .setMeas c.1 (c.2.toExpr states inputs) true)

/-! ## lemmas -/

theorem flat_of_entry (L : Layout) (hn : (L.map (·.1)).Nodup) (f : List K) (hf : f.length = L.size) :
    L.flat (fun n i => (L.entry f n).getD i 0) = f := by
  induction L generalizing f with
  | nil => simp [Layout.size] at hf; subst hf; rfl
  | cons e L ih =>
    obtain ⟨n, s⟩ := e
    rw [List.map_cons, List.nodup_cons] at hn
    have hs : f.length = s + Layout.size L := by simpa [Layout.size] using hf
    rw [flat_cons]
    have h1 : (List.range s).map (fun i => ((Layout.entry ((n, s) :: L) f n)).getD i 0) = f.take s := by
      simp only [Layout.entry, if_pos]
      apply List.ext_getElem
      · simp; omega
      · intro i h1 h2
        simp at h1 h2
        simp [List.getD_eq_getElem?_getD, h1, h2.2]
    have h2 : Layout.flat L (fun m i => (Layout.entry ((n, s) :: L) f m).getD i 0) = Layout.flat L (fun m i => (Layout.entry L (f.drop s) m).getD i 0) := by
      unfold Layout.flat
      refine List.flatMap_congr fun e he => ?_
      refine List.map_congr_left fun i _ => ?_
      have : n ≠ e.1 := fun h => hn.1 (List.mem_map.2 ⟨e, he, h.symm⟩)
      simp only [Layout.entry, if_neg this]
    rw [h1, h2, ih hn.2 (f.drop s) (by simp; omega), List.take_append_drop]

theorem flat_congr_entry (L : Layout) (hn : (L.map (·.1)).Nodup) (f g : List K) (hf : f.length = L.size) (hg : g.length = L.size)
    (h : ∀ s ∈ L, L.entry f s.1 = L.entry g s.1) : f = g := by
  rw [← flat_of_entry L hn f hf, ← flat_of_entry L hn g hg]
  unfold Layout.flat
  refine List.flatMap_congr fun e he => ?_
  refine List.map_congr_left fun i _ => ?_
  dsimp only
  rw [h e he]

theorem assemble_ok (l : List (String × AffExpr K nx nu)) (states : List (String × Nat)) (f : AffExpr K nx nu) (h : assemble l states = .ok f) :
    (∀ s ∈ states, l.reverse.lookup s.1 = some ((l.reverse.lookup s.1).getD []) ∧ ((l.reverse.lookup s.1).getD []).length = s.2) ∧
    f = states.flatMap fun s => (l.reverse.lookup s.1).getD [] := by
  induction states generalizing f with
  | nil => simp only [assemble, Except.ok.injEq] at h; subst h; simp
  | cons s states ih =>
    unfold assemble at h
    cases h1 : lastRhs l s.1 with
    | none => simp [h1] at h
    | some e =>
      simp only [h1] at h
      split at h
      · rename_i hl
        cases h2 : assemble l states with
        | error e' => simp [h2, Except.map] at h
        | ok g =>
          simp only [h2, Except.map, Except.ok.injEq] at h
          obtain ⟨k1, k2⟩ := ih g h2
          have h1' : l.reverse.lookup s.1 = some e := h1
          subst h
          refine ⟨fun s' hs' => ?_, ?_⟩
          · rcases List.mem_cons.1 hs' with rfl | hs'
            · rw [h1']; exact ⟨rfl, hl⟩
            · exact k1 s' hs'
          · rw [List.flatMap_cons, h1', ← k2]; rfl
      · cases h

theorem runOps_append (B : Builder K) (a b : List (MOp K)) (B' : Builder K) (h : B.runOps a = .ok B') : B.runOps (a ++ b) = B'.runOps b := by
  induction a generalizing B with
  | nil => simp only [Builder.runOps, Except.ok.injEq] at h; subst h; rfl
  | cons o a ih =>
    simp only [List.cons_append, Builder.runOps] at h ⊢
    cases he : B.exec o with
    | error e => simp [he] at h
    | ok B1 => simp only [he] at h ⊢; exact ih B1 h

theorem runOps_x (L : Layout) (B : Builder K) (h : ((B.x ++ L).map (·.1)).Nodup) :
    B.runOps (L.map fun s => .setVar "_x" s.1 s.2) = .ok { B with x := B.x ++ L } := by
  have hk : varKind "_x" = some .x := by decide +kernel
  induction L generalizing B with
  | nil => simp [Builder.runOps]
  | cons e L ih =>
    have hne : e.1 ∉ B.x.map (·.1) := by
      rw [List.map_append, List.nodup_append] at h
      intro hm
      exact h.2.2 _ hm e.1 (by simp) rfl
    have he : B.exec (.setVar "_x" e.1 e.2) = .ok { B with x := B.x ++ [e] } := by
      simp only [Builder.exec, Builder.setVar, hk]
      exact if_neg hne
    simp only [List.map_cons, Builder.runOps, he]
    rw [ih { B with x := B.x ++ [e] } (by simpa using h)]
    simp

theorem runOps_u (L : Layout) (B : Builder K) (h : ((B.u ++ L).map (·.1)).Nodup) :
    B.runOps (L.map fun s => .setVar "_u" s.1 s.2) = .ok { B with u := B.u ++ L } := by
  have hk : varKind "_u" = some .u := by decide +kernel
  induction L generalizing B with
  | nil => simp [Builder.runOps]
  | cons e L ih =>
    have hne : e.1 ∉ B.u.map (·.1) := by
      rw [List.map_append, List.nodup_append] at h
      intro hm
      exact h.2.2 _ hm e.1 (by simp) rfl
    have he : B.exec (.setVar "_u" e.1 e.2) = .ok { B with u := B.u ++ [e] } := by
      simp only [Builder.exec, Builder.setVar, hk]
      exact if_neg hne
    simp only [List.map_cons, Builder.runOps, he]
    rw [ih { B with u := B.u ++ [e] } (by simpa using h)]
    simp

theorem runOps_rhs (states inputs : Layout) (l : List (String × AffExpr K nx nu)) (B : Builder K) (h : ∀ c ∈ l, c.1 ∈ B.x.map (·.1)) :
    ∃ B', B.runOps (l.map fun c => .setRhs c.1 (c.2.toExpr states inputs) true) = .ok B' := by
  induction l generalizing B with
  | nil => exact ⟨_, rfl⟩
  | cons c l ih =>
    simp only [List.map_cons, Builder.runOps, Builder.exec, Builder.setRhs, if_pos (h c (by simp)), if_true]
    exact ih _ fun c' hc' => h c' (by simp [hc'])

theorem runOps_meas (states inputs : Layout) (l : List (String × AffExpr K nx nu)) (B : Builder K) :
    ∃ B', B.runOps (l.map fun c => .setMeas c.1 (c.2.toExpr states inputs) true) = .ok B' := by
  induction l generalizing B with
  | nil => exact ⟨_, rfl⟩
  | cons c l ih =>
    simp only [List.map_cons, Builder.runOps, Builder.exec]
    exact ih _

theorem linCalls_run (states inputs : Layout) (rhs meas : List (String × AffExpr K nx nu)) (hs : (states.map (·.1)).Nodup)
    (hi : ("default" :: inputs.map (·.1)).Nodup) (hr : ∀ c ∈ rhs, c.1 ∈ states.map (·.1)) :
    ∃ B, ({} : Builder K).runOps (linCalls states inputs rhs meas) = .ok B := by
  unfold linCalls
  rw [List.append_assoc, List.append_assoc, runOps_append _ _ _ _ (runOps_x states {} (by simpa using hs)), 
    runOps_append _ _ _ _ (runOps_u inputs _ (by simpa using hi))]
  obtain ⟨B1, h1⟩ := runOps_rhs states inputs rhs ({ ({} : Builder K) with x := [] ++ states, u := [("default", 0)] ++ inputs } : Builder K) (by simpa using hr)
  rw [runOps_append _ _ _ _ h1]
  exact runOps_meas states inputs meas B1

theorem linCalls_spec (states inputs : Layout) (rhs meas : List (String × AffExpr K nx nu)) :
    declared .x (linCalls states inputs rhs meas) = states ∧ declared .u (linCalls states inputs rhs meas) = inputs ∧
    declared .z (linCalls states inputs rhs meas) = [] ∧ declared .tvp (linCalls states inputs rhs meas) = [] ∧
    declared .p (linCalls states inputs rhs meas) = [] ∧
    rhsCalls (linCalls states inputs rhs meas) = rhs.map (fun c => (c.1, c.2.toExpr states inputs, true)) ∧
    measCalls (linCalls states inputs rhs meas) = meas.map (fun c => (c.1, c.2.toExpr states inputs, true)) ∧
    algCalls (linCalls states inputs rhs meas) = [] ∧ exprCalls (linCalls states inputs rhs meas) = [] := by
  have hx : ∀ k, (("_x", k) ∈ acceptedTypes ↔ k = .x) ∧ (("_u", k) ∈ acceptedTypes ↔ k = .u) := by intro k; cases k <;> decide
  have nil : ∀ {α β : Type} (l : List α), l.filterMap (fun _ => (none : Option β)) = [] := by intro α β l; induction l <;> simp_all
  simp [linCalls, declared, rhsCalls, measCalls, algCalls, exprCalls, List.filterMap_append, List.filterMap_map, Function.comp_def, hx, nil]

theorem flat_eq_of_declared (L : Layout) (v v' : String → Nat → K) (h : ∀ e ∈ L, ∀ i < e.2, v e.1 i = v' e.1 i) : L.flat v = L.flat v' := by
  unfold Layout.flat
  refine List.flatMap_congr fun e he => List.map_congr_left fun i hi => h e he i (List.mem_range.1 hi)

theorem toExpr_usesDeclared (states inputs : Layout) (rhs meas : List (String × AffExpr K nx nu)) (e : AffExpr K nx nu) :
    UsesDeclared (linCalls states inputs rhs meas) (e.toExpr states inputs) := by
  obtain ⟨hx, hu, -⟩ := linCalls_spec states inputs rhs meas
  intro v v' h i _
  have h1 := flat_eq_of_declared states (v .x) (v' .x) fun e he i hi => h .x e.1 e.2 (by rw [hx]; exact he) i hi
  have h2 := flat_eq_of_declared inputs (v .u) (v' .u) fun e he i hi => h .u e.1 e.2 (by rw [hu]; exact he) i hi
  simp only [AffExpr.toExpr, h1, h2]

theorem toExpr_values (states inputs : Layout) (e : AffExpr K nx nu) (val : MVal K) (x : Vec K nx) (u : Vec K nu)
    (hx : states.flat (val .x) = List.ofFn x) (hu : inputs.flat (val .u) = List.ofFn u) :
    (List.range e.length).map ((e.toExpr states inputs).eval val) = e.map fun r => r.a ⬝ᵥ x + r.b ⬝ᵥ u + r.c := by
  apply List.ext_getElem
  · simp
  · intro i h1 h2
    simp at h1
    simp [AffExpr.toExpr, h1, hx, hu, dotProduct, List.getD_eq_getElem?_getD]

theorem withNoise_zero (n : String) (e : MExpr K) (b : Bool) (val : MVal K) : withNoise (n, e, b) val (fun _ _ => (0 : K)) = e.eval val := by
  funext i; simp [withNoise]

theorem flat_zero (L : Layout) : Layout.flat L (fun _ _ => (0 : K)) = List.replicate L.size 0 := by
  rw [List.eq_replicate_iff]
  refine ⟨flat_length L _, ?_⟩
  intro b hb
  simp only [Layout.flat, List.mem_flatMap, List.mem_map] at hb
  obtain ⟨_, _, _, _, rfl⟩ := hb
  rfl

/-- **C31 (refinement).**  Whenever `LinearModel.setup` succeeds, the `Model` configured by the corresponding calls — declare the states and inputs,
`set_rhs` for the equations of the user and for the rows of `A x + B u`, `set_meas` for the measurements of the user and for `C x + D u`, all with
noise — is set up successfully too, and without noise its functions are those of the linear model, at every state and input. -/
theorem C31_setup_refines_model (b : LinBuilder K nx nu) (inputs : Layout) (hn : (b.states.map (·.1)).Nodup) (hs : (b.states.map (·.2)).sum = nx)
    (hi : ("default" :: inputs.map (·.1)).Nodup) (hiu : (inputs.map (·.2)).sum = nu) (hr : ∀ c ∈ b.rhs, c.1 ∈ b.states.map (·.1))
    (d : Bool) (A B C D : Option (NpMat K)) (m : LinModel K nx nu) (err : String) (hm : b.setup (.error err) d A B C D = .ok m) :
    ∃ (rhs meas : List (String × AffExpr K nx nu)) (M : Builder K) (F : MFuns K),
      b.rhs <+: rhs ∧ b.meas <+: meas ∧ (A = none → B = none → rhs = b.rhs) ∧ (C = none → D = none → meas = b.meas) ∧
      ({} : Builder K).runOps (linCalls b.states inputs rhs meas) = .ok M ∧ (∀ dup, M.setup dup = .ok F) ∧
      F.nx = nx ∧ F.nu = nu ∧ F.nz = 0 ∧
      ∀ (x : Vec K nx) (u : Vec K nu), F.rhs (List.ofFn x) (List.ofFn u) [] [] [] (List.replicate F.nw 0) = m.f x u ∧
        F.meas (List.ofFn x) (List.ofFn u) [] [] [] (List.replicate F.nv 0) = m.h x u := by
  unfold LinBuilder.setup at hm
  cases hy : measOf (nx := nx) (nu := nu) C D with
  | error e => simp [hy, bind, Except.bind] at hm
  | ok y =>
    cases hnx : nextOf (nx := nx) (nu := nu) A B with
    | error e => simp [hy, hnx, bind, Except.bind] at hm
    | ok next =>
      simp only [hy, hnx, bind, Except.bind] at hm
      split at hm
      swap
      · cases hm
      rename_i hnod
      set rhs := b.allRhs next with hrhs
      set meas := addMeas b.meas y with hmeas
      cases hf : assemble rhs b.states with
      | error e => simp [hf] at hm
      | ok f =>
        simp only [hf, pure, Except.pure, Except.ok.injEq] at hm
        subst hm
        obtain ⟨k1, k2⟩ := assemble_ok rhs b.states f hf
        have hrn : ∀ c ∈ rhs, c.1 ∈ b.states.map (·.1) := by
          intro c hc
          rw [hrhs] at hc
          unfold LinBuilder.allRhs at hc
          split at hc
          · exact hr c hc
          · rename_i e
            rcases List.mem_append.1 hc with hc | hc
            · exact hr c hc
            · rw [← slices_keys e b.states 0]; exact List.mem_map_of_mem hc
        obtain ⟨M, hM⟩ := linCalls_run b.states inputs rhs meas hn hi hrn
        obtain ⟨s1, s2, s3, s4, s5, s6, s7, s8, s9⟩ := linCalls_spec b.states inputs rhs meas
        set ops := linCalls b.states inputs rhs meas with hops
        have hmeasure : (measurements ops).map (·.1) = measNames b.states meas := by
          unfold measurements measNames
          rw [s7, s1]
          cases meas with
          | nil => simp
          | cons c meas => simp
        have hd : DistinctNames ops := by
          refine ⟨noiseOf_nodup _ ?_, ?_, by rw [s9]; simp, by rw [s8]; simp⟩
          · rw [s6, List.map_map]; exact hnod.1
          · rw [hmeasure]; exact hnod.2
        have hlast : ∀ c ∈ rhs, rhs.reverse.lookup c.1 = some c.2 := by
          intro c hc
          refine (lookup_eq_some_of_nodup _ ?_ _ _).2 (List.mem_reverse.2 hc)
          rw [List.map_reverse]; exact List.nodup_reverse.2 hnod.1
        have hok : (∀ c ∈ rhsCalls ops, (c.1, c.2.1.rows) ∈ declared .x ops) ∧ (∀ s ∈ declared .x ops, ∃ c ∈ rhsCalls ops, c.1 = s.1) ∧
            (declared .z ops).size = rowsOf (algCalls ops) := by
          rw [s1, s3, s6, s8]
          refine ⟨?_, ?_, rfl⟩
          · intro c hc
            obtain ⟨c', hc', rfl⟩ := List.mem_map.1 hc
            obtain ⟨s, hs', hsn⟩ := List.mem_map.1 (hrn c' hc')
            have := (k1 s hs').2
            rw [hsn, hlast c' hc'] at this
            show (c'.1, c'.2.length) ∈ b.states
            rw [show c'.2.length = s.2 from this, ← hsn]; exact hs'
          · intro s hs'
            have := (k1 s hs').1
            have h' := List.mem_reverse.1 ((lookup_eq_some_of_nodup _ (by rw [List.map_reverse]; exact List.nodup_reverse.2 hnod.1) _ _).1 this)
            exact ⟨_, List.mem_map.2 ⟨_, h', rfl⟩, rfl⟩
        have hsetup : ∃ F, ∀ dup, M.setup dup = .ok F := by
          obtain ⟨F, hF⟩ := (C27_setup_iff ops M hM hd (fun _ => .error "")).2 hok
          refine ⟨F, fun dup => ?_⟩
          have hD := distinct_of_ops ops M hM hd
          unfold Builder.setup at hF ⊢
          dsimp only at hF ⊢
          rw [if_pos hD] at hF ⊢
          exact hF
        obtain ⟨F, hF⟩ := hsetup
        have hfun := C27_functions ops M hM hd (fun _ => .error "") F (hF _)
          (by
            intro c hc
            rw [s6, s7, ← List.map_append] at hc
            obtain ⟨c', -, rfl⟩ := List.mem_map.1 hc
            exact toExpr_usesDeclared b.states inputs rhs meas c'.2)
          (by rw [s8, s9]; simp)
        have hsz : Layout.size b.states = nx := hs
        have hszu : Layout.size inputs = nu := hiu
        have h0 := hfun (fun _ _ _ => 0) (fun _ _ => 0) (fun _ _ => 0)
        dsimp only at h0
        obtain ⟨-, -, -, -, z1, z2, z3, -, -, z6, z7, -⟩ := h0
        refine ⟨rhs, meas, M, F, ?_, ?_, ?_, ?_, hM, hF, by rw [z1, s1, hsz], by rw [z2, s2, hszu], by rw [z3, s3]; rfl, fun x u => ?_⟩
        · rw [hrhs]; unfold LinBuilder.allRhs
          split
          · exact List.prefix_rfl
          · exact List.prefix_append _ _
        · rw [hmeas]; cases y with
          | none => exact List.prefix_rfl
          | some y => exact List.prefix_append _ _
        · rintro rfl rfl
          simp only [nextOf, bind, Except.bind, pure, Except.pure, Except.ok.injEq] at hnx
          subst hnx; rfl
        · rintro rfl rfl
          simp only [measOf, Except.ok.injEq] at hy
          subst hy; rfl
        · set val : MVal K := fun k n i => match k with
            | .x => (Layout.entry b.states (List.ofFn x) n).getD i 0
            | .u => (inputs.entry (List.ofFn u) n).getD i 0
            | _ => 0 with hval
          have hx : Layout.flat b.states (val .x) = List.ofFn x := flat_of_entry b.states hn _ (by simp [hsz])
          have hu : inputs.flat (val .u) = List.ofFn u := flat_of_entry inputs (List.nodup_cons.1 hi).2 _ (by simp [hszu])
          have h1 := hfun val (fun _ _ => 0) (fun _ _ => 0)
          dsimp only at h1
          have nilflat : ∀ v : String → Nat → K, Layout.flat [] v = [] := fun _ => rfl
          rw [s1, s2, s3, s4, s5, hx, hu, nilflat, flat_zero (noiseOf (rhsCalls ops)), flat_zero (noiseOf (measurements ops)), ← z6, ← z7] at h1
          obtain ⟨g1, -, -, g4, -⟩ := h1
          constructor
          · obtain ⟨-, -, -, R, hFR, hR⟩ := (setup_eq ops M hM hd (fun _ => .error "")).1 F (hF _)
            have hlen : ∀ w, (F.rhs (List.ofFn x) (List.ofFn u) [] [] [] w).length = Layout.size b.states := by
              intro w
              obtain ⟨c1, -⟩ := configured_fields ops M hM
              rw [hFR]
              show (List.flatMap _ M.defaultMeas.x).length = _
              rw [c1, s1]
              simp [List.length_flatMap, Layout.size]
            have hmf : LinModel.f (⟨d, f, if meas.isEmpty then stateExpr else (meas.map (·.2)).flatten⟩ : LinModel K nx nu) x u =
                b.states.flatMap fun s => ((rhs.reverse.lookup s.1).getD []).map fun r => r.a ⬝ᵥ x + r.b ⬝ᵥ u + r.c := by
              simp only [LinModel.f, k2, List.map_flatMap]; rfl
            set v : String → Nat → K := fun n => (((rhs.reverse.lookup n).getD []).toExpr b.states inputs).eval val with hv
            have hflat : (b.states.flatMap fun s => ((rhs.reverse.lookup s.1).getD []).map fun r => r.a ⬝ᵥ x + r.b ⬝ᵥ u + r.c) = Layout.flat b.states v := by
              unfold Layout.flat
              refine List.flatMap_congr fun s hs' => ?_
              rw [← toExpr_values b.states inputs _ val x u hx hu, (k1 s hs').2]
            rw [hmf, hflat]
            refine flat_congr_entry b.states hn _ _ (hlen _) (flat_length _ _) fun s hs' => ?_
            obtain ⟨e, noise, he, hent⟩ := g1 s hs'
            rw [hent, withNoise_zero, entry_flat b.states v hn s hs', hv]
            have : Spec.lastRhs s.1 ops = some (((rhs.reverse.lookup s.1).getD []).toExpr b.states inputs, true) := by
              unfold Spec.lastRhs
              rw [s6, ← List.map_reverse]
              refine (lookup_eq_some_of_nodup _ ?_ _ _).2 ?_
              · rw [List.map_map, Function.comp_def, List.map_reverse]; exact List.nodup_reverse.2 hnod.1
              · refine List.mem_map.2 ⟨(s.1, (rhs.reverse.lookup s.1).getD []), ?_, rfl⟩
                exact (lookup_eq_some_of_nodup _ (by rw [List.map_reverse]; exact List.nodup_reverse.2 hnod.1) _ _).1 (k1 s hs').1
            have he' : Spec.lastRhs s.1 ops = some (e, noise) := he
            rw [show Spec.lastRhs s.1 ops = _ from this] at he'
            obtain ⟨rfl, -⟩ := Prod.mk.inj (Option.some.inj he')
            rfl
          · rw [g4]
            unfold measurements
            rw [s7, s1]
            simp only [LinModel.h]
            by_cases hme : meas = []
            · rw [hme]
              simp only [List.map_nil, if_true, List.isEmpty_nil, List.flatMap_map, withNoise_zero]
              rw [stateExpr_rows, eval_rows]
              simp only [one_mulVec, zero_mulVec, add_zero]
              exact hx
            · rw [if_neg (by simpa using hme), List.flatMap_map]
              simp only [List.isEmpty_iff, if_neg hme, withNoise_zero, List.map_flatten, List.flatMap_def, List.map_map]
              congr 1
              refine List.map_congr_left fun c _ => ?_
              exact toExpr_values b.states inputs c.2 val x u hx hu

/-- The hypotheses hold for a model with a vector-valued state, two inputs, one equation and a measurement given by the user and `C` in addition. -/
example : ∃ m, LinBuilder.setup (K := ℚ) (nx := 2) (nu := 2) (.error "Exception")
      { states := [("a", 1), ("b", 1)], rhs := [("b", [⟨![0, 0], ![1, 0], 1⟩]), ("a", [⟨![1, 1], ![0, 0], 0⟩])], meas := [("m", [⟨![2, 0], ![0, 1], 0⟩])] } true
      none none (some (.of !![1, 0])) none = .ok m ∧
    (([("a", 1), ("b", 1)] : Layout).map (·.1)).Nodup ∧ ("default" :: ([("v", 2)] : Layout).map (·.1)).Nodup := by
  refine ⟨⟨true, [⟨![1, 1], ![0, 0], 0⟩, ⟨![0, 0], ![1, 0], 1⟩], [⟨![2, 0], ![0, 1], 0⟩] ++ affRows !![1, 0] 0⟩, ?_, by decide, by decide⟩
  simp only [LinBuilder.setup, measOf_C, nextOf, bind, Except.bind, pure, Except.pure, LinBuilder.allRhs, addMeas, measNames]
  simp [assemble, lastRhs, List.lookup, Except.map]

end
end DoMpc
