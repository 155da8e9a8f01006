import Verif.Props.FlatSens
import Verif.Props.DiffMinimum

set_option linter.unusedSectionVars false
set_option linter.unusedSimpArgs false

/-!
# C99: `sens_num` and the solutions of the MPC problem
-/
namespace DoMpc
open FlatSpec Diff Diff.Spec Filter Topology
variable {d : Dims}

/-! ### The flat vector depends only on the entries -/

theorem block_congr (cfg : MpcCfg ℝ d) (V : VarNames) (w w' : OptX ℝ d) (hw : SameEntries cfg w w') : cfg.catX V w = cfg.catX V w' := by
  unfold MpcCfg.catX SStruct.cat
  refine List.flatMap_congr fun e he => List.flatMap_congr fun i hi => ?_
  have hi' := (mem_multi _ _).1 hi
  simp only [MpcCfg.optX, List.mem_cons, List.not_mem_nil, or_false] at he
  rcases he with rfl | rfl | rfl | rfl
  · obtain ⟨a, _, ha, h1, rfl⟩ := List.forall₂_cons_right_iff.1 hi'
    obtain ⟨b, _, hb, h2, rfl⟩ := List.forall₂_cons_right_iff.1 h1
    obtain ⟨c, _, hc, h3, rfl⟩ := List.forall₂_cons_right_iff.1 h2
    rw [List.forall₂_nil_right_iff] at h3
    subst h3
    show List.ofFn (w.x a b c) = List.ofFn (w'.x a b c)
    rw [hw.x a (by omega) b hb c (by omega)]
  · obtain ⟨a, _, ha, h1, rfl⟩ := List.forall₂_cons_right_iff.1 hi'
    obtain ⟨b, _, hb, h2, rfl⟩ := List.forall₂_cons_right_iff.1 h1
    obtain ⟨c, _, hc, h3, rfl⟩ := List.forall₂_cons_right_iff.1 h2
    rw [List.forall₂_nil_right_iff] at h3
    subst h3
    show List.ofFn (w.z a b c) = List.ofFn (w'.z a b c)
    rw [hw.z a ha b hb c hc]
  · obtain ⟨a, _, ha, h1, rfl⟩ := List.forall₂_cons_right_iff.1 hi'
    obtain ⟨b, _, hb, h2, rfl⟩ := List.forall₂_cons_right_iff.1 h1
    rw [List.forall₂_nil_right_iff] at h2
    subst h2
    show List.ofFn (w.u a b) = List.ofFn (w'.u a b)
    rw [hw.u a ha b hb]
  · obtain ⟨a, _, ha, h1, rfl⟩ := List.forall₂_cons_right_iff.1 hi'
    obtain ⟨b, _, hb, h2, rfl⟩ := List.forall₂_cons_right_iff.1 h1
    rw [List.forall₂_nil_right_iff] at h2
    subst h2
    show (epsLayout cfg.nl).flat (w.eps a b) = (epsLayout cfg.nl).flat (w'.eps a b)
    unfold Layout.flat
    refine List.flatMap_congr fun q hq => List.map_congr_left fun j hj => ?_
    obtain ⟨sl, hsl, rfl⟩ := List.mem_map.1 hq
    obtain ⟨h3, h4⟩ := (slackVars_mem _ _).1 hsl
    exact hw.eps a ha b hb sl h3 h4 j (List.mem_range.1 hj)

/-- the unscaled solution as a flat vector -/
theorem catX_unscaled (cfg : MpcCfg ℝ d) (V : VarNames) (hV : Ok V d) (hn : (cfg.nl.map (·.name)).Nodup) (w : OptX ℝ d) (i : Nat) (hi : i < (cfg.optX V).size) :
    (cfg.catX V (cfg.unscaled w)).getD i 0 = (cfg.catX V w).getD i 0 * cfg.scalingFlat V i := by
  set v : Nat → ℝ := fun p => (cfg.catX V w).getD p 0 with hv
  have h1 := C98_opt_x_round_trip cfg V hV hn w
  have h2 := C98_unscaled cfg V hV hn v
  have h3 : SameEntries cfg (cfg.unscaled (cfg.ofX V v)) (cfg.unscaled w) := by
    refine ⟨fun k hk s hs j hj => ?_, fun k hk s hs j hj => ?_, fun k hk s hs => ?_, fun k hk s hs sl hsl hso j hj => ?_⟩
    · show (cfg.ofX V v).x k s j * cfg.sx = w.x k s j * cfg.sx
      rw [h1.x k hk s hs j hj]
    · show (cfg.ofX V v).z k s j * cfg.sz = w.z k s j * cfg.sz
      rw [h1.z k hk s hs j hj]
    · show (cfg.ofX V v).u k s * cfg.su = w.u k s * cfg.su
      rw [h1.u k hk s hs]
    · exact h1.eps k hk s hs sl hsl hso j hj
  rw [← block_congr cfg V _ _ h3, ← block_congr cfg V _ _ h2, C98_opt_x_vector cfg V hV hn, getD_map_range _ _ _ hi]

/-! ### The NLP and the MPC problem -/

/-- a solution of the MPC problem as the vector of the NLP -/
def flatSol (cfg : MpcCfg ℝ d) (V : VarNames) (n : Nat) (w : OptX ℝ d) : Fin n → ℝ := toFin n fun i => (cfg.catX V w).getD i 0

section Min
variable (cfg : MpcCfg ℝ d) (V : VarNames) (hV : Ok V d) (hn : (cfg.nl.map (·.name)).Nodup) (N : Nlp ℝ)
  (grad : (Fin N.nx → ℝ) × (Fin N.ng → ℝ) × (Fin N.np → ℝ) → Fin N.nx → ℝ) (g : (Fin N.nx → ℝ) × (Fin N.np → ℝ) → Fin N.ng → ℝ)
  (hN : IsNlpOf cfg V N grad g)
include hN

theorem admissible_iff (x : Fin N.nx → ℝ) (p : Fin N.np → ℝ) : Admissible N g x p ↔ cfg.FlatFeasible V (ofFin x) (ofFin p) := by
  have hlow : ∀ (o : Option ℝ) (y : ℝ), (∀ b, o = some b → b ≤ y) ↔ (lowerBound o).le y := by
    intro o y
    rcases o with _ | b
    · exact ⟨fun _ => trivial, fun _ b hb => (by cases hb)⟩
    · exact ⟨fun h => h b rfl, fun h b' hb => Option.some.inj hb ▸ h⟩
  have hup : ∀ (o : Option ℝ) (y : ℝ), (∀ b, o = some b → y ≤ b) ↔ (upperBound o).ge y := by
    intro o y
    rcases o with _ | b
    · exact ⟨fun _ => trivial, fun _ b hb => (by cases hb)⟩
    · exact ⟨fun h => h b rfl, fun h b' hb => Option.some.inj hb ▸ h⟩
  constructor
  · intro h
    refine ⟨fun r hr => ?_, fun i hi => ?_⟩
    · rw [hN.rows] at hr
      obtain ⟨c, rfl⟩ := List.mem_ofFn.1 hr
      exact ⟨(hlow _ _).1 (h.lowerG c), (hup _ _).1 (h.upperG c)⟩
    · rw [← hN.nx] at hi
      rw [hN.lbx, hN.ubx, getD_map_range _ _ _ hi, getD_map_range _ _ _ hi, ofFin_val _ _ hi]
      exact ⟨(hlow _ _).1 (h.lowerX ⟨i, hi⟩), (hup _ _).1 (h.upperX ⟨i, hi⟩)⟩
  · rintro ⟨h1, h2⟩
    rw [hN.rows] at h1
    have h1' : ∀ c : Fin N.ng, (lowerBound (N.lbg c)).le (g (x, p) c) ∧ (upperBound (N.ubg c)).ge (g (x, p) c) := fun c => h1 _ (List.mem_ofFn.2 ⟨c, rfl⟩)
    have h2' : ∀ i : Fin N.nx, (lowerBound (N.lbx i)).le (x i) ∧ (upperBound (N.ubx i)).ge (x i) := by
      intro i
      have := h2 i (by rw [← hN.nx]; exact i.2)
      rw [hN.lbx, hN.ubx, getD_map_range _ _ _ i.2, getD_map_range _ _ _ i.2, ofFin_val _ _ i.2] at this
      exact this
    exact ⟨fun c => (hlow _ _).2 (h1' c).1, fun c => (hup _ _).2 (h1' c).2, fun i => (hlow _ _).2 (h2' i).1, fun i => (hup _ _).2 (h2' i).2⟩

/-- the cost of the NLP -/
noncomputable def nlpCost (cfg : MpcCfg ℝ d) (V : VarNames) (N : Nlp ℝ) : (Fin N.nx → ℝ) × (Fin N.np → ℝ) → ℝ := fun z => cfg.flatObj V (ofFin z.1) (ofFin z.2)

theorem lagrangian_of (x l p : Nat → ℝ) (hz : ∀ z (i : Fin N.nx), N.depX i = false → grad z i = 0) : LagrangianOf N (nlpCost cfg V N) g grad x l p := by
  refine ⟨Eventually.of_forall fun z => hN.grad z.1 z.2.1 z.2.2, fun y y' q hy => ?_⟩
  set φ : ℝ → ℝ := fun t => nlpCost cfg V N (y' + t • (y - y'), q) with hφ
  have hd : ∀ t, HasDerivAt φ 0 t := by
    intro t
    obtain ⟨D, h1, h2⟩ := hN.grad (y' + t • (y - y')) 0 q
    have hline : HasDerivAt (fun t : ℝ => y' + t • (y - y')) (y - y') t := by
      simpa using ((hasDerivAt_id t).smul_const (y - y')).const_add y'
    have := HasFDerivAt.comp_hasDerivAt (f := fun t : ℝ => y' + t • (y - y')) t h1 hline
    rw [h2] at this
    have h0 : ∑ i, grad (y' + t • (y - y'), 0, q) i * (y - y') i = 0 := by
      refine Finset.sum_eq_zero fun i _ => ?_
      by_cases hdp : N.depX i = true
      · rw [Pi.sub_apply, hy i hdp, sub_self, mul_zero]
      · rw [hz _ i (by simpa using hdp), zero_mul]
    rw [h0] at this
    have he : ((fun x => cfg.flatObj V (ofFin x) (ofFin q) + ∑ c, (0 : Fin N.ng → ℝ) c * g (x, q) c) ∘ fun t : ℝ => y' + t • (y - y')) = φ := by
      funext t
      simp [hφ, nlpCost]
    rwa [he] at this
  have := is_const_of_deriv_eq_zero (fun t => (hd t).differentiableAt) (fun t => (hd t).deriv) 1 0
  simpa [hφ] using this

include hV in
theorem ofFin_flatParams (Q : OptP ℝ d) : ofFin (flatParams cfg V N.np Q) = fun i => (cfg.catP V Q).getD i 0 := by
  funext i
  by_cases hi : i < N.np
  · rw [ofFin_val _ _ hi]; rfl
  · have hl : (cfg.catP V Q).length = N.np := (cat_length _ _ (optP_fits cfg V hV Q)).trans hN.np.symm
    simp [ofFin, hi, List.getD_eq_getElem?_getD, List.getElem?_eq_none (show (cfg.catP V Q).length ≤ i by omega)]

include hV in
theorem ofFin_flatSol (w : OptX ℝ d) : ofFin (flatSol cfg V N.nx w) = fun i => (cfg.catX V w).getD i 0 := by
  funext i
  by_cases hi : i < N.nx
  · rw [ofFin_val _ _ hi]; rfl
  · have hl : (cfg.catX V w).length = N.nx := (cat_length _ _ (optX_fits cfg V hV w)).trans hN.nx.symm
    simp [ofFin, hi, List.getD_eq_getElem?_getD, List.getElem?_eq_none (show (cfg.catX V w).length ≤ i by omega)]

include hV hn in
/-- solutions of the MPC problem solve the NLP -/
theorem minimiser_of (hc : 0 < cfg.c) (hI : OwnPoints cfg.ifcn) (w : OptX ℝ d) (Q : OptP ℝ d) (hf : cfg.Feasible w Q)
    (hm : ∀ w', cfg.Feasible w' Q → cfg.obj w Q ≤ cfg.obj w' Q) : Minimiser N (nlpCost cfg V N) g (flatSol cfg V N.nx w) (flatParams cfg V N.np Q) := by
  have hs := C98_same_problem cfg V hc hV hn hI w Q
  have hff : cfg.FlatFeasible V (ofFin (flatSol cfg V N.nx w)) (ofFin (flatParams cfg V N.np Q)) := by
    rw [ofFin_flatSol cfg V hV N grad g hN, ofFin_flatParams cfg V hV N grad g hN]
    exact hs.1.2 hf
  have h1 := C98_opt_x_round_trip cfg V hV hn w
  have hq := C98_opt_p_round_trip cfg V hV Q
  refine ⟨(admissible_iff cfg V N grad g hN _ _).2 hff, fun x' hx' => ?_⟩
  have hx := (admissible_iff cfg V N grad g hN _ _).1 hx'
  rw [ofFin_flatParams cfg V hV N grad g hN] at hx
  show cfg.flatObj V (ofFin (flatSol cfg V N.nx w)) (ofFin (flatParams cfg V N.np Q)) ≤ cfg.flatObj V (ofFin x') (ofFin (flatParams cfg V N.np Q))
  rw [ofFin_flatSol cfg V hV N grad g hN, ofFin_flatParams cfg V hV N grad g hN, hs.2]
  have hfe := (C98_flat_feasible cfg V hV hn (ofFin x') _).1 hx
  have hfe' : cfg.Feasible (cfg.ofX V (ofFin x')) Q := by
    refine ⟨fun r hr => hfe.1 r ?_, hfe.2⟩
    rwa [C98_rows_congr cfg hc hn _ _ _ _ (SameEntries.rfl cfg (cfg.ofX V (ofFin x'))) hq hI]
  refine (hm _ hfe').trans (le_of_eq ?_)
  exact (C98_obj_congr cfg hc hn _ _ _ _ (SameEntries.rfl cfg (cfg.ofX V (ofFin x'))) hq).symm

end Min

/-! ### The theorems -/

section Sens
variable (cfg : MpcCfg ℝ d) (V : VarNames) (hV : Ok V d) (hn : (cfg.nl.map (·.name)).Nodup) (hc : 0 < cfg.c) (hI : OwnPoints cfg.ifcn)
  (N : Nlp ℝ) (hdep : DependsCorrect N) (S : Settings ℝ) (ht : 0 < S.tol)
  (C : Checks) (lin lstsq : LinSolver ℝ) (hlin : Solves lin) (hcomp : Complete lin) (hls : S.lstsqFallback = true → Solves lstsq) (s : Sol ℝ) (Q : OptP ℝ d)
  (st st' : Status ℝ) (o o' : Out ℝ) (h : differentiateSt N S C lin lstsq s (cfg.catP V Q) st = (.ok o, st'))
  (hdo : doDifferentiate N (cfg.scalingFlat V) S lin lstsq s (cfg.catP V Q) = .ok o') (hCl : C.licq = true) (hCs : C.sc = true)
  (hlicq : st'.licq = some true) (hsc : st'.sc = some true)
  (h2 : SecondOrder N s.x s.lamG (fun i => (cfg.catP V Q).getD i 0) (fun c => AtBound S.tol (s.g c) (N.lbg c) (N.ubg c))
    (fun i => AtBound S.tol (s.x i) (N.lbx i) (N.ubx i)))
  (grad : (Fin N.nx → ℝ) × (Fin N.ng → ℝ) × (Fin N.np → ℝ) → Fin N.nx → ℝ) (g : (Fin N.nx → ℝ) × (Fin N.np → ℝ) → Fin N.ng → ℝ)
  (hN : IsNlpOf cfg V N grad g) (hS : Smooth N grad g s.x s.lamG (fun i => (cfg.catP V Q).getD i 0))
  (hg0 : g (toFin _ s.x, flatParams cfg V _ Q) = toFin _ s.g)
  (hk0 : KktPoint N grad g (toFin _ s.x) (toFin _ s.lamG) (toFin _ s.lamX) (flatParams cfg V _ Q))
include hV hn hc hI hdep ht hlin hcomp hls h hdo hCl hCs hlicq hsc h2 hN hS hg0 hk0

/-- **C99**: `sens_num`.  Let the solver return for all parameters `q` close to the present ones a solution `W q` of the MPC problem that depends continuously
on them (in the variables that occur).  Then the entries of `sens_num["dxdp", indexf[qx], indexf[qp]]` are the derivatives of the numbers that the power index `qx`
reads in the unscaled solution with respect to the parameters that `qp` reads. -/
theorem C99_sens_num (W : (Fin N.np → ℝ) → OptX ℝ d)
    (hW : ∀ᶠ q in 𝓝 (flatParams cfg V N.np Q), cfg.Feasible (W q) (cfg.ofP V (ofFin q)) ∧ ∀ w', cfg.Feasible w' (cfg.ofP V (ofFin q)) →
      cfg.obj (W q) (cfg.ofP V (ofFin q)) ≤ cfg.obj w' (cfg.ofP V (ofFin q)))
    (hW0 : ∀ i : Fin N.nx, N.depX i = true → (cfg.catX V (W (flatParams cfg V N.np Q))).getD i 0 = s.x i)
    (hWc : ∀ i : Fin N.nx, N.depX i = true → ContinuousAt (fun q => (cfg.catX V (W q)).getD i 0) (flatParams cfg V N.np Q))
    (nx : String) (ix : List Int) (np : String) (ip : List Int) (ps qs : List Nat) (hps : (cfg.optX V).f nx ix = some ps)
    (hqs : (cfg.optP V).f np ip = some qs) (hocc : ∀ i ∈ ps, N.depX i = true) :
    ∃ M, sensNum (cfg.optX V) (cfg.optP V) o'.dx nx ix np ip = some M ∧ M.length = ps.length ∧ ∀ a (ha : a < ps.length) (hm : a < M.length), M[a].length = qs.length ∧
      ∃ D : (Fin N.np → ℝ) →L[ℝ] ℝ, HasFDerivAt (fun q => (cfg.catX V (cfg.unscaled (W q))).getD ps[a] 0) D (flatParams cfg V N.np Q) ∧
        ∀ b (hb : b < qs.length) (hm' : b < M[a].length) (hq : qs[b] < N.np), M[a][b] = some (D (Pi.single ⟨qs[b], hq⟩ 1)) := by
  obtain ⟨r, hr, X, LG, LX, ⟨hX0, hG0, hL0, hXc, hGc, hLc, hk⟩, hloc, -, -⟩ :=
    C59_solution_partial N hdep S ht C lin lstsq hlin hcomp hls s (cfg.catP V Q) st st' o h hCl hCs hlicq hsc h2 (nlpCost cfg V N) grad g hS
      (lagrangian_of cfg V N grad g hN _ _ _ hS.gradZero) hg0 hk0
  obtain ⟨M, hM, hMl, hMa⟩ := C99_sens_num_partial cfg V N hdep S ht C lin lstsq hlin hcomp hls s Q st st' o o' h hdo hCl hCs hlicq hsc h2 grad g hN hS hg0 hk0 X LG
    LX hX0 hG0 hL0 hXc hGc hLc hk nx ix np ip ps qs hps hqs hocc
  refine ⟨M, hM, hMl, fun a ha hm => ⟨(hMa a ha hm).1, ?_⟩⟩
  obtain ⟨D, hD, hDb⟩ := (hMa a ha hm).2
  refine ⟨D, hD.congr_of_eventuallyEq ?_, hDb⟩
  have hpa : ps[a] < N.nx := by
    rw [hN.nx]
    exact f_lt _ (optX_distinct cfg V) _ _ _ hps _ (List.getElem_mem _)
  have hnear : ∀ᶠ q in 𝓝 (flatParams cfg V N.np Q), ∀ i : Fin N.nx, N.depX i = true → |flatSol cfg V N.nx (W q) i - s.x i| < r := by
    refine eventually_all.2 fun i => ?_
    by_cases hdi : N.depX i = true
    · have := Metric.tendsto_nhds.1 (hWc i hdi).tendsto r hr
      rw [hW0 i hdi] at this
      exact this.mono fun q hq _ => hq
    · exact Eventually.of_forall fun q hq => absurd hq hdi
  filter_upwards [hloc, hW, hnear] with q q1 q2 q3
  have hmin := minimiser_of cfg V hV hn N grad g hN hc hI (W q) (cfg.ofP V (ofFin q)) q2.1 q2.2
  have hqq : flatParams cfg V N.np (cfg.ofP V (ofFin q)) = q := by
    funext k
    show (cfg.catP V (cfg.ofP V (ofFin q))).getD k 0 = q k
    rw [C98_opt_p_vector cfg V hV, getD_map_range _ _ _ (by rw [← hN.np]; exact k.2), ofFin_val _ _ k.2]
  rw [hqq] at hmin
  rw [catX_unscaled cfg V hV hn _ _ (by rw [← hN.nx]; exact hpa), mul_comm]
  congr 1
  by_contra hne
  refine absurd (q1.2 _ q3 hmin.1 ⟨⟨ps[a], hpa⟩, hocc _ (List.getElem_mem _), fun e => hne ?_⟩) (not_lt.2 (hmin.2 _ q1.1))
  rw [ofFin_val _ _ hpa, ← e]
  rfl

/-- **C99**: the feedback gain.  Let the solver return for all measured states `ξ` close to the present one a solution `W ξ` of the MPC problem that depends
continuously on `ξ` (in the variables that occur).  Then the input that `make_step` returns is differentiable in `ξ`, and
`sens_num["dxdp", indexf["_u", 0, 0], indexf["_x0"]]` is its Jacobian. -/
theorem C99_feedback_gain (hNpos : 0 < cfg.N) (hU : 0 < cfg.nU) (hocc : ∀ ps, (cfg.optX V).f "_u" [0, 0] = some ps → ∀ i ∈ ps, N.depX i = true)
    (W : (Fin d.nx → ℝ) → OptX ℝ d)
    (hW : ∀ᶠ ξ in 𝓝 Q.x0, cfg.Feasible (W ξ) { Q with x0 := ξ } ∧ ∀ w', cfg.Feasible w' { Q with x0 := ξ } →
      cfg.obj (W ξ) { Q with x0 := ξ } ≤ cfg.obj w' { Q with x0 := ξ })
    (hW0 : ∀ i : Fin N.nx, N.depX i = true → (cfg.catX V (W Q.x0)).getD i 0 = s.x i)
    (hWc : ∀ i : Fin N.nx, N.depX i = true → ContinuousAt (fun ξ => (cfg.catX V (W ξ)).getD i 0) Q.x0) :
    ∃ D : (Fin d.nx → ℝ) →L[ℝ] (Fin d.nu → ℝ), HasFDerivAt (fun ξ => (cfg.unscaled (W ξ)).u 0 0) D Q.x0 ∧
      sensNum (cfg.optX V) (cfg.optP V) o'.dx "_u" [0, 0] "_x0" [] = some (List.ofFn fun i => List.ofFn fun j => some (D (Pi.single j 1) i)) := by
  obtain ⟨r, hr, X, LG, LX, ⟨hX0, hG0, hL0, hXc, hGc, hLc, hk⟩, hloc, -, -⟩ :=
    C59_solution_partial N hdep S ht C lin lstsq hlin hcomp hls s (cfg.catP V Q) st st' o h hCl hCs hlicq hsc h2 (nlpCost cfg V N) grad g hS
      (lagrangian_of cfg V N grad g hN _ _ _ hS.gradZero) hg0 hk0
  obtain ⟨D, hD, hM⟩ := C99_feedback_gain_partial cfg V hV hn N hdep S ht C lin lstsq hlin hcomp hls s Q st st' o o' h hdo hCl hCs hlicq hsc h2 grad g hN hS hg0 hk0 X
    LG LX hX0 hG0 hL0 hXc hGc hLc hk hNpos hU hocc
  refine ⟨D, hD.congr_of_eventuallyEq ?_, hM⟩
  have hpc : Tendsto (fun ξ => flatParams cfg V N.np { Q with x0 := ξ }) (𝓝 Q.x0) (𝓝 (flatParams cfg V N.np Q)) :=
    (hasFDerivAt_flatParams cfg V N.np Q Q.x0).continuousAt.tendsto
  have hnear : ∀ᶠ ξ in 𝓝 Q.x0, ∀ i : Fin N.nx, N.depX i = true → |flatSol cfg V N.nx (W ξ) i - s.x i| < r := by
    refine eventually_all.2 fun i => ?_
    by_cases hdi : N.depX i = true
    · have := Metric.tendsto_nhds.1 (hWc i hdi).tendsto r hr
      rw [hW0 i hdi] at this
      exact this.mono fun q hq _ => hq
    · exact Eventually.of_forall fun q hq => absurd hq hdi
  obtain ⟨ps, hps⟩ := Option.isSome_iff_exists.1 ((C98_accepted _ (optX_distinct cfg V) _ _).2 (exists_u cfg V hNpos hU))
  have hps' : (cfg.optX V).f "_u" [0, 0] = some ps := hps
  filter_upwards [hpc.eventually hloc, hW, hnear] with ξ q1 q2 q3
  have hmin := minimiser_of cfg V hV hn N grad g hN hc hI (W ξ) _ q2.1 q2.2
  have heq : ∀ i : Fin N.nx, N.depX i = true → flatSol cfg V N.nx (W ξ) i = X (flatParams cfg V N.np { Q with x0 := ξ }) i := by
    intro i hi
    by_contra hne
    exact absurd (q1.2 _ q3 hmin.1 ⟨i, hi, hne⟩) (not_lt.2 (hmin.2 _ q1.1))
  have hr1 := (C98_opt_x_round_trip cfg V hV hn (W ξ)).u 0 hNpos 0 hU
  have hread : ∀ v : Nat → ℝ, (cfg.ofX V v).u 0 0 = vecOf (ps.map v) := fun v => by
    show vecOf ((cfg.optX V).read v "_u" [0, 0]) = _
    rw [read_f _ v _ _ ps hps']
  show (W ξ).u 0 0 * cfg.su = (cfg.ofX V (ofFin (X (flatParams cfg V N.np { Q with x0 := ξ })))).u 0 0 * cfg.su
  rw [← hr1, hread, hread]
  congr 2
  refine List.map_congr_left fun i hi => ?_
  have hi' : i < N.nx := by
    rw [hN.nx]
    exact f_lt _ (optX_distinct cfg V) _ _ _ hps' _ hi
  rw [ofFin_val _ _ hi']
  exact heq ⟨i, hi'⟩ (hocc ps hps' i hi)

end Sens
end DoMpc
