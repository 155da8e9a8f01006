import Verif.Props.FlatMpc
import Verif.Props.DiffSolution
import Verif.Spec.FlatSens

set_option linter.unusedSectionVars false
set_option linter.unusedSimpArgs false

/-!
# C99: the entries of `sens_num`
-/
namespace DoMpc
open FlatSpec Diff Diff.Spec Filter Topology
variable {d : Dims}

/-- the parameters of the MPC as the vector of the NLP -/
def flatParams (cfg : MpcCfg ℝ d) (V : VarNames) (n : Nat) (q : OptP ℝ d) : Fin n → ℝ := toFin n fun i => (cfg.catP V q).getD i 0

/-- **C99**: points that satisfy the conditions of first order of the NLP are read as feasible points of the MPC problem. -/
theorem C99_kkt_feasible (cfg : MpcCfg ℝ d) (V : VarNames) (hV : Ok V d) (hn : (cfg.nl.map (·.name)).Nodup) (N : Nlp ℝ) (grad) (g)
    (hN : IsNlpOf cfg V N grad g) (x lG lX p) (h : KktPoint N grad g x lG lX p) : cfg.Feasible (cfg.ofX V (ofFin x)) (cfg.ofP V (ofFin p)) := by
  rw [← C98_flat_feasible cfg V hV hn]
  have hlow : ∀ (o : Option ℝ) (y : ℝ), (∀ b, o = some b → b ≤ y) → (lowerBound o).le y := by
    intro o y ho
    rcases o with _ | b
    · trivial
    · exact ho b rfl
  have hup : ∀ (o : Option ℝ) (y : ℝ), (∀ b, o = some b → y ≤ b) → (upperBound o).ge y := by
    intro o y ho
    rcases o with _ | b
    · trivial
    · exact ho b rfl
  refine ⟨fun r hr => ?_, fun i hi => ?_⟩
  · rw [hN.rows] at hr
    obtain ⟨c, rfl⟩ := List.mem_ofFn.1 hr
    exact ⟨hlow _ _ (h.lowerG c), hup _ _ (h.upperG c)⟩
  · rw [← hN.nx] at hi
    rw [hN.lbx, hN.ubx, getD_map_range _ _ _ hi, getD_map_range _ _ _ hi, ofFin_val _ _ hi]
    exact ⟨hlow _ _ (h.lowerX ⟨i, hi⟩), hup _ _ (h.upperX ⟨i, hi⟩)⟩

theorem x0_positions (cfg : MpcCfg ℝ d) (V : VarNames) (hV : Ok V d) : (cfg.optP V).f "_x0" [] = some (List.range d.nx) := by
  unfold SStruct.f MpcCfg.optP
  rw [SStruct.find, if_pos rfl]
  simp [ravel, hV.x]

theorem catP_x0 (cfg : MpcCfg ℝ d) (V : VarNames) (q : OptP ℝ d) : ∃ T : List ℝ, ∀ ξ, cfg.catP V { q with x0 := ξ } = List.ofFn ξ ++ T := by
  refine ⟨SStruct.cat [⟨"_tvp", [cfg.N + 1], V.tvp⟩, ⟨"_p", [cfg.c], V.p⟩, ⟨"_u_prev", [], V.u⟩] q.block, fun ξ => ?_⟩
  have hb : ∀ nm i, nm ≠ "_x0" → ({ q with x0 := ξ } : OptP ℝ d).block nm i = q.block nm i := by
    intro nm i h
    unfold OptP.block
    split
    · exact absurd rfl h
    all_goals rfl
  have h0 : ∀ e ∈ ([⟨"_tvp", [cfg.N + 1], V.tvp⟩, ⟨"_p", [cfg.c], V.p⟩, ⟨"_u_prev", [], V.u⟩] : SStruct), e.name ≠ "_x0" := by
    intro e he
    simp only [List.mem_cons, List.not_mem_nil, or_false] at he
    rcases he with rfl | rfl | rfl <;> simp
  have h1 : SStruct.cat [⟨"_tvp", [cfg.N + 1], V.tvp⟩, ⟨"_p", [cfg.c], V.p⟩, ⟨"_u_prev", [], V.u⟩] ({ q with x0 := ξ } : OptP ℝ d).block =
      SStruct.cat [⟨"_tvp", [cfg.N + 1], V.tvp⟩, ⟨"_p", [cfg.c], V.p⟩, ⟨"_u_prev", [], V.u⟩] q.block := by
    unfold SStruct.cat
    exact List.flatMap_congr fun e he => List.flatMap_congr fun i _ => hb _ _ (h0 e he)
  rw [← h1]
  show ([[]].flatMap fun i => ({ q with x0 := ξ } : OptP ℝ d).block "_x0" i) ++ _ = _
  rw [List.flatMap_singleton]
  rfl

theorem flatParams_x0 (cfg : MpcCfg ℝ d) (V : VarNames) (n : Nat) (q : OptP ℝ d) (ξ : Vec ℝ d.nx) (k : Fin n) :
    flatParams cfg V n { q with x0 := ξ } k = if h : (k : Nat) < d.nx then ξ ⟨k, h⟩ else flatParams cfg V n q k := by
  obtain ⟨T, hT⟩ := catP_x0 cfg V q
  unfold flatParams toFin
  rw [hT ξ, show cfg.catP V q = List.ofFn q.x0 ++ T from hT q.x0]
  dsimp only
  rw [List.getD_eq_getElem?_getD, List.getD_eq_getElem?_getD]
  split_ifs with h
  · rw [List.getElem?_append_left (by simpa using h), List.getElem?_eq_getElem (by simpa using h)]
    simp
  · rw [List.getElem?_append_right (by simpa using h), List.getElem?_append_right (by simpa using h)]
    simp only [List.length_ofFn]

/-- the direction of a change of the initial state -/
noncomputable def x0Dir (nx n : Nat) : (Fin nx → ℝ) →L[ℝ] (Fin n → ℝ) :=
  ContinuousLinearMap.pi fun k => if h : (k : Nat) < nx then ContinuousLinearMap.proj (R := ℝ) (φ := fun _ : Fin nx => ℝ) ⟨k, h⟩ else 0

theorem x0Dir_single (nx n : Nat) (h : nx ≤ n) (j : Fin nx) : x0Dir nx n (Pi.single j 1) = Pi.single (⟨j, by omega⟩ : Fin n) 1 := by
  funext k
  show (if h : (k : Nat) < nx then ContinuousLinearMap.proj (R := ℝ) (φ := fun _ : Fin nx => ℝ) ⟨k, h⟩ else 0 : (Fin nx → ℝ) →L[ℝ] ℝ) (Pi.single j 1) = _
  split_ifs with hk
  · show (Pi.single j (1 : ℝ) : Fin nx → ℝ) ⟨k, hk⟩ = _
    rw [Pi.single_apply, Pi.single_apply]
    simp only [Fin.ext_iff]
  · show (0 : ℝ) = _
    rw [Pi.single_apply, if_neg]
    intro e
    exact hk (by rw [e]; exact j.2)

theorem hasFDerivAt_flatParams (cfg : MpcCfg ℝ d) (V : VarNames) (n : Nat) (q : OptP ℝ d) (ξ : Vec ℝ d.nx) :
    HasFDerivAt (fun ξ : Fin d.nx → ℝ => flatParams cfg V n { q with x0 := ξ }) (x0Dir d.nx n) ξ := by
  rw [hasFDerivAt_pi']
  intro k
  have e : (fun ξ : Fin d.nx → ℝ => flatParams cfg V n { q with x0 := ξ } k) = fun ξ => if h : (k : Nat) < d.nx then ξ ⟨k, h⟩ else flatParams cfg V n q k :=
    funext fun ξ => flatParams_x0 cfg V n q ξ k
  rw [e]
  show HasFDerivAt _ (if h : (k : Nat) < d.nx then ContinuousLinearMap.proj (R := ℝ) (φ := fun _ : Fin d.nx => ℝ) ⟨k, h⟩ else 0) ξ
  by_cases h : (k : Nat) < d.nx
  · simp only [dif_pos h]
    exact (ContinuousLinearMap.proj (R := ℝ) (φ := fun _ : Fin d.nx => ℝ) ⟨k, h⟩).hasFDerivAt
  · simp only [dif_neg h]
    exact hasFDerivAt_const _ _


theorem f_lt (S : SStruct) (hd : Distinct S) (nm : String) (idx : List Int) (ps : List Nat) (h : S.f nm idx = some ps) : ∀ p ∈ ps, p < S.size :=
  fun p hp => (C98_cover S hd p).2 ⟨nm, idx, ps, h, hp⟩

section Sens
variable (cfg : MpcCfg ℝ d) (V : VarNames) (hV : Ok V d) (hn : (cfg.nl.map (·.name)).Nodup) (N : Nlp ℝ) (hdep : DependsCorrect N) (S : Settings ℝ) (ht : 0 < S.tol)
  (C : Checks) (lin lstsq : LinSolver ℝ) (hlin : Solves lin) (hcomp : Complete lin) (hls : S.lstsqFallback = true → Solves lstsq) (s : Sol ℝ) (Q : OptP ℝ d)
  (st st' : Status ℝ) (o o' : Out ℝ) (h : differentiateSt N S C lin lstsq s (cfg.catP V Q) st = (.ok o, st'))
  (hdo : doDifferentiate N (cfg.scalingFlat V) S lin lstsq s (cfg.catP V Q) = .ok o') (hCl : C.licq = true) (hCs : C.sc = true)
  (hlicq : st'.licq = some true) (hsc : st'.sc = some true)
  (h2 : SecondOrder N s.x s.lamG (fun i => (cfg.catP V Q).getD i 0) (fun c => AtBound S.tol (s.g c) (N.lbg c) (N.ubg c))
    (fun i => AtBound S.tol (s.x i) (N.lbx i) (N.ubx i)))
  (grad : (Fin N.nx → ℝ) × (Fin N.ng → ℝ) × (Fin N.np → ℝ) → Fin N.nx → ℝ) (g : (Fin N.nx → ℝ) × (Fin N.np → ℝ) → Fin N.ng → ℝ)
  (hN : IsNlpOf cfg V N grad g) (hS : Smooth N grad g s.x s.lamG (fun i => (cfg.catP V Q).getD i 0))
  (hg0 : g (toFin _ s.x, flatParams cfg V _ Q) = toFin _ s.g)
  (hk0 : KktPoint N grad g (toFin _ s.x) (toFin _ s.lamG) (toFin _ s.lamX) (flatParams cfg V _ Q))
  (X : (Fin N.np → ℝ) → Fin N.nx → ℝ) (LG : (Fin N.np → ℝ) → Fin N.ng → ℝ) (LX : (Fin N.np → ℝ) → Fin N.nx → ℝ)
  (hX0 : X (flatParams cfg V _ Q) = toFin _ s.x) (hG0 : LG (flatParams cfg V _ Q) = toFin _ s.lamG) (hL0 : LX (flatParams cfg V _ Q) = toFin _ s.lamX)
  (hXc : ContinuousAt X (flatParams cfg V _ Q)) (hGc : ContinuousAt LG (flatParams cfg V _ Q)) (hLc : ContinuousAt LX (flatParams cfg V _ Q))
  (hk : ∀ᶠ q in 𝓝 (flatParams cfg V _ Q), KktPoint N grad g (X q) (LG q) (LX q) q)
include hdep ht hlin hcomp hls h hdo hCl hCs hlicq hsc h2 hN hS hg0 hk0 hX0 hG0 hL0 hXc hGc hLc hk

/-- **C99** (partial): an entry of `sens_num["dxdp", indexf[qx], indexf[qp]]` is the derivative of the unscaled variable of `opt_x` at `qx` with respect to the
parameter of `opt_p` at `qp`. -/
theorem C99_sens_num_partial (nx : String) (ix : List Int) (np : String) (ip : List Int) (ps qs : List Nat) (hps : (cfg.optX V).f nx ix = some ps)
    (hqs : (cfg.optP V).f np ip = some qs) (hocc : ∀ i ∈ ps, N.depX i = true) :
    ∃ M, sensNum (cfg.optX V) (cfg.optP V) o'.dx nx ix np ip = some M ∧ M.length = ps.length ∧ ∀ a (ha : a < ps.length) (hm : a < M.length), M[a].length = qs.length ∧
      ∃ D : (Fin N.np → ℝ) →L[ℝ] ℝ, HasFDerivAt (fun q => cfg.scalingFlat V ps[a] * ofFin (X q) ps[a]) D (flatParams cfg V _ Q) ∧
        ∀ b (hb : b < qs.length) (hm' : b < M[a].length) (hq : qs[b] < N.np), M[a][b] = some (D (Pi.single ⟨qs[b], hq⟩ 1)) := by
  refine ⟨ps.map fun r => qs.map fun c => o'.dx r c, ?_, by simp, fun a ha hm => ⟨by simp, ?_⟩⟩
  · unfold sensNum
    rw [hps, hqs]
    rfl
  · have hp : ps[a] < N.nx := by
      rw [hN.nx]
      exact f_lt _ (optX_distinct cfg V) _ _ _ hps _ (List.getElem_mem _)
    obtain ⟨D, hD, hDk⟩ := C59_sensitivity_do_mpc_partial N (cfg.scalingFlat V) hdep S ht C lin lstsq hlin hcomp hls s (cfg.catP V Q) st st' o o' h hdo hCl hCs hlicq
      hsc h2 grad g hS hg0 hk0 X LG LX hX0 hG0 hL0 hXc hGc hLc hk ⟨ps[a], hp⟩ (hocc _ (List.getElem_mem _))
    refine ⟨D, ?_, fun b hb hm' hq => ?_⟩
    · simp only [ofFin_val _ _ hp]
      exact hD
    · simp only [List.getElem_map]
      exact hDk ⟨qs[b], hq⟩

include hV hn in
/-- **C99** (partial): `sens_num["dxdp", indexf["_u", 0, 0], indexf["_x0"]]` is the Jacobian of the input that `make_step` returns with respect to the measured state. -/
theorem C99_feedback_gain_partial (hNpos : 0 < cfg.N) (hU : 0 < cfg.nU)
    (hocc : ∀ ps, (cfg.optX V).f "_u" [0, 0] = some ps → ∀ i ∈ ps, N.depX i = true) :
    ∃ D : (Fin d.nx → ℝ) →L[ℝ] (Fin d.nu → ℝ),
      HasFDerivAt (fun ξ : Fin d.nx → ℝ => (cfg.unscaled (cfg.ofX V (ofFin (X (flatParams cfg V _ { Q with x0 := ξ }))))).u 0 0) D Q.x0 ∧
      sensNum (cfg.optX V) (cfg.optP V) o'.dx "_u" [0, 0] "_x0" [] = some (List.ofFn fun i => List.ofFn fun j => some (D (Pi.single j 1) i)) := by
  obtain ⟨ps, hps⟩ := Option.isSome_iff_exists.1 ((C98_accepted _ (optX_distinct cfg V) _ _).2 (exists_u cfg V hNpos hU))
  have hps' : (cfg.optX V).f "_u" [0, 0] = some ps := hps
  have hlen : ps.length = d.nu := by
    have he : (⟨"_u", [cfg.N, cfg.nU], V.u⟩ : SEntry) ∈ cfg.optX V := by simp [MpcCfg.optX]
    rw [f_length _ (optX_distinct cfg V) _ he _ ps hps]
    exact hV.u
  have hqs := x0_positions cfg V hV
  obtain ⟨M, hM, hMl, hMa⟩ := C99_sens_num_partial cfg V N hdep S ht C lin lstsq hlin hcomp hls s Q st st' o o' h hdo hCl hCs hlicq hsc h2 grad g hN hS hg0 hk0 X LG
    LX hX0 hG0 hL0 hXc hGc hLc hk "_u" [0, 0] "_x0" [] ps (List.range d.nx) hps' hqs (hocc ps hps')
  have hnp : d.nx ≤ N.np := by
    rw [hN.np]
    by_contra hcon
    have := f_lt _ (optP_distinct cfg V) _ _ _ hqs (cfg.optP V).size (List.mem_range.2 (by omega))
    omega
  have hscale : ∀ j : Fin d.nu, cfg.scalingFlat V (ps[(j : Nat)]'(by omega)) = cfg.su j := by
    intro j
    have := congrFun ((C98_opt_x_round_trip cfg V hV hn cfg.scalingX).u 0 hNpos 0 hU) j
    rw [show (cfg.ofX V fun p => (cfg.catX V cfg.scalingX).getD p 0).u 0 0 j = ((cfg.optX V).read (cfg.scalingFlat V) "_u" [0, 0]).getD j 0 from rfl,
      read_f _ _ _ _ ps hps', List.getD_eq_getElem?_getD, List.getElem?_map, List.getElem?_eq_getElem (by omega)] at this
    exact this
  have hu : ∀ (q : Fin N.np → ℝ) (j : Fin d.nu), (cfg.unscaled (cfg.ofX V (ofFin (X q)))).u 0 0 j =
      cfg.scalingFlat V (ps[(j : Nat)]'(by omega)) * ofFin (X q) (ps[(j : Nat)]'(by omega)) := by
    intro q j
    rw [hscale j]
    show ((cfg.optX V).read (ofFin (X q)) "_u" [0, 0]).getD j 0 * cfg.su j = _
    rw [read_f _ _ _ _ ps hps', List.getD_eq_getElem?_getD, List.getElem?_map, List.getElem?_eq_getElem (by omega), mul_comm]
    rfl
  choose hrow D hD hDb using fun j : Fin d.nu => hMa j (by omega) (by omega)
  refine ⟨(ContinuousLinearMap.pi D).comp (x0Dir d.nx N.np), ?_, ?_⟩
  · have h1 : HasFDerivAt (fun q => (cfg.unscaled (cfg.ofX V (ofFin (X q)))).u 0 0) (ContinuousLinearMap.pi D) (flatParams cfg V N.np { Q with x0 := Q.x0 }) := by
      rw [hasFDerivAt_pi']
      intro j
      have := hD j
      simp only [← hu _ j] at this
      exact this
    exact h1.comp Q.x0 (hasFDerivAt_flatParams cfg V N.np Q Q.x0)
  · rw [hM]
    refine congrArg some (List.ext_getElem (by simp [hMl, hlen]) fun a h1 h3 => ?_)
    rw [List.getElem_ofFn]
    have ha : a < d.nu := by simpa using h3
    refine List.ext_getElem (by rw [hrow ⟨a, ha⟩]; simp) fun b h4 h5 => ?_
    have hb : b < d.nx := by simpa using h5
    rw [List.getElem_ofFn]
    rw [hDb ⟨a, ha⟩ b (by simpa using hb) h4 (by rw [List.getElem_range]; omega)]
    refine congrArg some ?_
    show D ⟨a, ha⟩ _ = D ⟨a, ha⟩ (x0Dir d.nx N.np (Pi.single ⟨b, hb⟩ 1))
    rw [x0Dir_single d.nx N.np hnp ⟨b, hb⟩]
    simp only [List.getElem_range]

end Sens
end DoMpc
