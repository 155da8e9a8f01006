import Verif.Model.PredictionAux
import Verif.Props.Prediction
import Verif.Props.MpcRun2
import Verif.Lemmas.Files

/-! # C64 — predictions of auxiliary expressions and parameters -/
set_option linter.unusedSectionVars false
namespace DoMpc
open Spec
variable {K : Type} [Field K] [LinearOrder K] [IsStrictOrderedRing K] {d : Dims}

/-- the auxiliary expressions of a node are those of the last branch -/
theorem auxAt_eq (cfg : MpcCfg K d) (m : DaeModel K d) (hc : 0 < cfg.c) (w : OptX K d) (q : OptP K d) {k : Nat} (hk : k < cfg.N) {h : List Nat}
    (hh : IsHistory cfg.c cfg.nRobust k h) :
    cfg.auxAt m w q k (number cfg.c h) = m.aux (cfg.X w k h) (cfg.U w k h) (cfg.Z w cfg.zLast k h) (q.tvp k)
      (q.p (if k < cfg.nRobust then cfg.c - 1 else h.getLastD 0)) := by
  have hb := branches_map cfg hc hk hh (fun _ r => r)
  simp only [List.map_id'] at hb
  have hf : cfg.auxAt m w q k (number cfg.c h) = ((List.range (nBranches cfg.c cfg.nRobust k)).map (fun b => cfg.cur k (number cfg.c h) b)).foldl
      (fun _ r => m.aux (cfg.X w k h) (cfg.U w k h) (cfg.Z w cfg.zLast k h) (q.tvp k) (q.p r)) 0 := by
    unfold MpcCfg.auxAt
    rw [List.foldl_map]
    rfl
  rw [hf, hb]
  unfold occurring
  split_ifs with hr
  · obtain ⟨n, hn⟩ : ∃ n, cfg.c = n + 1 := ⟨cfg.c - 1, by omega⟩
    rw [hn, List.range_succ, List.foldl_append]
    simp
  · simp

/-- the row selected by a time index -/
theorem predRow2_eq {α : Type} (sols : List α) (t : Int) (w : α)
    (ht : if 0 ≤ t then sols[t.toNat]? = some w else sols.reverse[(-t - 1).toNat]? = some w) : pyIndex sols t = some w := by
  unfold pyIndex
  by_cases h0 : 0 ≤ t
  · rw [if_pos h0] at ht; rw [if_pos h0, ht]
  · rw [if_neg h0] at ht
    have hlt : (-t - 1).toNat < sols.length := by
      by_contra hcon
      rw [List.getElem?_eq_none (by simpa using Nat.le_of_not_lt hcon)] at ht
      cases ht
    rw [List.getElem?_reverse hlt] at ht
    have h1 : -(sols.length : Int) ≤ t := by omega
    have h2 : ((sols.length : Int) + t).toNat = sols.length - 1 - (-t - 1).toNat := by omega
    rw [if_neg h0, if_pos h1, h2, ht]

/-- **C64**, exact for robust horizons up to 2: column `σ` of the predicted auxiliary expressions is evaluated along the states, inputs, algebraic states
and time-varying parameters of scenario `σ`; inside the robust horizon with the *last* realisation, afterwards with the realisation of `σ`. -/
theorem C64_aux_exact (cfg : MpcCfg K d) (m : DaeModel K d) (hc : 0 < cfg.c) (hN : 0 < cfg.N)
    (hext : cfg.c = 1 ∨ cfg.nRobust = 0 ∨ (cfg.nRobust ≤ 2 ∧ cfg.nRobust < cfg.N)) (hz : cfg.NoAlgBranching)
    (sols : List (OptX K d × OptP K d)) (t : Int) (w : OptX K d) (q : OptP K d)
    (ht : if 0 ≤ t then sols[t.toNat]? = some (w, q) else sols.reverse[(-t - 1).toNat]? = some (w, q)) (σ : List Nat)
    (hσ : IsHistory cfg.c cfg.nRobust cfg.N σ) (k : Nat) (hk : k < cfg.N) :
    cfg.predAux m sols t k (number cfg.c σ) = some (m.aux (cfg.X w k (known cfg.nRobust k σ)) (cfg.U w k (known cfg.nRobust k σ))
      (cfg.Z w cfg.zLast k (known cfg.nRobust (k + 1) σ)) (q.tvp k) (q.p (if k < cfg.nRobust then cfg.c - 1 else realisation cfg.nRobust k σ))) := by
  have hcol := (C20_columns_are_scenarios_iff cfg.N cfg.nRobust cfg.c hc hN).mpr hext σ hσ k hk.le
  have hkn : IsHistory cfg.c cfg.nRobust k (known cfg.nRobust k σ) := by
    unfold known; exact ⟨by rw [List.length_take, hσ.1]; omega, fun b hb => hσ.2 b (List.mem_of_mem_take hb)⟩
  have hre : MayOccur cfg.c cfg.nRobust k (known cfg.nRobust k σ) (realisation cfg.nRobust k σ) := by
    unfold MayOccur realisation known
    split_ifs with hkR
    · have hl : k < σ.length := by rw [hσ.1]; omega
      rw [List.getD_eq_getElem?_getD, List.getElem?_eq_getElem hl, Option.getD_some]
      exact hσ.2 _ (List.getElem_mem hl)
    · rw [List.take_of_length_le (by rw [hσ.1]; omega)]
  have hex : extend cfg.nRobust k (known cfg.nRobust k σ) (realisation cfg.nRobust k σ) = known cfg.nRobust (k + 1) σ := by
    unfold extend realisation known
    split_ifs with hkR
    · have hl : k < σ.length := by rw [hσ.1]; omega
      rw [show min k cfg.nRobust = k by omega, show min (k + 1) cfg.nRobust = k + 1 by omega,
        List.getD_eq_getElem?_getD, List.getElem?_eq_getElem hl, Option.getD_some, List.take_succ_eq_append_getElem hl]
    · rw [show min k cfg.nRobust = min (k + 1) cfg.nRobust by omega]
  unfold MpcCfg.predAux predRow2 MpcCfg.tree
  rw [predRow2_eq sols t (w, q) ht, hcol, Int.toNat_natCast, Option.map_some, auxAt_eq cfg m hc w q hk hkn]
  rw [← hex, noAlgBranching_Z cfg hz w _ k hkn hre]
  have : (known cfg.nRobust k σ).getLastD 0 = realisation cfg.nRobust k σ ∨ k < cfg.nRobust := by
    by_cases hkR : k < cfg.nRobust
    · exact Or.inr hkR
    · left
      unfold known realisation
      rw [if_neg hkR, List.take_of_length_le (by rw [hσ.1]; omega)]
  rcases this with h | h
  · rw [h]
  · simp [h]

/-- **C64** (partial: stages inside the robust horizon only with a single realisation): the predicted auxiliary expressions of scenario `σ` are
the auxiliary expressions of the states, inputs, algebraic states and parameters predicted for `σ`. -/
theorem C64_aux_partial (cfg : MpcCfg K d) (m : DaeModel K d) (hc : 0 < cfg.c) (hN : 0 < cfg.N)
    (hext : cfg.c = 1 ∨ cfg.nRobust = 0 ∨ (cfg.nRobust ≤ 2 ∧ cfg.nRobust < cfg.N)) (hz : cfg.NoAlgBranching)
    (sols : List (OptX K d × OptP K d)) (t : Int) (w : OptX K d) (q : OptP K d)
    (ht : if 0 ≤ t then sols[t.toNat]? = some (w, q) else sols.reverse[(-t - 1).toNat]? = some (w, q)) (σ : List Nat)
    (hσ : IsHistory cfg.c cfg.nRobust cfg.N σ) (k : Nat) (hk : k < cfg.N) (hnom : cfg.nRobust ≤ k ∨ cfg.c = 1) :
    cfg.predAux m sols t k (number cfg.c σ) = some (m.aux (cfg.X w k (known cfg.nRobust k σ)) (cfg.U w k (known cfg.nRobust k σ))
      (cfg.Z w cfg.zLast k (known cfg.nRobust (k + 1) σ)) (q.tvp k) (q.p (realisation cfg.nRobust k σ))) := by
  rw [C64_aux_exact cfg m hc hN hext hz sols t w q ht σ hσ k hk]
  split_ifs with h
  · have hc1 : cfg.c = 1 := hnom.resolve_left (by omega)
    have hr : realisation cfg.nRobust k σ = 0 := by
      unfold realisation
      rw [if_pos h]
      have hl : k < σ.length := by rw [hσ.1]; omega
      rw [List.getD_eq_getElem?_getD, List.getElem?_eq_getElem hl, Option.getD_some]
      have := hσ.2 _ (List.getElem_mem hl)
      omega
    rw [hr, hc1]
  · rfl

/-- **C64 fails** inside the robust horizon: in the robust example with the parameter itself as auxiliary expression, the prediction for scenario `[0]`
(parameter 0) shows the parameter of scenario `[1]`. -/
theorem C64_fails_robust_horizon :
    ∃ (m : DaeModel ℚ { exDims with naux := 1 }) (cfg : MpcCfg ℚ { exDims with naux := 1 }) (w : OptX ℚ { exDims with naux := 1 })
      (q : OptP ℚ { exDims with naux := 1 }),
      (∀ x u z tv p, m.aux x u z tv p = p) ∧ cfg.ifcn = discreteIfcn m cfg.sx cfg.su cfg.sz 1 ∧ cfg.Feasible w q ∧
      q.p 0 ⟨0, by decide⟩ = 0 ∧ (cfg.predAux m [(w, q)] 0 0 (number 2 [0])).map (· ⟨0, by decide⟩) = some 1 := by
  let m : DaeModel ℚ { exDims with naux := 1 } := { exModel with aux := fun _ _ _ _ p => p }
  refine ⟨m, { N := 2, nRobust := 1, c := 2, ifcn := discreteIfcn m (fun _ => 2) (fun _ => 3) (fun _ => 1) 1
               sx := fun _ => 2, su := fun _ => 3, sz := fun _ => 1
               xlb := fun _ => .ninf, xub := fun _ => .pinf, ulb := fun _ => .ninf, uub := fun _ => .pinf
               zlb := fun _ => .ninf, zub := fun _ => .pinf, xtlb := fun _ => .ninf, xtub := fun _ => .pinf
               nl := [], lterm := fun _ _ _ _ _ => 0, mterm := fun _ _ _ => 0, rterm := .factor fun _ => 0 },
    ⟨exW.x, exW.z, exW.u, exW.eps⟩, ⟨exQ.x0, exQ.tvp, exQ.p, exQ.uPrev⟩, fun _ _ _ _ _ => rfl, rfl, ?_, ?_, ?_⟩ <;> decide +kernel

/-- **C64** (partial: scalar time-varying parameters): the prediction shows the parameter of every step `0, …, N`. -/
theorem C64_tvp_partial (cfg : MpcCfg K d) (sols : List (OptX K d × OptP K d)) (t : Int) (w : OptX K d) (q : OptP K d)
    (ht : if 0 ≤ t then sols[t.toNat]? = some (w, q) else sols.reverse[(-t - 1).toNat]? = some (w, q)) (off : Fin d.ntv) :
    cfg.predTvpCols 1 = cfg.N + 1 ∧ ∀ k ≤ cfg.N, cfg.predTvp sols off 1 t k = some (q.tvp k off) := by
  refine ⟨by simp [MpcCfg.predTvpCols], fun k hk => ?_⟩
  unfold MpcCfg.predTvp predRow2
  rw [predRow2_eq sols t (w, q) ht]
  simp only [Option.bind_some, Nat.mul_one, Nat.mod_one, Nat.add_zero, Nat.div_one, off.isLt, dite_true]
  rw [if_pos (by omega)]

/-- **C64 fails** for vector-valued time-varying parameters: the elements are mixed with the time steps, so that column 1 shows the second element
of step 0 instead of step 1. -/
theorem C64_fails_vector_tvp (cfg : MpcCfg K d) (sols : List (OptX K d × OptP K d)) (t : Int) (w : OptX K d) (q : OptP K d)
    (ht : if 0 ≤ t then sols[t.toNat]? = some (w, q) else sols.reverse[(-t - 1).toNat]? = some (w, q)) (off size : Nat) (hs : 2 ≤ size) (ho : off + size ≤ d.ntv) :
    cfg.predTvpCols size ≠ cfg.N + 1 ∧ cfg.predTvp sols off size t 1 = some (q.tvp 0 ⟨off + 1, by omega⟩) := by
  constructor
  · unfold MpcCfg.predTvpCols
    have : (cfg.N + 1) * 2 ≤ (cfg.N + 1) * size := Nat.mul_le_mul_left _ hs
    omega
  · unfold MpcCfg.predTvp predRow2
    rw [predRow2_eq sols t (w, q) ht]
    have h1 : 1 % size = 1 := Nat.mod_eq_of_lt hs
    have h2 : 1 / size = 0 := Nat.div_eq_of_lt hs
    have h3 : 1 < (cfg.N + 1) * size := lt_of_lt_of_le (by omega) (Nat.le_mul_of_pos_left size (by omega))
    have h4 : off + 1 < d.ntv := by omega
    simp only [Option.bind_some, h1, h2, h3, h4, if_true, dite_true]

/-! ## the query cache -/

/-- a history of queries -/
def predRun {F : Type} (resolve : List String → Except String F) : List (List String × F) → List (List String) → List (List String × F)
  | c, [] => c
  | c, i :: is => predRun resolve (predQuery resolve c i).1 is

/-- **C64**: the cache never shows: after any queries, a query resolves to the indices CasADi gives for it; other variable types are refused
(in particular the parameters `_p`). -/
theorem C64_cache {F : Type} (resolve : List String → Except String F) (hist : List (List String)) (ind : List String) :
    (predQuery resolve (predRun resolve [] hist) ind).2 =
      match ind with
      | [] => .error "IndexError"
      | ty :: _ => if ty = "_x" ∨ ty = "_z" ∨ ty = "_u" ∨ ty = "_tvp" ∨ ty = "_aux" then resolve ind else .error "ValueError" := by
  have inv : ∀ (hist : List (List String)) (c : List (List String × F)), (∀ i f, c.lookup i = some f → resolve i = .ok f) →
      ∀ i f, (predRun resolve c hist).lookup i = some f → resolve i = .ok f := by
    intro hist
    induction hist with
    | nil => intro c hc; exact hc
    | cons j js ih =>
      intro c hc
      apply ih
      unfold predQuery
      split
      · exact hc
      · rename_i ty rest
        split
        · exact hc
        · cases hl : c.lookup (ty :: rest) with
          | some f => exact hc
          | none =>
            cases hr : resolve (ty :: rest) with
            | error e => exact hc
            | ok f =>
              intro i g hg
              dsimp only at hg
              rw [List.lookup_append] at hg
              cases hi : c.lookup i with
              | some g' =>
                rw [hi, Option.some_or] at hg
                rw [← Option.some.inj hg]
                exact hc i g' hi
              | none =>
                rw [hi, Option.none_or, List.lookup_cons] at hg
                by_cases hii : i = ty :: rest
                · subst hii
                  simp only [beq_self_eq_true, Option.some.injEq] at hg
                  rw [hr, hg]
                · rw [beq_false_of_ne hii] at hg
                  simp at hg
  unfold predQuery
  cases ind with
  | nil => rfl
  | cons ty rest =>
    dsimp only
    have hk : (!predKnown ty) = true ↔ ¬ (ty = "_x" ∨ ty = "_z" ∨ ty = "_u" ∨ ty = "_tvp" ∨ ty = "_aux") := by
      simp [predKnown]
    by_cases h : ty = "_x" ∨ ty = "_z" ∨ ty = "_u" ∨ ty = "_tvp" ∨ ty = "_aux"
    · rw [if_neg (by rw [hk]; exact not_not.2 h), if_pos h]
      cases hl : (predRun resolve [] hist).lookup (ty :: rest) with
      | some f => exact (inv hist [] (by simp) _ f hl).symm
      | none => cases hr : resolve (ty :: rest) <;> rfl
    · rw [if_pos (hk.2 h), if_neg h]

/-- **C64 fails** for model parameters: their prediction is refused although the documentation lists `_p`. -/
theorem C64_fails_parameters {F : Type} (resolve : List String → Except String F) (c : List (List String × F)) (name : String) :
    (predQuery resolve c ["_p", name]).2 = .error "ValueError" := rfl

/-- non-vacuity: the robust example, scenario `[1]`, second stage -/
example : exCfg.nRobust ≤ 1 ∧ 1 < exCfg.N ∧ exCfg.NoAlgBranching ∧ 0 < exCfg.c ∧ (exCfg.nRobust ≤ 2 ∧ exCfg.nRobust < exCfg.N) ∧
    IsHistory exCfg.c exCfg.nRobust exCfg.N [1] ∧ (if (0 : Int) ≤ 0 then [(exW, exQ)][(0 : Int).toNat]? = some (exW, exQ) else False) := by
  refine ⟨by decide, by decide, Or.inl rfl, by decide, by decide, ⟨rfl, by simp [exCfg]⟩, by simp⟩

end DoMpc
