import Verif.Model.Prediction
import Verif.Props.MpcCost

/-! # Property C20: columns of `prediction` and scenarios -/
set_option linter.unusedSectionVars false
namespace DoMpc
open Spec
variable {K : Type} [Field K] [LinearOrder K] [IsStrictOrderedRing K] {d : Dims}

theorem treeTables_struct_last (nk nR c : Nat) (hc : 0 < c) (hn : 0 < nk) {j : Nat} (hj : j < nScenarios c nR nk) :
    (treeTables nk nR c).struct nk j = ((j / nBranches c nR (nk - 1) : Nat) : Int) := by
  rw [(treeTables_eq nk nR c hc).2.2.2, if_neg (by omega), if_pos ⟨hn, rfl, hj⟩]

/-- **C20, exact extent**: `structure_scenario` arranges every scenario in its own column (row `k` of column `j` is the node
that scenario `j` passes at stage `k`) if and only if there is no branching, or the robust horizon is at most 2 and shorter
than the prediction horizon. -/
theorem C20_columns_are_scenarios_iff (N nR c : Nat) (hc : 0 < c) (hN : 0 < N) :
    (∀ σ, IsHistory c nR N σ → ∀ k ≤ N, (treeTables N nR c).struct k (number c σ) = (number c (known nR k σ) : Int)) ↔
      c = 1 ∨ nR = 0 ∨ (nR ≤ 2 ∧ nR < N) := by
  constructor
  · intro H
    by_contra hcon
    simp only [not_or, not_and, not_lt] at hcon
    obtain ⟨h1, h2, h3⟩ := hcon
    have hc2 : 2 ≤ c := by omega
    by_cases hNR : N ≤ nR
    · have hh : IsHistory c nR N (List.replicate (N - 1) 0 ++ [1]) := by
        refine ⟨by simp; omega, ?_⟩
        intro b hb
        simp only [List.mem_append, List.mem_singleton] at hb
        rcases hb with hb | rfl
        · rw [List.eq_of_mem_replicate hb]; omega
        · omega
      have := H _ hh N le_rfl
      have hnum : number c (List.replicate (N - 1) 0 ++ [1]) = 1 := by rw [number_append, number_replicate_zero]; omega
      have hkn : known nR N (List.replicate (N - 1) 0 ++ [1]) = List.replicate (N - 1) 0 ++ [1] := by
        unfold known; rw [List.take_of_length_le (by simp; omega)]
      have hlt := isHistory_number_lt hh
      rw [hnum] at hlt
      rw [hkn, hnum, treeTables_struct_last N nR c hc hN hlt] at this
      unfold nBranches at this
      rw [if_pos (by omega), Nat.div_eq_of_lt (by omega)] at this
      simp at this
    · have hR3 : 3 ≤ nR := by by_contra h; exact hNR (h3 (by omega))
      have hh : IsHistory c nR N (1 :: List.replicate (nR - 1) 0) := by
        refine ⟨by simp; omega, ?_⟩
        intro b hb
        simp only [List.mem_cons] at hb
        rcases hb with rfl | hb
        · omega
        · rw [List.eq_of_mem_replicate hb]; omega
      have := H _ hh 1 (by omega)
      have hnum : ∀ n, number c (1 :: List.replicate n 0) = c ^ n := by
        intro n
        induction n with
        | zero => simp [number]
        | succ n ih => rw [List.replicate_succ', ← List.cons_append, number_append, ih, pow_succ]; omega
      have hkn : known nR 1 (1 :: List.replicate (nR - 1) 0) = [1] := by
        unfold known; rw [show min 1 nR = 1 by omega]; simp
      rw [hkn, hnum, treeTables_struct N nR c hc (by omega), if_neg] at this
      · simp [number] at this
      · unfold nScenarios
        rw [show min (1 + 1) nR = 2 by omega, not_lt]
        exact Nat.pow_le_pow_right hc (by omega)
  · intro hcase σ hσ k hk
    have hlt := isHistory_number_lt hσ
    -- without branching every number is 0
    have hzero : (c = 1 ∨ nR = 0) → (treeTables N nR c).struct k (number c σ) = (number c (known nR k σ) : Int) := by
      intro h0
      have hn1 : nScenarios c nR N = 1 := by
        unfold nScenarios; rcases h0 with rfl | rfl <;> simp
      have hn0 : number c σ = 0 := by omega
      have hkh : IsHistory c nR k (known nR k σ) := by
        unfold known; exact ⟨by rw [List.length_take, hσ.1]; omega, fun b hb => hσ.2 b (List.mem_of_mem_take hb)⟩
      have hk1 : nScenarios c nR k = 1 := by
        unfold nScenarios; rcases h0 with rfl | rfl <;> simp
      have hk0 : number c (known nR k σ) = 0 := by have := isHistory_number_lt hkh; omega
      rw [hn0, hk0, (treeTables_eq N nR c hc).2.2.2]
      split_ifs <;> simp
    rcases hcase with h0 | h0 | ⟨h2, hRN⟩
    · exact hzero (Or.inl h0)
    · exact hzero (Or.inr h0)
    · have hS : nScenarios c nR N = c ^ nR := by unfold nScenarios; rw [show min N nR = nR by omega]
      rw [hS] at hlt
      have hlen : σ.length = nR := by rw [hσ.1]; omega
      by_cases hkN : k = N
      · subst hkN
        rw [treeTables_struct_last k nR c hc hN (by rw [hS]; exact hlt)]
        unfold nBranches known
        rw [if_neg (by omega), Nat.div_one, List.take_of_length_le (by omega)]
      · rw [treeTables_struct N nR c hc (by omega)]
        unfold known nScenarios nBranches
        by_cases hkR : k < nR
        · rw [if_pos hkR, show min (k + 1) nR = k + 1 by omega, show min k nR = k by omega]
          have hcases : (nR = 1 ∧ k = 0) ∨ (nR = 2 ∧ k = 0) ∨ (nR = 2 ∧ k = 1) := by omega
          rcases hcases with ⟨rfl, rfl⟩ | ⟨rfl, rfl⟩ | ⟨rfl, rfl⟩
          · rw [if_pos (by simpa using hlt)]
            simp only [pow_one] at hlt
            rw [Nat.div_eq_of_lt hlt]; rfl
          · split_ifs with hj
            · simp only [zero_add, pow_one] at hj
              rw [Nat.div_eq_of_lt hj]; rfl
            · simp [number]
          · rw [if_pos hlt]
            match σ, hlen, hσ with
            | [a, b], _, hσ =>
              have hb : b < c := hσ.2 b (by simp)
              simp only [number, List.foldl_cons, List.foldl_nil, List.take_succ_cons, List.take_zero, zero_mul, zero_add]
              congr 1
              rw [Nat.mul_comm, Nat.mul_add_div hc, Nat.div_eq_of_lt hb, Nat.add_zero]
        · rw [show min (k + 1) nR = nR by omega, if_pos hlt, if_neg hkR, Nat.div_one,
            List.take_of_length_le (by omega)]

/-- **C20** (partial: see `C20_columns_are_scenarios_iff` for the exact extent).  In every stored solution, column `σ` of the
predicted states and inputs is the physical trajectory of scenario `σ`.  A time index `t ≥ 0` counts from the first stored solution,
a negative one from the last (`-1`). -/
theorem C20_prediction_is_scenario_partial (cfg : MpcCfg K d) (hc : 0 < cfg.c) (hN : 0 < cfg.N)
    (hext : cfg.c = 1 ∨ cfg.nRobust = 0 ∨ (cfg.nRobust ≤ 2 ∧ cfg.nRobust < cfg.N))
    (sols : List (OptX K d)) (t : Int) (w : OptX K d)
    (ht : if 0 ≤ t then sols[t.toNat]? = some w else sols.reverse[(-t - 1).toNat]? = some w) (σ : List Nat)
    (hσ : IsHistory cfg.c cfg.nRobust cfg.N σ) :
    (∀ k ≤ cfg.N, cfg.predX (sols.map cfg.unscaled) t k (number cfg.c σ) = some (cfg.X w k (known cfg.nRobust k σ))) ∧
    (∀ k < cfg.N, cfg.predU (sols.map cfg.unscaled) t k (number cfg.c σ) = some (cfg.U w k (known cfg.nRobust k σ))) ∧
    (cfg.NoAlgBranching → ∀ k < cfg.N, cfg.predZ (sols.map cfg.unscaled) t k (number cfg.c σ) =
      some (cfg.Z w cfg.zLast k (known cfg.nRobust (k + 1) σ))) := by
  have hcol := (C20_columns_are_scenarios_iff cfg.N cfg.nRobust cfg.c hc hN).mpr hext
  have hrow : predRow (sols.map cfg.unscaled) t = some (cfg.unscaled w) := by
    unfold predRow pyIndex
    have hne : (sols.map cfg.unscaled).isEmpty = false := by
      cases sols with
      | nil => simp at ht
      | cons => rfl
    rw [hne]
    by_cases h0 : 0 ≤ t
    · rw [if_pos h0] at ht
      simp [h0, ht]
    · rw [if_neg h0] at ht
      have hlt : (-t - 1).toNat < sols.length := by
        by_contra hcon
        rw [List.getElem?_eq_none (by simpa using Nat.le_of_not_lt hcon)] at ht
        cases ht
      rw [List.getElem?_reverse hlt] at ht
      have h1 : -((sols.map cfg.unscaled).length : Int) ≤ t := by rw [List.length_map]; omega
      have h2 : (((sols.map cfg.unscaled).length : Int) + t).toNat = sols.length - 1 - (-t - 1).toNat := by
        rw [List.length_map]; omega
      simp only [Bool.false_eq_true, if_false, if_neg h0, if_pos h1, h2, List.getElem?_map, ht, Option.map_some]
  refine ⟨?_, ?_, ?_⟩
  · intro k hk
    unfold MpcCfg.predX MpcCfg.tree
    rw [hrow, hcol σ hσ k hk, Int.toNat_natCast]
    rfl
  · intro k hk
    unfold MpcCfg.predU MpcCfg.tree
    rw [hrow]
    unfold MpcCfg.U
    split_ifs with ho
    · have h0 : IsHistory cfg.c cfg.nRobust cfg.N (List.replicate (min cfg.N cfg.nRobust) 0) :=
        ⟨by simp, fun b hb => by rw [List.eq_of_mem_replicate hb]; exact hc⟩
      have := hcol _ h0 k hk.le
      unfold known at this
      rw [List.take_replicate, number_replicate_zero, number_replicate_zero] at this
      rw [this]; rfl
    · rw [hcol σ hσ k hk.le, Int.toNat_natCast]; rfl
  · intro hz k hk
    unfold MpcCfg.predZ MpcCfg.tree
    rw [hrow, hcol σ hσ k hk.le, Int.toNat_natCast]
    have hkn : IsHistory cfg.c cfg.nRobust k (known cfg.nRobust k σ) := by
      unfold known; exact ⟨by rw [List.length_take, hσ.1]; omega, fun b hb => hσ.2 b (List.mem_of_mem_take hb)⟩
    have hre : MayOccur cfg.c cfg.nRobust k (known cfg.nRobust k σ) (realisation cfg.nRobust k σ) := by
      unfold MayOccur realisation known
      split_ifs with hkR
      · have hl : k < σ.length := by rw [hσ.1]; omega
        rw [List.getD_eq_getElem?_getD, List.getElem?_eq_getElem hl, Option.getD_some]
        exact hσ.2 _ (List.getElem_mem hl)
      · rw [List.take_of_length_le (by rw [hσ.1]; omega)]
    have hex : extend cfg.nRobust k (known cfg.nRobust k σ) (realisation cfg.nRobust k σ) = known cfg.nRobust (k + 1) σ := by
      unfold extend realisation known
      split_ifs with hkR
      · have hl : k < σ.length := by rw [hσ.1]; omega
        rw [show min k cfg.nRobust = k by omega, show min (k + 1) cfg.nRobust = k + 1 by omega,
          List.getD_eq_getElem?_getD, List.getElem?_eq_getElem hl, Option.getD_some, List.take_succ_eq_append_getElem hl]
      · rw [show min k cfg.nRobust = min (k + 1) cfg.nRobust by omega]
    rw [← hex, noAlgBranching_Z cfg hz w _ k hkn hre]
    rfl

/-- **C20 is false for a robust horizon of 3** (two realisations, horizon 4): column 4 belongs to the scenario `[1,0,0]`, but its
stage-1 entry is node 0, the node of the scenarios that start with realisation 0. -/
theorem C20_fails_robust_horizon_3 :
    number 2 [1, 0, 0] = 4 ∧ (treeTables 4 3 2).struct 1 4 = 0 ∧ number 2 (known 3 1 [1, 0, 0]) = 1 := by
  decide

/-- **C20 is false when `n_robust = n_horizon`**: the last row of column 1 shows leaf 0. -/
theorem C20_fails_full_robust_horizon :
    number 2 [1] = 1 ∧ (treeTables 1 1 2).struct 1 1 = 0 ∧ number 2 (known 1 1 [1]) = 1 := by decide

/-- **C20 is false for algebraic states under branching**: in the DAE example, the algebraic state predicted for scenario `[1]`
in the first interval is that of scenario `[0]`. -/
theorem C20_fails_algebraic_states :
    exDae.predZ ([exDaeW].map exDae.unscaled) (-1) 0 (number 2 [1]) = some (exDae.Z exDaeW 0 0 [0]) ∧
      exDae.Z exDaeW 0 0 [0] ≠ exDae.Z exDaeW 0 0 (known 1 1 [1]) := by
  constructor
  · rfl
  · intro h
    have := congrFun h ⟨0, by decide⟩
    exact absurd this (by decide +kernel)

/-- Non-vacuity of the partial theorem: the robust example, scenario `[1]`. -/
example : exCfg.predX ([exW].map exCfg.unscaled) 0 2 (number 2 [1]) = some (exCfg.X exW 2 [1]) := rfl
example : (exCfg.nRobust ≤ 2 ∧ exCfg.nRobust < exCfg.N) ∧ IsHistory exCfg.c exCfg.nRobust exCfg.N [1] := by
  refine ⟨by decide, rfl, by simp [exCfg]⟩

end DoMpc
