import Verif.Props.MpcOptimal
import Verif.Spec.Robustness

/-! # Property C105: a controller that asks for less is feasible whenever the other is, with the same input -/
set_option linter.unusedSectionVars false
namespace DoMpc
open Spec
variable {K : Type} [Field K] [LinearOrder K] [IsStrictOrderedRing K] {d : Dims}

/-! ## histories of the smaller tree in the larger one -/

/-- the history of the larger tree in which the same has happened: `σ` translates realisations, the one chosen last goes on -/
def embed (nR nR' : Nat) (σ : Nat → Nat) (k : Nat) (h : List Nat) : List Nat :=
  h.map σ ++ List.replicate (min k nR - min k nR') (σ (h.getLastD 0))

section
variable {c c' nR nR' : Nat} {σ : Nat → Nat}

theorem getLastD_lt {c : Nat} (hc : 0 < c) {h : List Nat} (hh : ∀ b ∈ h, b < c) : h.getLastD 0 < c := by
  cases h using List.reverseRecOn with
  | nil => exact hc
  | append_singleton l a => rw [List.getLastD_concat]; exact hh a (by simp)

theorem embed_isHistory (hc : 0 < c') (hR : nR' ≤ nR) (hσ : ∀ r < c', σ r < c) {k : Nat} {h : List Nat} (hh : IsHistory c' nR' k h) :
    IsHistory c nR k (embed nR nR' σ k h) := by
  refine ⟨?_, ?_⟩
  · unfold embed
    rw [List.length_append, List.length_map, List.length_replicate, hh.1]
    omega
  · intro b hb
    unfold embed at hb
    rcases List.mem_append.1 hb with hb | hb
    · obtain ⟨a, ha, rfl⟩ := List.mem_map.1 hb
      exact hσ a (hh.2 a ha)
    · rw [List.eq_of_mem_replicate hb]
      exact hσ _ (getLastD_lt hc hh.2)

theorem mayOccur_lt (hc : 0 < c') {k : Nat} {h : List Nat} (hh : IsHistory c' nR' k h) {r : Nat} (hr : MayOccur c' nR' k h r) : r < c' := by
  unfold MayOccur at hr
  split_ifs at hr with hk
  · exact hr
  · rw [hr]; exact getLastD_lt hc hh.2

theorem embed_mayOccur (hc : 0 < c') (hR : nR' ≤ nR) (hσ : ∀ r < c', σ r < c) (h0 : nR = 0 → σ 0 = 0) {k : Nat} {h : List Nat} (hh : IsHistory c' nR' k h)
    {r : Nat} (hr : MayOccur c' nR' k h r) : MayOccur c nR k (embed nR nR' σ k h) (σ r) := by
  have hlt := mayOccur_lt hc hh hr
  unfold MayOccur
  split_ifs with hk
  · exact hσ r hlt
  · unfold MayOccur at hr
    rw [if_neg (by omega)] at hr
    subst hr
    unfold embed
    have hl := hh.1
    have e : min k nR - min k nR' = nR - nR' := by omega
    rw [e]
    cases hn : nR - nR' with
    | zero =>
      simp only [List.replicate_zero, List.append_nil]
      cases h using List.reverseRecOn with
      | nil =>
        have hz : nR = 0 := by simp at hl; omega
        exact h0 hz
      | append_singleton l a => simp
    | succ n =>
      rw [List.replicate_succ', ← List.append_assoc, List.getLastD_concat]

theorem embed_extend (hR : nR' ≤ nR) {k : Nat} {h : List Nat} (hh : IsHistory c' nR' k h) {r : Nat} (hr : MayOccur c' nR' k h r) :
    embed nR nR' σ (k + 1) (extend nR' k h r) = extend nR k (embed nR nR' σ k h) (σ r) := by
  unfold MayOccur at hr
  unfold extend embed
  by_cases hk : k < nR'
  · rw [if_pos hk, if_pos (by omega)]
    have e1 : min (k + 1) nR - min (k + 1) nR' = 0 := by omega
    have e2 : min k nR - min k nR' = 0 := by omega
    rw [e1, e2]
    simp
  · rw [if_neg hk] at hr ⊢
    subst hr
    by_cases hk2 : k < nR
    · rw [if_pos hk2]
      have e1 : min (k + 1) nR - min (k + 1) nR' = (min k nR - min k nR') + 1 := by omega
      rw [e1, List.replicate_succ', List.append_assoc]
    · rw [if_neg hk2]
      have e1 : min (k + 1) nR - min (k + 1) nR' = min k nR - min k nR' := by omega
      rw [e1]

end

/-! ## slacks -/

open Classical in
/-- the slack of a constraint that was hard is zero -/
noncomputable def easedSlack (nl : List (NlCall K d)) (e : Eps K) : Eps K := fun nm i => if ∃ call ∈ nl, call.name = nm ∧ call.soft = true then e nm i else 0

theorem eased_call {nl : List (NlCall K d)} (hn : (nl.map (·.name)).Nodup) {call call' : NlCall K d} (hc : call ∈ nl) (h : NoHarder call call') (e : Eps K) (i : Nat) :
    easedSlack nl e call'.name i = if call.soft = true then e call.name i else 0 := by
  unfold easedSlack
  rw [h.name]
  by_cases hs : call.soft = true
  · rw [if_pos ⟨call, hc, rfl, hs⟩, if_pos hs]
  · rw [if_neg, if_neg hs]
    rintro ⟨c2, h2, e2, s2⟩
    have : c2 = call := List.inj_on_of_nodup_map hn h2 hc e2
    exact hs (this ▸ s2)

/-- a constraint that holds still holds when eased -/
theorem eased_holds {nl : List (NlCall K d)} (hn : (nl.map (·.name)).Nodup) {call call' : NlCall K d} (hc : call ∈ nl) (h : NoHarder call call') (e : Eps K)
    (i : Nat) (v : K) (hv : if call.soft = true then call.ub.ge (v - e call.name i) else call.ub.ge v) :
    if call'.soft = true then call'.ub.ge (v - easedSlack nl e call'.name i) else call'.ub.ge v := by
  rw [eased_call hn hc h]
  by_cases hs : call.soft = true
  · rw [if_pos hs] at hv
    rw [if_pos (h.soft hs).1, if_pos hs]
    exact h.ub _ hv
  · rw [if_neg hs] at hv
    rw [if_neg hs, sub_zero, ite_self]
    exact h.ub _ hv

theorem eased_slack {nl : List (NlCall K d)} (hn : (nl.map (·.name)).Nodup) {call call' : NlCall K d} (hc : call ∈ nl) (h : NoHarder call call') (e : Eps K)
    (i : Nat) (hv : call.soft = true → 0 ≤ e call.name i ∧ call.maxViolation.ge (e call.name i)) (hs' : call'.soft = true) :
    0 ≤ easedSlack nl e call'.name i ∧ call'.maxViolation.ge (easedSlack nl e call'.name i) := by
  rw [eased_call hn hc h]
  by_cases hs : call.soft = true
  · rw [if_pos hs]
    exact ⟨(hv hs).1, (h.soft hs).2 _ (hv hs).2⟩
  · rw [if_neg hs]
    exact ⟨le_refl _, h.made_soft (by simpa using hs) hs'⟩

/-! ## the theorem -/

/-- **C105** (discrete time): less demanding settings are feasible whenever the others are, with the same first input. -/
theorem C105_feasible (m : DaeModel K d) (cfg cfg' : MpcCfg K d) (hR : cfg.RegularConstraints m) (hR' : cfg'.RegularConstraints m) (q q' : OptP K d)
    (h : LessDemanding cfg cfg' q q') (w : OptX K d) (hw : cfg.Feasible w q) :
    ∃ w', cfg'.Feasible w' q' ∧ ∀ j, w'.u 0 0 j * cfg'.su j = w.u 0 0 j * cfg.su j := by
  have hA := feasible_is_admissible cfg m hR w q hw
  obtain ⟨σ, hσ, h0⟩ := h.realisations
  have hσc : ∀ r < cfg'.c, σ r < cfg.c := fun r hr => (hσ r hr).1
  set π := cfg.policy w with hπ
  set φ := embed cfg.nRobust cfg'.nRobust σ with hφ
  set π' : Policy K d := ⟨fun k hh => π.X k (φ k hh), fun k hh => π.U k (φ k hh), fun k hh => π.Z k (φ (k + 1) hh), fun k hh => easedSlack cfg.nl (π.E k (φ k hh))⟩ with hπ'
  have hist : ∀ {k hh}, IsHistory cfg'.c cfg'.nRobust k hh → IsHistory cfg.c cfg.nRobust k (φ k hh) := fun hh => embed_isHistory hR'.cpos h.robust hσc hh
  have may : ∀ {k hh r}, IsHistory cfg'.c cfg'.nRobust k hh → MayOccur cfg'.c cfg'.nRobust k hh r → MayOccur cfg.c cfg.nRobust k (φ k hh) (σ r) :=
    fun hh hr => embed_mayOccur hR'.cpos h.robust hσc h0 hh hr
  have ext : ∀ {k hh r}, IsHistory cfg'.c cfg'.nRobust k hh → MayOccur cfg'.c cfg'.nRobust k hh r →
      φ (k + 1) (extend cfg'.nRobust k hh r) = extend cfg.nRobust k (φ k hh) (σ r) := fun hh hr => embed_extend h.robust hh hr
  have par : ∀ {k hh r}, IsHistory cfg'.c cfg'.nRobust k hh → MayOccur cfg'.c cfg'.nRobust k hh r → q'.p r = q.p (σ r) :=
    fun hh hr => (hσ _ (mayOccur_lt hR'.cpos hh hr)).2
  have hle := h.horizon.2
  have φ0 : φ 0 [] = [] := by simp [hφ, embed]
  have hA' : (cfg'.problem m q').Admissible π' := by
    constructor
    · refine ⟨?_, ?_⟩
      · show π.X 0 (φ 0 []) = q'.x0
        rw [φ0, h.start]; exact hA.dynamics.1
      · intro k hk hh hhist r hr
        have hk : k < cfg'.N := hk
        have := hA.dynamics.2 k (lt_of_lt_of_le hk hle) (φ k hh) (hist hhist) (σ r) (may hhist hr)
        show m.alg (π.X k (φ k hh)) (π.U k (φ k hh)) (π.Z k (φ (k + 1) (extend cfg'.nRobust k hh r))) (q'.tvp k) (q'.p r) 0 = 0 ∧
          π.X (k + 1) (φ (k + 1) (extend cfg'.nRobust k hh r)) = m.rhs (π.X k (φ k hh)) (π.U k (φ k hh)) (π.Z k (φ (k + 1) (extend cfg'.nRobust k hh r))) (q'.tvp k) (q'.p r) 0
        rw [ext hhist hr, par hhist hr, h.tvp]
        exact this
    · intro k h1 hk hh hhist j
      have hk : k < cfg'.N := hk
      have := hA.states k h1 (lt_of_lt_of_le hk hle) (φ k hh) (hist hhist) j
      exact h.states j _ this.1 this.2
    · intro hh hhist j
      rcases hle.eq_or_lt with e | e
      · have h2 : IsHistory cfg.c cfg.nRobust cfg.N (φ cfg'.N hh) := e ▸ hist hhist
        have := hA.terminal (φ cfg'.N hh) h2 j
        show (cfg'.xtlb j).le (π.X cfg'.N (φ cfg'.N hh) j) ∧ (cfg'.xtub j).ge (π.X cfg'.N (φ cfg'.N hh) j)
        have e2 : π.X cfg'.N (φ cfg'.N hh) = π.X cfg.N (φ cfg'.N hh) := by rw [← e]
        rw [e2]
        exact h.terminal e j _ this.1 this.2
      · have := hA.states cfg'.N h.horizon.1 e (φ cfg'.N hh) (hist hhist) j
        exact h.terminal_shorter e j _ this.1 this.2
    · intro k hk hh hhist j
      have hk : k < cfg'.N := hk
      have := hA.inputs k (lt_of_lt_of_le hk hle) (φ k hh) (hist hhist) j
      exact h.inputs j _ this.1 this.2
    · intro k hk hh hhist j
      have hk : k < cfg'.N := hk
      have := hA.algebraic k (lt_of_lt_of_le hk hle) (φ (k + 1) hh) (hist hhist) j
      exact h.algebraic j _ this.1 this.2
    · intro k hk hh hhist r hr call' hcall' i hi
      have hk : k < cfg'.N := hk
      obtain ⟨call, hcall, hc⟩ := h.constraints call' hcall'
      have := hA.constraints k (lt_of_lt_of_le hk hle) (φ k hh) (hist hhist) (σ r) (may hhist hr) call hcall i (hc.dim ▸ hi)
      show if call'.soft = true then
        call'.ub.ge (call'.expr (π.X k (φ k hh)) (π.U k (φ k hh)) (π.Z k (φ (k + 1) (extend cfg'.nRobust k hh r))) (q'.tvp k) (q'.p r) i
          - easedSlack cfg.nl (π.E k (φ k hh)) call'.name i)
        else call'.ub.ge (call'.expr (π.X k (φ k hh)) (π.U k (φ k hh)) (π.Z k (φ (k + 1) (extend cfg'.nRobust k hh r))) (q'.tvp k) (q'.p r) i)
      rw [ext hhist hr, par hhist hr, h.tvp, hc.expr]
      exact eased_holds hR.names hcall hc _ i _ this
    · intro k hk hh hhist call' hcall' hs i hi
      have hk : k < cfg'.N := hk
      obtain ⟨call, hcall, hc⟩ := h.constraints call' hcall'
      exact eased_slack hR.names hcall hc _ i
        (fun hs => hA.slacks k (lt_of_lt_of_le hk hle) (φ k hh) (hist hhist) call hcall hs i (hc.dim ▸ hi)) hs
    · intro ho k hk h1 h2 hh1 hh2
      have hk : k < cfg'.N := hk
      exact hA.oneInput (h.openLoop ho) k (lt_of_lt_of_le hk hle) (φ k h1) (φ k h2) (hist hh1) (hist hh2)
  refine ⟨cfg'.encode π', admissible_is_feasible cfg' m hR' q' π' hA', fun j => ?_⟩
  have e0 : IsHistory cfg'.c cfg'.nRobust 0 [] := ⟨by simp, by simp⟩
  have e1 := congrFun (encode_U cfg' m hR' π' q' hA' h.horizon.1 e0) j
  have e2 : cfg'.U (cfg'.encode π') 0 [] j = (cfg'.encode π').u 0 0 j * cfg'.su j := by simp [MpcCfg.U, number, MpcCfg.uPhys]
  have e3 : π'.U 0 [] j = w.u 0 0 j * cfg.su j := by
    show π.U 0 (φ 0 []) j = _
    rw [φ0]
    simp [hπ, MpcCfg.policy, MpcCfg.U, number, MpcCfg.uPhys]
  rw [← e2, e1, e3]

end DoMpc
