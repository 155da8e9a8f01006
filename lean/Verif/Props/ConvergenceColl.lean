import Verif.Props.Convergence
import Verif.Props.GuaranteesColl

/-! # Property C103: asymptotic stability of the closed loop with nominal MPC, continuous-time models -/
set_option linter.unusedSectionVars false
namespace DoMpc
open Spec Polynomial
variable {K : Type} [Field K] [LinearOrder K] [IsStrictOrderedRing K] {d : Dims}

section
variable {EM : MpcEnv K d} {s : Scheme K}

/-- **C103**: a controller that starts in the terminal set has a plan that costs at most the terminal cost of the state. -/
theorem C103_terminal_plan (hR : EM.cfg.CollRegular EM.model s.deg s.ni s.tau s.tStep) (hnom : EM.cfg.nRobust = 0) (hcon : ConsistentPredictions EM)
    (hT : TerminalCostAlong s EM)
    (hch : EM.cfg.rterm = .factor fun _ => 0) (t : K) (q : OptP K d) (htv : q.tvp = EM.tvpFun t) (hp : q.p = EM.pFun t)
    (hx : Within EM.cfg.xtlb EM.cfg.xtub q.x0) :
    ∃ w, EM.cfg.Feasible w q ∧ EM.cfg.obj w q ≤ EM.cfg.mterm q.x0 (EM.tvpFun t 0) (EM.pFun t 0) := by
  have hdec : ∀ k x, ∃ u x' P ζ, k ≤ EM.cfg.N → Within EM.cfg.xtlb EM.cfg.xtub x → KeepsTerminalAlong s EM.cfg EM.model (q.tvp k) (q.p 0) x u x' P ζ ∧
      (k < EM.cfg.N → EM.cfg.lterm x u (ζ 0 0) (q.tvp k) (q.p 0) + EM.cfg.mterm x' (q.tvp (k + 1)) (q.p 0) ≤
        EM.cfg.mterm x (q.tvp k) (q.p 0)) := by
    intro k x
    by_cases hk : k ≤ EM.cfg.N
    · by_cases hw : Within EM.cfg.xtlb EM.cfg.xtub x
      · obtain ⟨u, x', P, ζ, h1, h2⟩ := hT.decrease (t - ((EM.cfg.N - k : Nat) : K) * EM.tStep) x hw
        have e1 : EM.tvpFun (t - ((EM.cfg.N - k : Nat) : K) * EM.tStep) EM.cfg.N = q.tvp k := by
          rw [tvp_back hcon t _ (by omega), htv]
          congr 1
          omega
        have e2 : EM.pFun (t - ((EM.cfg.N - k : Nat) : K) * EM.tStep) 0 = q.p 0 := by rw [p_back hcon t, hp]
        rw [e1, e2] at h1 h2
        refine ⟨u, x', P, ζ, fun _ _ => ⟨h1, fun hlt => ?_⟩⟩
        have e3 : EM.tvpFun (t - ((EM.cfg.N - k : Nat) : K) * EM.tStep + EM.tStep) EM.cfg.N = q.tvp (k + 1) := by
          have : t - ((EM.cfg.N - k : Nat) : K) * EM.tStep + EM.tStep = t - ((EM.cfg.N - (k + 1) : Nat) : K) * EM.tStep := by
            rw [show EM.cfg.N - k = EM.cfg.N - (k + 1) + 1 by omega]
            push_cast
            ring
          rw [this, tvp_back hcon t _ (by omega), htv]
          congr 1
          omega
        rw [e3] at h2
        exact h2
      · exact ⟨0, 0, 0, 0, fun _ h => absurd h hw⟩
    · exact ⟨0, 0, 0, 0, fun h => absurd h hk⟩
  choose uf nf Pf ζf hf using hdec
  let xx : Nat → Vec K d.nx := fun k => Nat.rec q.x0 (fun k x => nf k x) k
  have hxx : ∀ k ≤ EM.cfg.N + 1, Within EM.cfg.xtlb EM.cfg.xtub (xx k) := by
    intro k hk
    induction k with
    | zero => exact hx
    | succ k ih => exact (hf k (xx k) (by omega) (ih (by omega))).1.2.2.2.2.2
  let π : CollPolicy K d := ⟨fun k _ => xx k, fun k _ => uf k (xx k), fun _ _ _ _ => 0, fun k _ => Pf k (xx k), fun k _ => ζf k (xx k)⟩
  have hN : 0 < EM.cfg.N := by have := hR.horizon; omega
  have hadm : (EM.cfg.collProblem EM.model s.deg s.ni s.tau s.tStep q).Admissible π := by
    refine ⟨rfl, ?_, ?_, ?_, ?_, ?_, ?_, ?_, ?_, ?_⟩
    · intro k hk h hh r hr
      have hk : k < EM.cfg.N := hk
      have hh : IsHistory EM.cfg.c EM.cfg.nRobust k h := hh
      rw [hnom, isHistory_zero] at hh; subst hh
      have hr : MayOccur EM.cfg.c EM.cfg.nRobust k [] r := hr
      rw [hnom, mayOccur_zero] at hr; subst hr
      exact (hf k (xx k) (by omega) (hxx k (by omega))).1.1
    · intro k _ hk h _
      have hk : k < EM.cfg.N := hk
      exact hT.inside _ (hxx k (by omega))
    · intro hcc k hk h _
      have hk : k + 1 < EM.cfg.N := hk
      exact (hf k (xx k) (by omega) (hxx k (by omega))).1.2.2.2.1 hcc
    · intro h _
      exact hxx EM.cfg.N (by omega)
    · intro k hk h _
      have hk : k < EM.cfg.N := hk
      exact (hf k (xx k) (by omega) (hxx k (by omega))).1.2.1
    · intro k hk h _
      have hk : k < EM.cfg.N := hk
      exact (hf k (xx k) (by omega) (hxx k (by omega))).1.2.2.1
    · intro k hk h hh r hr call hcall i hi
      have hk : k < EM.cfg.N := hk
      have hh : IsHistory EM.cfg.c EM.cfg.nRobust k h := hh
      rw [hnom, isHistory_zero] at hh; subst hh
      have hr : MayOccur EM.cfg.c EM.cfg.nRobust k [] r := hr
      rw [hnom, mayOccur_zero] at hr; subst hr
      have := (hf k (xx k) (by omega) (hxx k (by omega))).1.2.2.2.2.1 call hcall i hi
      simp only [MpcCfg.collProblem, MpcCfg.problem, π, sub_zero]
      split_ifs <;> exact this
    · intro k _ h _ call hcall hs i _
      exact ⟨le_rfl, hT.noSlack call hcall hs⟩
    · intro _ k _ h h' _ _
      rfl
  obtain ⟨h1, h2⟩ := C12_admissible_is_feasible_collocation hR q π hadm
  refine ⟨_, h1, h2.trans_le ?_⟩
  unfold CollStage.policyCost
  rw [cost_nominal _ hnom]
  have hchange : ∀ x u v z tv p, EM.cfg.changeTerm x u v z tv p = 0 := by
    intro x u v z tv p
    unfold MpcCfg.changeTerm
    rw [hch]
    apply sum_zero_of
    intro y hy
    obtain ⟨j, rfl⟩ := List.mem_ofFn.mp hy
    exact zero_mul _
  have hsl : slackCost EM.cfg.nl (fun _ _ => (0 : K)) = 0 := by
    unfold slackCost
    apply sum_zero_of
    intro y hy
    obtain ⟨call, -, rfl⟩ := List.mem_map.mp hy
    split_ifs
    · apply sum_zero_of
      intro y hy
      obtain ⟨i, -, rfl⟩ := List.mem_map.mp hy
      exact mul_zero _
    · rfl
  have hz : ∀ n : Nat, ((List.range n).map fun _ => (0 : K)).sum = 0 := fun n => sum_zero_of fun x hx => by simp at hx; exact hx.2
  simp only [MpcCfg.collProblem, MpcCfg.problem, CollPolicy.atNodes, hchange, hz, hsl, add_zero, π]
  have tele : ∀ n ≤ EM.cfg.N, ((List.range n).map fun k => EM.cfg.lterm (xx k) (uf k (xx k)) (ζf k (xx k) 0 0) (q.tvp k) (q.p 0)).sum +
      EM.cfg.mterm (xx n) (q.tvp n) (q.p 0) ≤ EM.cfg.mterm q.x0 (q.tvp 0) (q.p 0) := by
    intro n hn
    induction n with
    | zero => simp [xx]
    | succ n ih =>
      have hd := (hf n (xx n) (by omega) (hxx n (by omega))).2 (by omega)
      have := ih (by omega)
      rw [List.range_succ, List.map_append, List.sum_append]
      simp only [List.map_cons, List.map_nil, List.sum_cons, List.sum_nil, add_zero]
      have e : xx (n + 1) = nf n (xx n) := rfl
      rw [e]
      linarith
  have := tele EM.cfg.N le_rfl
  rw [← htv, ← hp]
  exact this

/-- with non-negative costs the accumulated stage cost of the closed loop is at most the cost of any feasible plan of the first problem -/
theorem performance_bound_coll {ES : SimEnv K d} (hR : EM.cfg.CollRegular EM.model s.deg s.ni s.tau s.tStep) (hnom : EM.cfg.nRobust = 0)
    (hP : ContinuousPlantMatches s EM ES) (hcon : ConsistentPredictions EM) (hT : TerminalCostAlong s EM) (hch : EM.cfg.rterm = .factor fun _ => 0)
    (hpen : ∀ call ∈ EM.cfg.nl, call.soft = true → 0 ≤ call.penalty)
    (hl : ∀ x u z tv p, 0 ≤ EM.cfg.lterm x u z tv p) (hm : ∀ x tv p, 0 ≤ EM.cfg.mterm x tv p)
    (hover : EM.cfg.consColloc = false ∨ ∀ t, NoOvershoot s EM.cfg EM.model (EM.tvpFun t (EM.cfg.N - 1)) (EM.pFun t 0))
    (Ss : List (SolverArgs K d → SolverResult K d EM.nLagr)) (hS : ∀ S ∈ Ss, FindsOptimum EM.cfg S) (l l' : Loop K d)
    (hx : l.x = List.ofFn l.sim.x0) (ht : l.mpc.t0 = l.sim.t0) (hrun : Loop.iterate EM ES Ss l = some l')
    (w0 : OptX K d) (h0 : EM.cfg.Feasible w0 (l.asked EM).p) (z : Vec K d.nz) :
    ∃ (x : Nat → Vec K d.nx) (u : Nat → Vec K d.nu),
      l'.sim.data.rows "_x" = l.sim.data.rows "_x" ++ (List.range Ss.length).map (fun i => List.ofFn (x i)) ∧
      ((List.range Ss.length).map fun i => EM.cfg.lterm (x i) (u i) z (ES.tvpFun (l.sim.t0 + i * ES.tStep)) (ES.pFun (l.sim.t0 + i * ES.tStep))).sum ≤
        EM.cfg.obj w0 (l.asked EM).p := by
  obtain ⟨x, u, w, a1, -, a4, a5⟩ := C78_closed_loop_cost_partial hR hnom hP hcon hT hch hpen hover Ss hS l l' hx ht hrun w0 h0 z
  refine ⟨x, u, a1, le_trans ?_ a5⟩
  obtain ⟨Q, hadm⟩ := C12_feasible_is_admissible_collocation hR.toCollConstraints _ _ a4
  have hob := C12_objective_collocation hR w (l'.asked EM).p
      ⟨EM.cfg.X w, EM.cfg.U w, EM.cfg.E w, Q, fun k h i j => EM.cfg.Z w (i * (s.deg + 1) + j) k h⟩ (fun _ _ _ => rfl) (fun _ _ _ _ => rfl) (fun _ _ _ => rfl)
  have : 0 ≤ EM.cfg.obj w (l'.asked EM).p := by
    rw [hob]
    unfold CollStage.policyCost
    rw [cost_nominal _ hnom]
    refine add_nonneg (add_nonneg (add_nonneg ?_ (hm _ _ _)) ?_) ?_
    · apply sum_nonneg_of
      intro v hv
      obtain ⟨k, -, rfl⟩ := List.mem_map.mp hv
      exact hl _ _ _ _ _
    · apply sum_nonneg_of
      intro v hv
      obtain ⟨k, hk, rfl⟩ := List.mem_map.mp hv
      unfold slackCost
      apply sum_nonneg_of
      intro v hv
      obtain ⟨call, hcall, rfl⟩ := List.mem_map.mp hv
      split_ifs with hs
      · apply sum_nonneg_of
        intro v hv
        obtain ⟨i, hi, rfl⟩ := List.mem_map.mp hv
        have := hadm.slacks k (List.mem_range.mp hk) [] (by show IsHistory EM.cfg.c EM.cfg.nRobust k []; rw [hnom]; exact isHistory_zero.mpr rfl) call hcall hs i
          (List.mem_range.mp hi)
        exact mul_nonneg (hpen call hcall hs) this.1
      · exact le_rfl
    · apply le_of_eq
      symm
      apply sum_zero_of
      intro v hv
      obtain ⟨k, -, rfl⟩ := List.mem_map.mp hv
      show EM.cfg.changeTerm _ _ _ _ _ _ = 0
      unfold MpcCfg.changeTerm
      rw [hch]
      apply sum_zero_of
      intro y hy
      obtain ⟨j, rfl⟩ := List.mem_ofFn.mp hy
      exact zero_mul _
  exact le_add_of_nonneg_right this

/-! ### The closed loop -/

section
variable {ES : SimEnv K d} (hR : EM.cfg.CollRegular EM.model s.deg s.ni s.tau s.tStep) (hnom : EM.cfg.nRobust = 0) (hP : ContinuousPlantMatches s EM ES)
  (hcon : ConsistentPredictions EM) (hT : TerminalCostAlong s EM) (hch : EM.cfg.rterm = .factor fun _ => 0) 
  (hover : EM.cfg.consColloc = false ∨ ∀ t, NoOvershoot s EM.cfg EM.model (EM.tvpFun t (EM.cfg.N - 1)) (EM.pFun t 0))
  (xs : Vec K d.nx) (hc : PositiveCosts EM.cfg xs)
  (S : Nat → SolverArgs K d → SolverResult K d EM.nLagr) (hS : ∀ n, FindsOptimum EM.cfg (S n)) (L : Nat → Loop K d) (hL : EndlessRun EM ES S L) (h0 : InStep (L 0))
include hR hnom hP hcon hT hch hover hc hS hL h0

/-- the stage costs of the run -/
theorem run_costs_coll (w0 : OptX K d) (hw : EM.cfg.Feasible w0 ((L 0).asked EM).p) (n : Nat) :
    ∃ c : Nat → K, ((List.range n).map c).sum ≤ EM.cfg.obj w0 ((L 0).asked EM).p ∧ (∀ i, 0 ≤ c i) ∧
      ∀ i < n, ∃ u z tv p, c i = EM.cfg.lterm (L i).sim.x0 u z tv p := by
  have hS' : ∀ S' ∈ (List.range n).map S, FindsOptimum EM.cfg S' := by
    intro S' hS'
    obtain ⟨i, -, rfl⟩ := List.mem_map.1 hS'
    exact hS i
  obtain ⟨x, u, h1, h4⟩ := performance_bound_coll hR hnom hP hcon hT hch hc.penalties hc.stage hc.terminal hover _ hS' (L 0) (L n) h0.1 h0.2 (run_iterate hL n) w0 hw 0
  rw [List.length_map, List.length_range] at h1 h4
  rw [run_rows hP.measured hP.time hL n] at h1
  have hx := states_of_rows h1
  refine ⟨_, h4, fun i => hc.stage _ _ _ _ _, fun i hi => ?_⟩
  rw [← hx i hi]
  exact ⟨_, _, _, _, rfl⟩

/-- **C103**: attractivity.  Nominal controller, continuous-time model as in C78 (the simulator ends where the collocation polynomials of the controller end, consistent predictions, terminal cost that falls by the stage cost inside the
terminal set, no penalty on input changes, a solver that finds global minimisers), costs positive away from `xs`.  If the first problem is feasible, the closed loop
converges to `xs`: for every `ε` all but finitely many states of the record are closer than `ε`. -/
theorem C103_convergence [Archimedean K] (hw : ∃ w, EM.cfg.Feasible w ((L 0).asked EM).p) :
    (∀ n, (L n).sim.data.rows "_x" = (L 0).sim.data.rows "_x" ++ (List.range n).map fun i => List.ofFn (L i).sim.x0) ∧
    ∀ ε > 0, ∃ n0, ∀ n ≥ n0, Near xs (L n).sim.x0 ε := by
  classical
  refine ⟨run_rows hP.measured hP.time hL, fun ε hε => ?_⟩
  obtain ⟨w0, hw⟩ := hw
  obtain ⟨η, hη, hlow⟩ := hc.away ε hε
  obtain ⟨n0, h⟩ := eventually_small (fun i => if Near xs (L i).sim.x0 ε then 0 else η) (EM.cfg.obj w0 ((L 0).asked EM).p) η
    (fun i => by split_ifs; exacts [le_rfl, hη.le]) hη fun n => by
      obtain ⟨c, h1, h2, h3⟩ := run_costs_coll hR hnom hP hcon hT hch hover xs hc S hS L hL h0 w0 hw n
      refine le_trans ?_ h1
      refine List.sum_le_sum fun i hi => ?_
      obtain ⟨u, z, tv, p, e⟩ := h3 i (List.mem_range.1 hi)
      split_ifs with hn
      · exact h2 i
      · rw [e]
        exact hlow _ _ _ _ _ hn
  refine ⟨n0, fun n hn => ?_⟩
  by_contra hno
  have := h n hn
  rw [if_neg hno] at this
  exact lt_irrefl _ this

omit hL h0 in
/-- **C103**: stability.  If moreover the terminal set contains a neighbourhood of `xs` and the terminal cost is small there, then for every `ε` there is a `δ` such
that every run that starts closer than `δ` to `xs` stays closer than `ε` for ever, and is feasible from the start. -/
theorem C103_stability (hsmall : SmallTerminalCost EM.cfg xs) (ε : K) (hε : 0 < ε) :
    ∃ δ > 0, ∀ L : Nat → Loop K d, EndlessRun EM ES S L → InStep (L 0) → Near xs (L 0).sim.x0 δ →
      (∃ w, EM.cfg.Feasible w ((L 0).asked EM).p) ∧ ∀ n, Near xs (L n).sim.x0 ε := by
  obtain ⟨η, hη, hlow⟩ := hc.away ε hε
  obtain ⟨δ, hδ, hterm⟩ := hsmall η hη
  refine ⟨δ, hδ, fun L hL h0 hn => ?_⟩
  have hq : ((L 0).asked EM).p.x0 = (L 0).sim.x0 := by
    funext i; simp [Loop.asked, h0.1, List.getD_eq_getElem?_getD]
  obtain ⟨w0, hw0, hobj⟩ := C103_terminal_plan hR hnom hcon hT hch (L 0).mpc.t0 ((L 0).asked EM).p rfl rfl (by
    rw [hq]
    exact (hterm _ 0 0 hn).1)
  rw [hq] at hobj
  refine ⟨⟨w0, hw0⟩, fun n => ?_⟩
  by_contra hno
  obtain ⟨c, h1, h2, h3⟩ := run_costs_coll hR hnom hP hcon hT hch hover xs hc S hS L hL h0 w0 hw0 (n + 1)
  obtain ⟨u, z, tv, p, e⟩ := h3 n (by omega)
  have := last_le_sum c h2 n
  have hl := hlow (L n).sim.x0 u z tv p hno
  rw [← e] at hl
  have := (hterm _ (EM.tvpFun (L 0).mpc.t0 0) (EM.pFun (L 0).mpc.t0 0) hn).2
  linarith

end
end
end DoMpc
