import Verif.Spec.Convergence
import Verif.Props.Stability
import Verif.Props.LoopRuns
import Mathlib.Algebra.Order.Archimedean.Basic
import Mathlib.Algebra.Order.BigOperators.Group.List
import Mathlib.Data.List.OfFn

/-! # Property C102: asymptotic stability of the closed loop with nominal MPC -/
set_option linter.unusedSectionVars false
namespace DoMpc
open Spec
variable {K : Type} [Field K] [LinearOrder K] [IsStrictOrderedRing K] {d : Dims}

theorem iterate_snoc (EM : MpcEnv K d) (ES : SimEnv K d) (Ss : List (SolverArgs K d → SolverResult K d EM.nLagr)) (S : SolverArgs K d → SolverResult K d EM.nLagr)
    (l l1 l2 : Loop K d) (h1 : Loop.iterate EM ES Ss l = some l1) (h2 : l1.step EM ES S = some l2) : Loop.iterate EM ES (Ss ++ [S]) l = some l2 := by
  induction Ss generalizing l with
  | nil =>
    simp only [Loop.iterate, Option.some.injEq] at h1
    subst h1
    simp [Loop.iterate, h2]
  | cons S' Ss ih =>
    simp only [Loop.iterate, Option.bind_eq_some_iff] at h1
    obtain ⟨l0, h3, h4⟩ := h1
    simp only [List.cons_append, Loop.iterate, h3, Option.bind_some]
    exact ih l0 h4

theorem run_iterate {EM : MpcEnv K d} {ES : SimEnv K d} {S : Nat → SolverArgs K d → SolverResult K d EM.nLagr} {L : Nat → Loop K d} (hL : EndlessRun EM ES S L) (n : Nat) :
    Loop.iterate EM ES ((List.range n).map S) (L 0) = some (L n) := by
  induction n with
  | zero => rfl
  | succ n ih =>
    rw [List.range_succ, List.map_append]
    exact iterate_snoc EM ES _ _ _ _ _ ih (hL n)

/-- the record of an endless run -/
theorem run_rows {EM : MpcEnv K d} {ES : SimEnv K d} (hm : StateMeasured ES.model) (ht : EM.tStep = ES.tStep)
    {S : Nat → SolverArgs K d → SolverResult K d EM.nLagr} {L : Nat → Loop K d} (hL : EndlessRun EM ES S L) (n : Nat) :
    (L n).sim.data.rows "_x" = (L 0).sim.data.rows "_x" ++ (List.range n).map fun i => List.ofFn (L i).sim.x0 := by
  induction n with
  | zero => simp
  | succ n ih =>
    obtain ⟨-, -, -, -, -, e, -⟩ := loop_step hm ht (hL n)
    rw [e, ih, List.range_succ, List.map_append, List.append_assoc]
    rfl

theorem states_of_rows {n : Nat} {R : List (List K)} {x : Nat → Vec K d.nx} {y : Nat → Vec K d.nx}
    (h : R ++ (List.range n).map (fun i => List.ofFn (y i)) = R ++ (List.range n).map (fun i => List.ofFn (x i))) : ∀ i < n, x i = y i := by
  intro i hi
  have := List.map_inj_left.1 (List.append_cancel_left h) i (List.mem_range.2 hi)
  exact (List.ofFn_inj.1 this).symm

/-- a bounded sum of non-negative numbers has only finitely many terms above a positive number -/
theorem eventually_small [Archimedean K] (c : Nat → K) (B η : K) (hc : ∀ i, 0 ≤ c i) (hη : 0 < η) (hB : ∀ n, ((List.range n).map c).sum ≤ B) :
    ∃ n0, ∀ n ≥ n0, c n < η := by
  by_contra hno
  push Not at hno
  have key : ∀ m : Nat, ∃ n, (m : K) * η ≤ ((List.range n).map c).sum := by
    intro m
    induction m with
    | zero => exact ⟨0, by simp⟩
    | succ m ih =>
      obtain ⟨n, hn⟩ := ih
      obtain ⟨k, hk, hck⟩ := hno n
      have mono : ∀ j, ((List.range n).map c).sum ≤ ((List.range (n + j)).map c).sum := by
        intro j
        induction j with
        | zero => exact le_rfl
        | succ j ij =>
          rw [← Nat.add_assoc, List.range_succ, List.map_append, List.sum_append]
          simp only [List.map_cons, List.map_nil, List.sum_cons, List.sum_nil, add_zero]
          exact ij.trans (le_add_of_nonneg_right (hc _))
      refine ⟨k + 1, ?_⟩
      rw [List.range_succ, List.map_append, List.sum_append]
      simp only [List.map_cons, List.map_nil, List.sum_cons, List.sum_nil, add_zero]
      obtain ⟨j, rfl⟩ := Nat.exists_eq_add_of_le hk
      have := mono j
      push_cast
      linarith
  obtain ⟨m, hm⟩ := Archimedean.arch (B + η) hη
  obtain ⟨n, hn⟩ := key m
  have := hB n
  rw [nsmul_eq_mul] at hm
  linarith

theorem last_le_sum (c : Nat → K) (hc : ∀ i, 0 ≤ c i) (n : Nat) : c n ≤ ((List.range (n + 1)).map c).sum := by
  rw [List.range_succ, List.map_append, List.sum_append]
  simp only [List.map_cons, List.map_nil, List.sum_cons, List.sum_nil, add_zero]
  refine le_add_of_nonneg_left (sum_nonneg_of fun x hx => ?_)
  obtain ⟨i, -, rfl⟩ := List.mem_map.1 hx
  exact hc i

section
variable {EM : MpcEnv K d}

/-! ### A plan that stays in the terminal set -/

theorem tvp_back (hcon : ConsistentPredictions EM) (t : K) (j : Nat) (hj : j ≤ EM.cfg.N) : EM.tvpFun (t - j * EM.tStep) EM.cfg.N = EM.tvpFun t (EM.cfg.N - j) := by
  induction j generalizing t with
  | zero => simp
  | succ j ih =>
    have h1 := ih (t - EM.tStep) (by omega)
    have h2 := hcon.tvp (t - EM.tStep) (EM.cfg.N - (j + 1)) (by omega)
    rw [sub_add_cancel, show EM.cfg.N - (j + 1) + 1 = EM.cfg.N - j by omega] at h2
    rw [h2, ← h1]
    congr 1
    push_cast
    ring

theorem p_back (hcon : ConsistentPredictions EM) (t : K) (j : Nat) : EM.pFun (t - j * EM.tStep) 0 = EM.pFun t 0 := by
  induction j generalizing t with
  | zero => simp
  | succ j ih =>
    have h2 := hcon.params (t - ((j + 1 : Nat) : K) * EM.tStep)
    rw [← ih t, ← h2]
    congr 1
    push_cast
    ring

/-- **C102**: a controller that starts in the terminal set has a plan that costs at most the terminal cost of the state. -/
theorem C102_terminal_plan (hR : EM.cfg.Regular EM.model) (hnom : EM.cfg.nRobust = 0) (hcon : ConsistentPredictions EM) (hT : TerminalCost EM)
    (hch : EM.cfg.rterm = .factor fun _ => 0) (t : K) (q : OptP K d) (htv : q.tvp = EM.tvpFun t) (hp : q.p = EM.pFun t)
    (hx : Within EM.cfg.xtlb EM.cfg.xtub q.x0) :
    ∃ w, EM.cfg.Feasible w q ∧ EM.cfg.obj w q ≤ EM.cfg.mterm q.x0 (EM.tvpFun t 0) (EM.pFun t 0) := by
  have hdec : ∀ k x, ∃ u z, k ≤ EM.cfg.N → Within EM.cfg.xtlb EM.cfg.xtub x → KeepsTerminal EM.cfg EM.model (q.tvp k) (q.p 0) x u z ∧
      (k < EM.cfg.N → EM.cfg.lterm x u z (q.tvp k) (q.p 0) + EM.cfg.mterm (EM.model.rhs x u z (q.tvp k) (q.p 0) 0) (q.tvp (k + 1)) (q.p 0) ≤
        EM.cfg.mterm x (q.tvp k) (q.p 0)) := by
    intro k x
    by_cases hk : k ≤ EM.cfg.N
    · by_cases hw : Within EM.cfg.xtlb EM.cfg.xtub x
      · obtain ⟨u, z, h1, h2⟩ := hT.decrease (t - ((EM.cfg.N - k : Nat) : K) * EM.tStep) x hw
        have e1 : EM.tvpFun (t - ((EM.cfg.N - k : Nat) : K) * EM.tStep) EM.cfg.N = q.tvp k := by
          rw [tvp_back hcon t _ (by omega), htv]
          congr 1
          omega
        have e2 : EM.pFun (t - ((EM.cfg.N - k : Nat) : K) * EM.tStep) 0 = q.p 0 := by rw [p_back hcon t, hp]
        rw [e1, e2] at h1 h2
        refine ⟨u, z, fun _ _ => ⟨h1, fun hlt => ?_⟩⟩
        have e3 : EM.tvpFun (t - ((EM.cfg.N - k : Nat) : K) * EM.tStep + EM.tStep) EM.cfg.N = q.tvp (k + 1) := by
          have : t - ((EM.cfg.N - k : Nat) : K) * EM.tStep + EM.tStep = t - ((EM.cfg.N - (k + 1) : Nat) : K) * EM.tStep := by
            rw [show EM.cfg.N - k = EM.cfg.N - (k + 1) + 1 by omega]
            push_cast
            ring
          rw [this, tvp_back hcon t _ (by omega), htv]
          congr 1
          omega
        rw [e3] at h2
        exact h2
      · exact ⟨0, 0, fun _ h => absurd h hw⟩
    · exact ⟨0, 0, fun h => absurd h hk⟩
  choose uf zf hf using hdec
  let xx : Nat → Vec K d.nx := fun k => Nat.rec q.x0 (fun k x => EM.model.rhs x (uf k x) (zf k x) (q.tvp k) (q.p 0) 0) k
  have hxx : ∀ k ≤ EM.cfg.N + 1, Within EM.cfg.xtlb EM.cfg.xtub (xx k) := by
    intro k hk
    induction k with
    | zero => exact hx
    | succ k ih => exact (hf k (xx k) (by omega) (ih (by omega))).1.2.2.2.2
  let π : Policy K d := ⟨fun k _ => xx k, fun k _ => uf k (xx k), fun k _ => zf k (xx k), fun _ _ _ _ => 0⟩
  have hN : 0 < EM.cfg.N := by have := hR.horizon; omega
  have hadm : (EM.cfg.problem EM.model q).Admissible π := by
    refine ⟨⟨rfl, ?_⟩, ?_, ?_, ?_, ?_, ?_, ?_, ?_⟩
    · intro k hk h hh r hr
      have hk : k < EM.cfg.N := hk
      have hh : IsHistory EM.cfg.c EM.cfg.nRobust k h := hh
      rw [hnom, isHistory_zero] at hh; subst hh
      have hr : MayOccur EM.cfg.c EM.cfg.nRobust k [] r := hr
      rw [hnom, mayOccur_zero] at hr; subst hr
      exact ⟨(hf k (xx k) (by omega) (hxx k (by omega))).1.1, rfl⟩
    · intro k _ hk h _
      have hk : k < EM.cfg.N := hk
      exact hT.inside _ (hxx k (by omega))
    · intro h _
      exact hxx EM.cfg.N (by omega)
    · intro k hk h _
      have hk : k < EM.cfg.N := hk
      exact (hf k (xx k) (by omega) (hxx k (by omega))).1.2.1
    · intro k hk h _
      have hk : k < EM.cfg.N := hk
      exact (hf k (xx k) (by omega) (hxx k (by omega))).1.2.2.1
    · intro k hk h hh r hr call hcall i hi
      have hk : k < EM.cfg.N := hk
      have hh : IsHistory EM.cfg.c EM.cfg.nRobust k h := hh
      rw [hnom, isHistory_zero] at hh; subst hh
      have hr : MayOccur EM.cfg.c EM.cfg.nRobust k [] r := hr
      rw [hnom, mayOccur_zero] at hr; subst hr
      have := (hf k (xx k) (by omega) (hxx k (by omega))).1.2.2.2.1 call hcall i hi
      simp only [MpcCfg.problem, π, sub_zero]
      split_ifs <;> exact this
    · intro k _ h _ call hcall hs i _
      exact ⟨le_rfl, hT.noSlack call hcall hs⟩
    · intro _ k _ h h' _ _
      rfl
  obtain ⟨h1, h2⟩ := C12_admissible_is_feasible EM.cfg EM.model hR q π hadm
  refine ⟨_, h1, h2.trans_le ?_⟩
  rw [cost_nominal _ hnom]
  have hchange : ∀ x u v z tv p, EM.cfg.changeTerm x u v z tv p = 0 := by
    intro x u v z tv p
    unfold MpcCfg.changeTerm
    rw [hch]
    apply sum_zero_of
    intro y hy
    obtain ⟨j, rfl⟩ := List.mem_ofFn.mp hy
    exact zero_mul _
  have hsl : slackCost EM.cfg.nl (fun _ _ => (0 : K)) = 0 := by
    unfold slackCost
    apply sum_zero_of
    intro y hy
    obtain ⟨call, -, rfl⟩ := List.mem_map.mp hy
    split_ifs
    · apply sum_zero_of
      intro y hy
      obtain ⟨i, -, rfl⟩ := List.mem_map.mp hy
      exact mul_zero _
    · rfl
  have hz : ∀ n : Nat, ((List.range n).map fun _ => (0 : K)).sum = 0 := fun n => sum_zero_of fun x hx => by simp at hx; exact hx.2
  simp only [MpcCfg.problem, hchange, hz, hsl, add_zero, π]
  have tele : ∀ n ≤ EM.cfg.N, ((List.range n).map fun k => EM.cfg.lterm (xx k) (uf k (xx k)) (zf k (xx k)) (q.tvp k) (q.p 0)).sum +
      EM.cfg.mterm (xx n) (q.tvp n) (q.p 0) ≤ EM.cfg.mterm q.x0 (q.tvp 0) (q.p 0) := by
    intro n hn
    induction n with
    | zero => simp [xx]
    | succ n ih =>
      have hd := (hf n (xx n) (by omega) (hxx n (by omega))).2 (by omega)
      have := ih (by omega)
      rw [List.range_succ, List.map_append, List.sum_append]
      simp only [List.map_cons, List.map_nil, List.sum_cons, List.sum_nil, add_zero]
      have e : xx (n + 1) = EM.model.rhs (xx n) (uf n (xx n)) (zf n (xx n)) (q.tvp n) (q.p 0) 0 := rfl
      rw [e]
      linarith
  have := tele EM.cfg.N le_rfl
  rw [← htv, ← hp]
  exact this

/-! ### The closed loop -/

section
variable {ES : SimEnv K d} (hR : EM.cfg.Regular EM.model) (hnom : EM.cfg.nRobust = 0) (hP : PlantMatches EM ES)
  (hcon : ConsistentPredictions EM) (hT : TerminalCost EM) (hch : EM.cfg.rterm = .factor fun _ => 0) (xs : Vec K d.nx) (hc : PositiveCosts EM.cfg xs)
  (S : Nat → SolverArgs K d → SolverResult K d EM.nLagr) (hS : ∀ n, FindsOptimum EM.cfg (S n)) (L : Nat → Loop K d) (hL : EndlessRun EM ES S L) (h0 : InStep (L 0))
include hR hnom hP hcon hT hch hc hS hL h0

/-- the stage costs of the run -/
theorem run_costs (w0 : OptX K d) (hw : EM.cfg.Feasible w0 ((L 0).asked EM).p) (n : Nat) :
    ∃ c : Nat → K, ((List.range n).map c).sum ≤ EM.cfg.obj w0 ((L 0).asked EM).p ∧ (∀ i, 0 ≤ c i) ∧
      ∀ i < n, ∃ u z tv p, c i = EM.cfg.lterm (L i).sim.x0 u z tv p := by
  have hS' : ∀ S' ∈ (List.range n).map S, FindsOptimum EM.cfg S' := by
    intro S' hS'
    obtain ⟨i, -, rfl⟩ := List.mem_map.1 hS'
    exact hS i
  obtain ⟨x, u, z, h1, -, -, h4⟩ := C71_performance_bound hR hnom hP hcon hT hch hc.penalties hc.stage hc.terminal _ hS' (L 0) (L n) h0.1 h0.2 (run_iterate hL n) w0 hw
  rw [List.length_map, List.length_range] at h1 h4
  rw [run_rows hP.measured hP.time hL n] at h1
  have hx := states_of_rows h1
  refine ⟨_, h4, fun i => hc.stage _ _ _ _ _, fun i hi => ?_⟩
  rw [← hx i hi]
  exact ⟨_, _, _, _, rfl⟩

/-- **C102**: attractivity.  Nominal controller as in C71 (plant equal to the model, consistent predictions, terminal cost that falls by the stage cost inside the
terminal set, no penalty on input changes, a solver that finds global minimisers), costs positive away from `xs`.  If the first problem is feasible, the closed loop
converges to `xs`: for every `ε` all but finitely many states of the record are closer than `ε`. -/
theorem C102_convergence [Archimedean K] (hw : ∃ w, EM.cfg.Feasible w ((L 0).asked EM).p) :
    (∀ n, (L n).sim.data.rows "_x" = (L 0).sim.data.rows "_x" ++ (List.range n).map fun i => List.ofFn (L i).sim.x0) ∧
    ∀ ε > 0, ∃ n0, ∀ n ≥ n0, Near xs (L n).sim.x0 ε := by
  classical
  refine ⟨run_rows hP.measured hP.time hL, fun ε hε => ?_⟩
  obtain ⟨w0, hw⟩ := hw
  obtain ⟨η, hη, hlow⟩ := hc.away ε hε
  obtain ⟨n0, h⟩ := eventually_small (fun i => if Near xs (L i).sim.x0 ε then 0 else η) (EM.cfg.obj w0 ((L 0).asked EM).p) η
    (fun i => by split_ifs; exacts [le_rfl, hη.le]) hη fun n => by
      obtain ⟨c, h1, h2, h3⟩ := run_costs hR hnom hP hcon hT hch xs hc S hS L hL h0 w0 hw n
      refine le_trans ?_ h1
      refine List.sum_le_sum fun i hi => ?_
      obtain ⟨u, z, tv, p, e⟩ := h3 i (List.mem_range.1 hi)
      split_ifs with hn
      · exact h2 i
      · rw [e]
        exact hlow _ _ _ _ _ hn
  refine ⟨n0, fun n hn => ?_⟩
  by_contra hno
  have := h n hn
  rw [if_neg hno] at this
  exact lt_irrefl _ this

omit hL h0 in
/-- **C102**: stability.  If moreover the terminal set contains a neighbourhood of `xs` and the terminal cost is small there, then for every `ε` there is a `δ` such
that every run that starts closer than `δ` to `xs` stays closer than `ε` for ever, and is feasible from the start. -/
theorem C102_stability (hsmall : SmallTerminalCost EM.cfg xs) (ε : K) (hε : 0 < ε) :
    ∃ δ > 0, ∀ L : Nat → Loop K d, EndlessRun EM ES S L → InStep (L 0) → Near xs (L 0).sim.x0 δ →
      (∃ w, EM.cfg.Feasible w ((L 0).asked EM).p) ∧ ∀ n, Near xs (L n).sim.x0 ε := by
  obtain ⟨η, hη, hlow⟩ := hc.away ε hε
  obtain ⟨δ, hδ, hterm⟩ := hsmall η hη
  refine ⟨δ, hδ, fun L hL h0 hn => ?_⟩
  have hq : ((L 0).asked EM).p.x0 = (L 0).sim.x0 := by
    funext i; simp [Loop.asked, h0.1, List.getD_eq_getElem?_getD]
  obtain ⟨w0, hw0, hobj⟩ := C102_terminal_plan hR hnom hcon hT hch (L 0).mpc.t0 ((L 0).asked EM).p rfl rfl (by
    rw [hq]
    exact (hterm _ 0 0 hn).1)
  rw [hq] at hobj
  refine ⟨⟨w0, hw0⟩, fun n => ?_⟩
  by_contra hno
  obtain ⟨c, h1, h2, h3⟩ := run_costs hR hnom hP hcon hT hch xs hc S hS L hL h0 w0 hw0 (n + 1)
  obtain ⟨u, z, tv, p, e⟩ := h3 n (by omega)
  have := last_le_sum c h2 n
  have hl := hlow (L n).sim.x0 u z tv p hno
  rw [← e] at hl
  have := (hterm _ (EM.tvpFun (L 0).mpc.t0 0) (EM.pFun (L 0).mpc.t0 0) hn).2
  linarith

end
end
end DoMpc
