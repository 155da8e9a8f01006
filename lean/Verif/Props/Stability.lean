import Verif.Props.Guarantees

/-! # Properties C70, C71: recursive feasibility and closed-loop cost of nominal MPC -/
set_option linter.unusedSectionVars false
namespace DoMpc
open Spec
variable {K : Type} [Field K] [LinearOrder K] [IsStrictOrderedRing K] {d : Dims}

/-- The old plan without its first step, continued by one step that keeps the terminal set. -/
def shiftPolicy (N : Nat) (π : Policy K d) (u : Vec K d.nu) (z : Vec K d.nz) (x' : Vec K d.nx) : Policy K d where
  X := fun k _ => if k < N then π.X (k + 1) [] else x'
  U := fun k _ => if k + 1 < N then π.U (k + 1) [] else u
  Z := fun k _ => if k + 1 < N then π.Z (k + 1) [] else z
  E := fun k _ => if k + 1 < N then π.E (k + 1) [] else fun _ _ => 0

theorem isHistory_zero {c k : Nat} {h : List Nat} : IsHistory c 0 k h ↔ h = [] := by
  unfold IsHistory
  constructor
  · intro h1; simpa using h1.1
  · rintro rfl; simp

theorem mayOccur_zero {c k r : Nat} : MayOccur c 0 k [] r ↔ r = 0 := by simp [MayOccur]

theorem extend_zero (k r : Nat) (h : List Nat) : extend 0 k h r = h := by simp [extend]

theorem cost_nominal (P : MultiStage K d) (hR : P.nR = 0) (π : Policy K d) :
    P.cost π = ((List.range P.N).map fun k => P.stage (π.X k []) (π.U k []) (π.Z k []) (P.tvp k) (P.p 0)).sum +
      P.terminal (π.X P.N []) (P.tvp P.N) (P.p 0) +
      ((List.range P.N).map fun k => slackCost P.cons (π.E k [])).sum +
      ((List.range P.N).map fun k => P.change (π.X k []) (π.U k []) (inputBefore P.nR P.uLast π.U k []) (π.Z k []) (P.tvp k) (P.p 0)).sum := by
  unfold MultiStage.cost
  simp only [hR]
  simp [averageCost, allHistories, scenarioCost, branchSum, occurring, known, realisation, extend]

theorem sum_nonneg_of {l : List K} (h : ∀ x ∈ l, 0 ≤ x) : 0 ≤ l.sum := by
  induction l with
  | nil => simp
  | cons a l ih =>
    rw [List.sum_cons]
    exact add_nonneg (h a (by simp)) (ih fun x hx => h x (by simp [hx]))

theorem sum_zero_of {l : List K} (h : ∀ x ∈ l, x = 0) : l.sum = 0 := by
  induction l with
  | nil => simp
  | cons a l ih =>
    rw [List.sum_cons, h a (by simp), ih fun x hx => h x (by simp [hx]), add_zero]

theorem sum_shift (f g : Nat → K) (last : K) (n : Nat) (h : ∀ k < n, g k = f (k + 1)) (hl : g n = last) :
    ((List.range (n + 1)).map g).sum = ((List.range (n + 1)).map f).sum - f 0 + last := by
  rw [List.range_succ, List.map_append, List.sum_append, List.map_singleton, List.sum_singleton, hl, ← List.range_succ, List.range_succ_eq_map,
    List.map_cons, List.sum_cons, List.map_map]
  have : ((List.range n).map g) = (List.range n).map (f ∘ Nat.succ) := List.map_congr_left fun k hk => h k (List.mem_range.mp hk)
  rw [this]; ring

section
variable {EM : MpcEnv K d}

/-- The problem one step later is feasible: the shifted policy. -/
theorem shift_admissible (hnom : EM.cfg.nRobust = 0) (hN : 0 < EM.cfg.N) (hcon : ConsistentPredictions EM) (t : K)
    (hin : ∀ x, Within EM.cfg.xtlb EM.cfg.xtub x → Within EM.cfg.xlb EM.cfg.xub x)
    (hslack : ∀ call ∈ EM.cfg.nl, call.soft = true → call.maxViolation.ge 0)
    (q q' : OptP K d) (htv : q.tvp = EM.tvpFun t) (hp : q.p = EM.pFun t) (htv' : q'.tvp = EM.tvpFun (t + EM.tStep))
    (hp' : q'.p = EM.pFun (t + EM.tStep)) (π : Policy K d) (hπ : (EM.cfg.problem EM.model q).Admissible π) (hx' : q'.x0 = π.X 1 [])
    (u : Vec K d.nu) (z : Vec K d.nz) (hk : KeepsTerminal EM.cfg EM.model (EM.tvpFun t EM.cfg.N) (EM.pFun t 0) (π.X EM.cfg.N []) u z) :
    (EM.cfg.problem EM.model q').Admissible
      (shiftPolicy EM.cfg.N π u z (EM.model.rhs (π.X EM.cfg.N []) u z (EM.tvpFun t EM.cfg.N) (EM.pFun t 0) 0)) := by
  have hnil : ∀ k, IsHistory EM.cfg.c EM.cfg.nRobust k [] := fun k => by rw [hnom]; exact isHistory_zero.mpr rfl
  have hocc : ∀ k, MayOccur EM.cfg.c EM.cfg.nRobust k [] 0 := fun k => by rw [hnom]; exact mayOccur_zero.mpr rfl
  have hex : ∀ k h r, extend EM.cfg.nRobust k h r = h := fun k h r => by rw [hnom]; exact extend_zero k r h
  have ptv : ∀ k < EM.cfg.N, q'.tvp k = q.tvp (k + 1) := fun k hk => by rw [htv', htv, hcon.tvp t k hk]
  have pp : q'.p 0 = q.p 0 := by rw [hp', hp, hcon.params]
  obtain ⟨k1, k2, k3, k4, k5⟩ := hk
  have hterm : Within EM.cfg.xtlb EM.cfg.xtub (π.X EM.cfg.N []) := hπ.terminal [] (hnil _)
  have hlast : ∀ k < EM.cfg.N, ¬ k + 1 < EM.cfg.N → k + 1 = EM.cfg.N := fun k h1 h2 => by omega
  refine ⟨⟨?_, ?_⟩, ?_, ?_, ?_, ?_, ?_, ?_, ?_⟩
  · show (if 0 < EM.cfg.N then π.X 1 [] else _) = q'.x0
    rw [if_pos hN, hx']
  · intro k hk h hh r hr
    have hk : k < EM.cfg.N := hk
    have hh : IsHistory EM.cfg.c EM.cfg.nRobust k h := hh
    rw [hnom, isHistory_zero] at hh; subst hh
    have hr : MayOccur EM.cfg.c EM.cfg.nRobust k [] r := hr
    rw [hnom, mayOccur_zero] at hr; subst hr
    by_cases hl : k + 1 < EM.cfg.N
    · have := hπ.dynamics.2 (k + 1) hl [] (hnil _) 0 (hocc _)
      simp only [MpcCfg.problem, hex, shiftPolicy, if_pos hl, if_pos hk, ptv k hk, pp] at this ⊢
      exact this
    · have hN' := hlast k hk hl
      simp only [MpcCfg.problem, hex, shiftPolicy, if_neg hl, if_pos hk, ptv k hk, pp, hN', htv, hp, lt_irrefl, if_false]
      exact ⟨k1, trivial⟩
  · intro k h1 h2 h hh
    have h2 : k < EM.cfg.N := h2
    show Within EM.cfg.xlb EM.cfg.xub (if k < EM.cfg.N then π.X (k + 1) [] else _)
    rw [if_pos h2]
    by_cases hl : k + 1 < EM.cfg.N
    · exact hπ.states (k + 1) (by omega) hl [] (hnil _)
    · rw [hlast k h2 hl]; exact hin _ hterm
  · intro h hh
    show Within EM.cfg.xtlb EM.cfg.xtub (if EM.cfg.N < EM.cfg.N then _ else _)
    rw [if_neg (lt_irrefl _)]
    exact k5
  · intro k hk h hh
    show Within EM.cfg.ulb EM.cfg.uub (if k + 1 < EM.cfg.N then _ else _)
    split_ifs with hl
    · exact hπ.inputs (k + 1) hl [] (hnil _)
    · exact k2
  · intro k hk h hh
    show Within EM.cfg.zlb EM.cfg.zub (if k + 1 < EM.cfg.N then _ else _)
    split_ifs with hl
    · exact hπ.algebraic (k + 1) hl [] (hnil _)
    · exact k3
  · intro k hk h hh r hr call hcall i hi
    have hk : k < EM.cfg.N := hk
    have hh : IsHistory EM.cfg.c EM.cfg.nRobust k h := hh
    rw [hnom, isHistory_zero] at hh; subst hh
    have hr : MayOccur EM.cfg.c EM.cfg.nRobust k [] r := hr
    rw [hnom, mayOccur_zero] at hr; subst hr
    by_cases hl : k + 1 < EM.cfg.N
    · have := hπ.constraints (k + 1) hl [] (hnil _) 0 (hocc _) call hcall i hi
      simp only [MpcCfg.problem, hex, shiftPolicy, if_pos hl, if_pos hk, ptv k hk, pp] at this ⊢
      exact this
    · have hN' := hlast k hk hl
      have := k4 call hcall i hi
      simp only [MpcCfg.problem, hex, shiftPolicy, if_neg hl, if_pos hk, ptv k hk, pp, hN', htv, hp, lt_irrefl, if_false, sub_zero]
      split_ifs <;> exact this
  · intro k hk h hh call hcall hs i hi
    have hk : k < EM.cfg.N := hk
    by_cases hl : k + 1 < EM.cfg.N
    · have := hπ.slacks (k + 1) hl [] (hnil _) call hcall hs i hi
      simp only [MpcCfg.problem, shiftPolicy, if_pos hl] at this ⊢
      exact this
    · simp only [MpcCfg.problem, shiftPolicy, if_neg hl]
      exact ⟨le_rfl, hslack call hcall hs⟩
  · intro _ k _ h h' _ _
    rfl

theorem slackCost_nonneg_of (nl : List (NlCall K d)) (e : Eps K) (hpen : ∀ call ∈ nl, call.soft = true → 0 ≤ call.penalty)
    (h : ∀ call ∈ nl, call.soft = true → ∀ i < call.dim, 0 ≤ e call.name i) : 0 ≤ slackCost nl e := by
  unfold slackCost
  apply sum_nonneg_of
  intro v hv
  obtain ⟨call, hcall, rfl⟩ := List.mem_map.mp hv
  split_ifs with hs
  · apply sum_nonneg_of
    intro v hv
    obtain ⟨i, hi, rfl⟩ := List.mem_map.mp hv
    exact mul_nonneg (hpen call hcall hs) (h call hcall hs i (List.mem_range.mp hi))
  · exact le_rfl

/-- Cost of the shifted policy. -/
theorem shift_cost (hnom : EM.cfg.nRobust = 0) (hN : 0 < EM.cfg.N) (hcon : ConsistentPredictions EM) (t : K)
    (hch : EM.cfg.rterm = .factor fun _ => 0)
    (q q' : OptP K d) (htv : q.tvp = EM.tvpFun t) (hp : q.p = EM.pFun t) (htv' : q'.tvp = EM.tvpFun (t + EM.tStep))
    (hp' : q'.p = EM.pFun (t + EM.tStep)) (π : Policy K d) (h3 : 0 ≤ slackCost EM.cfg.nl (π.E 0 []))
    (u : Vec K d.nu) (z : Vec K d.nz) (x' : Vec K d.nx)
    (hdec : EM.cfg.lterm (π.X EM.cfg.N []) u z (EM.tvpFun t EM.cfg.N) (EM.pFun t 0) + EM.cfg.mterm x' (EM.tvpFun (t + EM.tStep) EM.cfg.N) (EM.pFun t 0) ≤
      EM.cfg.mterm (π.X EM.cfg.N []) (EM.tvpFun t EM.cfg.N) (EM.pFun t 0)) :
    EM.cfg.lterm (π.X 0 []) (π.U 0 []) (π.Z 0 []) (q.tvp 0) (q.p 0) + (EM.cfg.problem EM.model q').cost (shiftPolicy EM.cfg.N π u z x') ≤
      (EM.cfg.problem EM.model q).cost π := by
  have ptv : ∀ k < EM.cfg.N, q'.tvp k = q.tvp (k + 1) := fun k hk => by rw [htv', htv, hcon.tvp t k hk]
  have pp : q'.p 0 = q.p 0 := by rw [hp', hp, hcon.params]
  rw [cost_nominal _ hnom, cost_nominal _ hnom]
  have hchange : ∀ x u v z tv p, EM.cfg.changeTerm x u v z tv p = 0 := by
    intro x u v z tv p
    unfold MpcCfg.changeTerm
    rw [hch]
    apply sum_zero_of
    intro y hy
    obtain ⟨j, rfl⟩ := List.mem_ofFn.mp hy
    exact zero_mul _
  obtain ⟨n, hn⟩ : ∃ n, EM.cfg.N = n + 1 := ⟨EM.cfg.N - 1, by omega⟩
  have hz : ∀ n : Nat, ((List.range n).map fun _ => (0 : K)).sum = 0 := fun n => sum_zero_of fun x hx => by simp at hx; exact hx.2
  simp only [MpcCfg.problem, hchange, hz, add_zero]
  rw [hn] at ptv hdec
  simp only [hn]
  have h1 := sum_shift (fun k => EM.cfg.lterm (π.X k []) (π.U k []) (π.Z k []) (q.tvp k) (q.p 0))
    (fun k => EM.cfg.lterm ((shiftPolicy (n + 1) π u z x').X k []) ((shiftPolicy (n + 1) π u z x').U k []) ((shiftPolicy (n + 1) π u z x').Z k [])
      (q'.tvp k) (q'.p 0)) (EM.cfg.lterm (π.X (n + 1) []) u z (q.tvp (n + 1)) (q.p 0)) n
    (fun k hk => by simp only [shiftPolicy]; rw [if_pos (by omega), if_pos (by omega), if_pos (by omega), ptv k (by omega), pp])
    (by simp only [shiftPolicy]; rw [if_pos (by omega), if_neg (by omega), if_neg (by omega), ptv n (by omega), pp])
  have h2 := sum_shift (fun k => slackCost EM.cfg.nl (π.E k [])) (fun k => slackCost EM.cfg.nl ((shiftPolicy (n + 1) π u z x').E k [])) 0 n
    (fun k hk => by simp only [shiftPolicy]; rw [if_pos (by omega)])
    (by simp only [shiftPolicy]; rw [if_neg (by omega)]; simp [slackCost])
  rw [h1, h2]
  have e1 : (shiftPolicy (n + 1) π u z x').X (n + 1) [] = x' := by simp [shiftPolicy]
  rw [e1, pp, htv, hp, htv']
  linarith [hdec, h3]

/-- One iteration of the loop: from a feasible plan of the current problem to a feasible plan of the next one. -/
theorem next_feasible {ES : SimEnv K d} (hR : EM.cfg.Regular EM.model) (hnom : EM.cfg.nRobust = 0) (hP : PlantMatches EM ES)
    (hcon : ConsistentPredictions EM) (hin : ∀ x, Within EM.cfg.xtlb EM.cfg.xtub x → Within EM.cfg.xlb EM.cfg.xub x)
    (hslack : ∀ call ∈ EM.cfg.nl, call.soft = true → call.maxViolation.ge 0)
    {S : SolverArgs K d → SolverResult K d EM.nLagr} {l l1 : Loop K d}
    (hx : l.x = List.ofFn l.sim.x0) (ht : l.mpc.t0 = l.sim.t0) (h1 : l.step EM ES S = some l1)
    (hf : EM.cfg.Feasible (S (l.asked EM)).x (l.asked EM).p)
    (u : Vec K d.nu) (z : Vec K d.nz)
    (hk : KeepsTerminal EM.cfg EM.model (EM.tvpFun l.mpc.t0 EM.cfg.N) (EM.pFun l.mpc.t0 0) (EM.cfg.X (S (l.asked EM)).x EM.cfg.N []) u z) :
    let w := (S (l.asked EM)).x
    let π := shiftPolicy EM.cfg.N (EM.cfg.policy w) u z (EM.model.rhs (EM.cfg.X w EM.cfg.N []) u z (EM.tvpFun l.mpc.t0 EM.cfg.N) (EM.pFun l.mpc.t0 0) 0)
    EM.cfg.Feasible (EM.cfg.encode π) (l1.asked EM).p ∧
      EM.cfg.obj (EM.cfg.encode π) (l1.asked EM).p = (EM.cfg.problem EM.model (l1.asked EM).p).cost π := by
  intro w π
  obtain ⟨e1, e2, e3, e4, e5, -, -⟩ := loop_step hP.measured hP.time h1
  have hq : (l.asked EM).p.x0 = l.sim.x0 := by
    funext i; simp [Loop.asked, hx, List.getD_eq_getElem?_getD]
  have hq1 : (l1.asked EM).p.x0 = l1.sim.x0 := by
    funext i; simp [Loop.asked, e5, List.getD_eq_getElem?_getD]
  have hz : EM.cfg.NoAlgBranching := Or.inr (Or.inl hnom)
  obtain ⟨r, zz, hr, hpr, -, ha, hsim, hrhs, -⟩ := one_step (t := l.sim.t0) hR.plain hz hP.toPlantFollows hf
    (by simp [Loop.asked, ht]) (by simp [Loop.asked, ht]) l.sim.simZ
  rw [hq] at hsim hrhs
  rw [hsim] at e4
  dsimp only at e4
  rw [hnom] at hr
  have hr0 : r = 0 := mayOccur_zero.mp hr
  have hext : extend EM.cfg.nRobust 0 [] r = [] := by rw [hnom]; exact extend_zero _ _ _
  rw [hext] at hrhs
  have hadm := C12_feasible_is_admissible EM.cfg EM.model hR w _ hf
  refine C12_admissible_is_feasible EM.cfg EM.model hR _ π ?_
  refine shift_admissible hnom (by have := hR.horizon; omega) hcon l.mpc.t0 hin hslack (l.asked EM).p _ rfl rfl ?_ ?_ _ hadm ?_ u z hk
  · show EM.tvpFun l1.mpc.t0 = _
    rw [e1, hP.time]
  · show EM.pFun l1.mpc.t0 = _
    rw [e1, hP.time]
  · rw [hq1, e4, hrhs]; rfl

theorem terminal_of_feasible (hR : EM.cfg.Regular EM.model) (hnom : EM.cfg.nRobust = 0) {w : OptX K d} {q : OptP K d} (hf : EM.cfg.Feasible w q) :
    Within EM.cfg.xtlb EM.cfg.xtub (EM.cfg.X w EM.cfg.N []) :=
  (C12_feasible_is_admissible EM.cfg EM.model hR w q hf).terminal [] (by
    show IsHistory EM.cfg.c EM.cfg.nRobust EM.cfg.N []
    rw [hnom]; exact isHistory_zero.mpr rfl)

/-- **C70** (discrete-time models, settings of `Regular`): recursive feasibility.  Nominal controller (`n_robust = 0`), plant equal to the model, consistent predictions, and
a terminal set that is control invariant and inside the state bounds.  If the first problem is feasible and the solver returns a feasible point
whenever there is one, then in a closed loop of any length every problem is feasible (so the solver always returns a feasible point), including the next one. -/
theorem C70_recursive_feasibility {ES : SimEnv K d} (hR : EM.cfg.Regular EM.model) (hnom : EM.cfg.nRobust = 0) (hP : PlantMatches EM ES)
    (hcon : ConsistentPredictions EM) (hT : InvariantTerminalSet EM)
    (Ss : List (SolverArgs K d → SolverResult K d EM.nLagr)) (hS : ∀ S ∈ Ss, FindsFeasible EM.cfg S) (l l' : Loop K d)
    (hx : l.x = List.ofFn l.sim.x0) (ht : l.mpc.t0 = l.sim.t0) (hrun : Loop.iterate EM ES Ss l = some l')
    (h0 : ∃ w, EM.cfg.Feasible w (l.asked EM).p) :
    SolverFeasible EM ES Ss l ∧ ∃ w, EM.cfg.Feasible w (l'.asked EM).p := by
  induction Ss generalizing l with
  | nil =>
    simp only [Loop.iterate, Option.some.injEq] at hrun
    subst hrun
    exact ⟨fun i hi => by simp at hi, h0⟩
  | cons S Ss ih =>
    simp only [Loop.iterate, Option.bind_eq_some_iff] at hrun
    obtain ⟨l1, h1, h2⟩ := hrun
    obtain ⟨e1, e2, e3, e4, e5, -, -⟩ := loop_step hP.measured hP.time h1
    have hf := hS S (by simp) _ h0
    obtain ⟨u, z, hk⟩ := hT.invariant l.mpc.t0 _ (terminal_of_feasible hR hnom hf)
    have hn := (next_feasible hR hnom hP hcon hT.inside hT.noSlack hx ht h1 hf u z hk).1
    obtain ⟨i1, i2⟩ := ih (fun S' hS' => hS S' (by simp [hS'])) l1 e5 (by rw [e1, e2, ht]) h2 ⟨_, hn⟩
    refine ⟨?_, i2⟩
    intro i hi l2 h3
    cases i with
    | zero =>
      simp only [List.take_zero, Loop.iterate, Option.some.injEq] at h3
      subst h3
      exact hf
    | succ i =>
      simp only [List.take_succ_cons, Loop.iterate, Option.bind_eq_some_iff] at h3
      obtain ⟨l1', h1', h3⟩ := h3
      rw [h1] at h1'
      cases h1'
      exact i1 i (by simpa using hi) l2 h3

/-- **C71** (as C70, no penalty on input changes): the closed loop is never more expensive than planned.  If the terminal cost falls by the stage cost inside the terminal
set, the solver finds global minimisers, and `w0` is any feasible plan of the first problem, then the stage costs of the
trajectory in the simulator's log and the cost of an optimal plan of the problem after it together are at most the cost of `w0`. -/
theorem C71_closed_loop_cost {ES : SimEnv K d} (hR : EM.cfg.Regular EM.model) (hnom : EM.cfg.nRobust = 0) (hP : PlantMatches EM ES)
    (hcon : ConsistentPredictions EM) (hT : TerminalCost EM) (hch : EM.cfg.rterm = .factor fun _ => 0)
    (hpen : ∀ call ∈ EM.cfg.nl, call.soft = true → 0 ≤ call.penalty)
    (Ss : List (SolverArgs K d → SolverResult K d EM.nLagr)) (hS : ∀ S ∈ Ss, FindsOptimum EM.cfg S) (l l' : Loop K d)
    (hx : l.x = List.ofFn l.sim.x0) (ht : l.mpc.t0 = l.sim.t0) (hrun : Loop.iterate EM ES Ss l = some l')
    (w0 : OptX K d) (h0 : EM.cfg.Feasible w0 (l.asked EM).p) :
    ∃ (x : Nat → Vec K d.nx) (u : Nat → Vec K d.nu) (z : Nat → Vec K d.nz) (w : OptX K d),
      l'.sim.data.rows "_x" = l.sim.data.rows "_x" ++ (List.range Ss.length).map (fun i => List.ofFn (x i)) ∧
      l'.sim.data.rows "_u" = l.sim.data.rows "_u" ++ (List.range Ss.length).map (fun i => List.ofFn (u i)) ∧
      (∀ i < Ss.length, EM.model.alg (x i) (u i) (z i) (ES.tvpFun (l.sim.t0 + i * ES.tStep)) (ES.pFun (l.sim.t0 + i * ES.tStep)) 0 = 0) ∧
      EM.cfg.Feasible w (l'.asked EM).p ∧
      ((List.range Ss.length).map fun i => EM.cfg.lterm (x i) (u i) (z i) (ES.tvpFun (l.sim.t0 + i * ES.tStep)) (ES.pFun (l.sim.t0 + i * ES.tStep))).sum +
        EM.cfg.obj w (l'.asked EM).p ≤ EM.cfg.obj w0 (l.asked EM).p := by
  induction Ss generalizing l w0 with
  | nil =>
    simp only [Loop.iterate, Option.some.injEq] at hrun
    subst hrun
    exact ⟨fun _ => 0, fun _ => 0, fun _ => 0, w0, by simp, by simp, fun i hi => by simp at hi, h0, by simp⟩
  | cons S Ss ih =>
    simp only [Loop.iterate, Option.bind_eq_some_iff] at hrun
    obtain ⟨l1, h1, h2⟩ := hrun
    obtain ⟨e1, e2, e3, e4, e5, e6, e7⟩ := loop_step hP.measured hP.time h1
    obtain ⟨hf, hopt⟩ := hS S (by simp) _ ⟨w0, h0⟩
    obtain ⟨u, z, hk, hdec⟩ := hT.decrease l.mpc.t0 _ (terminal_of_feasible hR hnom hf)
    obtain ⟨hn, hobj⟩ := next_feasible hR hnom hP hcon hT.inside hT.noSlack hx ht h1 hf u z hk
    have hadm := C12_feasible_is_admissible EM.cfg EM.model hR _ _ hf
    have hN : 0 < EM.cfg.N := by have := hR.horizon; omega
    have hsl := slackCost_nonneg_of EM.cfg.nl ((EM.cfg.policy (S (l.asked EM)).x).E 0 []) hpen fun call hcall hs i hi =>
      (hadm.slacks 0 hN [] (by show IsHistory EM.cfg.c EM.cfg.nRobust 0 []; exact ⟨by simp, by simp⟩) call hcall hs i hi).1
    have hsc := shift_cost hnom hN hcon l.mpc.t0 hch (l.asked EM).p (l1.asked EM).p rfl rfl
      (by show EM.tvpFun l1.mpc.t0 = _; rw [e1, hP.time]) (by show EM.pFun l1.mpc.t0 = _; rw [e1, hP.time]) _ hsl u z _ hdec
    rw [← C12_objective_is_policy_cost EM.cfg EM.model hR] at hsc
    obtain ⟨x, uu, zz, w, a1, a2, a3, a4, a5⟩ := ih (fun S' hS' => hS S' (by simp [hS'])) l1 e5 (by rw [e1, e2, ht]) h2 _ hn
    have hq : (l.asked EM).p.x0 = l.sim.x0 := by
      funext i; simp [Loop.asked, hx, List.getD_eq_getElem?_getD]
    obtain ⟨r, z1, hr, hpr, hz1, ha, -⟩ := one_step (t := l.sim.t0) hR.plain (Or.inr (Or.inl hnom)) hP.toPlantFollows hf
      (by simp [Loop.asked, ht]) (by simp [Loop.asked, ht]) l.sim.simZ
    rw [hq] at ha
    have hext : extend EM.cfg.nRobust 0 [] r = [] := by rw [hnom]; exact extend_zero _ _ _
    rw [hext] at hz1
    rw [hnom] at hr
    have hr0 : r = 0 := mayOccur_zero.mp hr
    subst hr0
    have hu0 : (EM.cfg.policy (S (l.asked EM)).x).U 0 [] = EM.cfg.uPhys (S (l.asked EM)).x 0 0 := by simp [MpcCfg.policy, MpcCfg.U, number]
    have hx0 : (EM.cfg.policy (S (l.asked EM)).x).X 0 [] = l.sim.x0 := by rw [← hq]; exact hadm.dynamics.1
    have hl0 : EM.cfg.lterm ((EM.cfg.policy (S (l.asked EM)).x).X 0 []) ((EM.cfg.policy (S (l.asked EM)).x).U 0 [])
        ((EM.cfg.policy (S (l.asked EM)).x).Z 0 []) ((l.asked EM).p.tvp 0) ((l.asked EM).p.p 0) =
        EM.cfg.lterm l.sim.x0 (EM.cfg.uPhys (S (l.asked EM)).x 0 0) z1 (ES.tvpFun l.sim.t0) (ES.pFun l.sim.t0) := by
      rw [hu0, hx0, hP.tvp, hpr, hz1]
      simp [Loop.asked, ht, MpcCfg.policy]
    rw [hl0] at hsc
    have htime : ∀ i : Nat, l1.sim.t0 + (i : K) * ES.tStep = l.sim.t0 + ((i + 1 : Nat) : K) * ES.tStep := fun i => by rw [e2]; push_cast; ring
    refine ⟨fun i => Nat.casesOn i l.sim.x0 x, fun i => Nat.casesOn i (EM.cfg.uPhys (S (l.asked EM)).x 0 0) uu, fun i => Nat.casesOn i z1 zz, w,
      ?_, ?_, ?_, a4, ?_⟩
    · rw [a1, e6, List.length_cons, List.range_succ_eq_map]
      simp [Function.comp_def]
    · rw [a2, e7, List.length_cons, List.range_succ_eq_map]
      simp [Function.comp_def]
    · intro i hi
      cases i with
      | zero => simpa using ha
      | succ i =>
        have := a3 i (by simpa using hi)
        rw [htime] at this
        exact this
    · rw [List.length_cons, List.range_succ_eq_map, List.map_cons, List.sum_cons, List.map_map]
      simp only [htime] at a5
      simp only [Function.comp_def, Nat.cast_zero, zero_mul, add_zero, Nat.succ_eq_add_one]
      have := hopt w0 h0
      have hob : EM.cfg.obj (EM.cfg.encode (shiftPolicy EM.cfg.N (EM.cfg.policy (S (l.asked EM)).x) u z
        (EM.model.rhs (EM.cfg.X (S (l.asked EM)).x EM.cfg.N []) u z (EM.tvpFun l.mpc.t0 EM.cfg.N) (EM.pFun l.mpc.t0 0) 0))) (l1.asked EM).p = _ := hobj
      rw [hob] at a5
      refine le_trans ?_ (le_trans hsc this)
      rw [add_assoc]
      exact add_le_add le_rfl a5

/-- **C71**, the form used in practice: with non-negative costs the accumulated stage cost of the closed loop, of any length, is at most the cost of any
feasible plan of the first problem. -/
theorem C71_performance_bound {ES : SimEnv K d} (hR : EM.cfg.Regular EM.model) (hnom : EM.cfg.nRobust = 0) (hP : PlantMatches EM ES)
    (hcon : ConsistentPredictions EM) (hT : TerminalCost EM) (hch : EM.cfg.rterm = .factor fun _ => 0)
    (hpen : ∀ call ∈ EM.cfg.nl, call.soft = true → 0 ≤ call.penalty)
    (hl : ∀ x u z tv p, 0 ≤ EM.cfg.lterm x u z tv p) (hm : ∀ x tv p, 0 ≤ EM.cfg.mterm x tv p)
    (Ss : List (SolverArgs K d → SolverResult K d EM.nLagr)) (hS : ∀ S ∈ Ss, FindsOptimum EM.cfg S) (l l' : Loop K d)
    (hx : l.x = List.ofFn l.sim.x0) (ht : l.mpc.t0 = l.sim.t0) (hrun : Loop.iterate EM ES Ss l = some l')
    (w0 : OptX K d) (h0 : EM.cfg.Feasible w0 (l.asked EM).p) :
    ∃ (x : Nat → Vec K d.nx) (u : Nat → Vec K d.nu) (z : Nat → Vec K d.nz),
      l'.sim.data.rows "_x" = l.sim.data.rows "_x" ++ (List.range Ss.length).map (fun i => List.ofFn (x i)) ∧
      l'.sim.data.rows "_u" = l.sim.data.rows "_u" ++ (List.range Ss.length).map (fun i => List.ofFn (u i)) ∧
      (∀ i < Ss.length, EM.model.alg (x i) (u i) (z i) (ES.tvpFun (l.sim.t0 + i * ES.tStep)) (ES.pFun (l.sim.t0 + i * ES.tStep)) 0 = 0) ∧
      ((List.range Ss.length).map fun i => EM.cfg.lterm (x i) (u i) (z i) (ES.tvpFun (l.sim.t0 + i * ES.tStep)) (ES.pFun (l.sim.t0 + i * ES.tStep))).sum ≤
        EM.cfg.obj w0 (l.asked EM).p := by
  obtain ⟨x, u, z, w, a1, a2, a3, a4, a5⟩ := C71_closed_loop_cost hR hnom hP hcon hT hch hpen Ss hS l l' hx ht hrun w0 h0
  refine ⟨x, u, z, a1, a2, a3, le_trans ?_ a5⟩
  have hadm := C12_feasible_is_admissible EM.cfg EM.model hR _ _ a4
  have : 0 ≤ EM.cfg.obj w (l'.asked EM).p := by
    rw [C12_objective_is_policy_cost EM.cfg EM.model hR, cost_nominal _ hnom]
    refine add_nonneg (add_nonneg (add_nonneg ?_ (hm _ _ _)) ?_) ?_
    · apply sum_nonneg_of
      intro v hv
      obtain ⟨k, -, rfl⟩ := List.mem_map.mp hv
      exact hl _ _ _ _ _
    · apply sum_nonneg_of
      intro v hv
      obtain ⟨k, hk, rfl⟩ := List.mem_map.mp hv
      unfold slackCost
      apply sum_nonneg_of
      intro v hv
      obtain ⟨call, hcall, rfl⟩ := List.mem_map.mp hv
      split_ifs with hs
      · apply sum_nonneg_of
        intro v hv
        obtain ⟨i, hi, rfl⟩ := List.mem_map.mp hv
        have := hadm.slacks k (List.mem_range.mp hk) [] (by show IsHistory EM.cfg.c EM.cfg.nRobust k []; rw [hnom]; exact isHistory_zero.mpr rfl) call hcall hs i
          (List.mem_range.mp hi)
        exact mul_nonneg (hpen call hcall hs) this.1
      · exact le_rfl
    · apply le_of_eq
      symm
      apply sum_zero_of
      intro v hv
      obtain ⟨k, -, rfl⟩ := List.mem_map.mp hv
      show EM.cfg.changeTerm _ _ _ _ _ _ = 0
      unfold MpcCfg.changeTerm
      rw [hch]
      apply sum_zero_of
      intro y hy
      obtain ⟨j, rfl⟩ := List.mem_ofFn.mp hy
      exact zero_mul _
  exact le_add_of_nonneg_right this

end

/-! ## A deadbeat controller of an integrator meets all hypotheses -/
namespace StabEx

abbrev dm : Dims := { nx := 1, nu := 1, nz := 0, ntv := 0, np := 0, ny := 1 }
/-- `x⁺ = x + u`, measured -/
def model : DaeModel ℚ dm where
  rhs := fun x u _ _ _ _ => x + u
  alg := fun _ _ z _ _ _ => z
  meas := fun x _ _ _ _ _ => x
  aux := fun _ _ _ _ _ => Fin.elim0
/-- state and terminal bounds `±5`, stage and terminal cost `x²`, scaled -/
def cfg : MpcCfg ℚ dm where
  N := 1
  nRobust := 0
  c := 1
  ifcn := discreteIfcn model (fun _ => 2) (fun _ => 3) (fun _ => 1) 1
  sx := fun _ => 2
  su := fun _ => 3
  sz := fun _ => 1
  xlb := fun _ => .fin (-5)
  xub := fun _ => .fin 5
  ulb := fun _ => .ninf
  uub := fun _ => .pinf
  zlb := fun _ => .ninf
  zub := fun _ => .pinf
  xtlb := fun _ => .fin (-5)
  xtub := fun _ => .fin 5
  nl := []
  lterm := fun x _ _ _ _ => x 0 ^ 2
  mterm := fun x _ _ => x 0 ^ 2
  rterm := .factor fun _ => 0
def mpc : MpcEnv ℚ dm where
  model := model
  cfg := cfg
  tStep := 1
  tvpFun := fun _ _ => Fin.elim0
  pFun := fun _ _ => Fin.elim0
  nOptX := 0
  nOptP := 0
  nOptAux := 0
  nLagr := 0
  flatX := fun _ => Fin.elim0
  flatP := fun _ => Fin.elim0
  flatAux := fun _ _ => Fin.elim0
def sim : SimEnv ℚ dm where
  model := model
  plant := .discrete fun z _ _ _ _ _ => z
  tStep := 1
  tvpFun := fun _ => Fin.elim0
  pFun := fun _ => Fin.elim0
/-- drive the state to zero in one step -/
def plan (q : OptP ℚ dm) : Policy ℚ dm where
  X := fun k _ => if k = 0 then q.x0 else 0
  U := fun _ _ => -q.x0
  Z := fun _ _ => Fin.elim0
  E := fun _ _ _ _ => 0
def solver (a : SolverArgs ℚ dm) : SolverResult ℚ dm 0 where
  x := cfg.encode (plan a.p)
  lamG := Fin.elim0
  lamX := []
  stats := []
def start : Loop ℚ dm := ⟨mpc.fresh 0 (fun _ => 8) (fun _ => 0) Fin.elim0, SimSt.fresh (fun _ => 8) Fin.elim0, [8]⟩

theorem regular : cfg.Regular model where
  discrete := rfl
  cpos := Nat.one_pos
  sx := fun _ => (by decide +kernel : (0 : ℚ) < 2)
  su := fun _ => (by decide +kernel : (0 : ℚ) < 3)
  sz := fun _ => (by decide +kernel : (0 : ℚ) < 1)
  noColl := rfl
  names := List.nodup_nil
  horizon := Nat.one_pos
  noAlg := Or.inl rfl
  slack := rfl
  rterm := fun f h => by simp [cfg] at h

theorem matches_ : PlantMatches mpc sim where
  model := rfl
  discrete := ⟨_, rfl, fun _ _ _ _ _ => Subsingleton.elim (α := Fin 0 → ℚ) _ _⟩
  unique := fun _ _ _ _ _ _ _ _ => Subsingleton.elim (α := Fin 0 → ℚ) _ _
  tvp := fun _ => rfl
  params := fun _ => ⟨0, by simp [MayOccur, mpc, cfg], rfl⟩
  time := rfl
  measured := fun _ _ _ _ _ => rfl

theorem within5 (x : Vec ℚ 1) : Within (fun _ => .fin (-5)) (fun _ => .fin 5) x ↔ -5 ≤ x 0 ∧ x 0 ≤ 5 := by
  unfold Within
  constructor
  · intro h; exact h 0
  · intro h j; rw [Subsingleton.elim j 0]; exact h

theorem admissible (q : OptP ℚ dm) : (cfg.problem model q).Admissible (plan q) where
  dynamics := by
    refine ⟨rfl, fun k hk h hh r hr => ⟨Subsingleton.elim (α := Fin 0 → ℚ) _ _, ?_⟩⟩
    have : k = 0 := by have : k < 1 := hk; omega
    subst this
    funext j
    simp [plan, MpcCfg.problem, model]
  states := fun k h1 h2 => by have : k < 1 := h2; omega
  terminal := fun h _ => by
    have : Within (fun _ => .fin (-5)) (fun _ => .fin 5) (0 : Vec ℚ 1) := by rw [within5]; constructor <;> (simp)
    exact this
  inputs := fun _ _ _ _ _ => ⟨trivial, trivial⟩
  algebraic := fun _ _ _ _ j => j.elim0
  constraints := fun _ _ _ _ _ _ call hcall => by simp [MpcCfg.problem, cfg] at hcall
  slacks := fun _ _ _ _ call hcall => by simp [MpcCfg.problem, cfg] at hcall
  oneInput := fun _ _ _ _ _ _ _ => rfl

theorem cost_eq (q : OptP ℚ dm) (π : Policy ℚ dm) : (cfg.problem model q).cost π = π.X 0 [] 0 ^ 2 + π.X 1 [] 0 ^ 2 := by
  rw [cost_nominal _ rfl]
  simp [MpcCfg.problem, cfg, MpcCfg.changeTerm, slackCost]

theorem findsOptimum : FindsOptimum cfg solver := by
  intro a _
  obtain ⟨h1, h2⟩ := C12_admissible_is_feasible cfg model regular a.p _ (admissible a.p)
  refine ⟨h1, fun w hw => ?_⟩
  have hadm := C12_feasible_is_admissible cfg model regular w a.p hw
  have hx := congrFun hadm.dynamics.1 0
  show cfg.obj (cfg.encode (plan a.p)) a.p ≤ _
  rw [h2, C12_objective_is_policy_cost cfg model regular w, cost_eq, cost_eq]
  have hx : (cfg.policy w).X 0 [] 0 = a.p.x0 0 := hx
  rw [hx]
  have := sq_nonneg ((cfg.policy w).X 1 [] 0)
  simp only [plan, if_true, Nat.one_ne_zero, if_false, Pi.zero_apply]
  linarith

theorem terminalCost : TerminalCost mpc where
  inside := fun _ h => h
  noSlack := fun call hcall => by simp [mpc, cfg] at hcall
  decrease := by
    intro t x hx
    refine ⟨-x, Fin.elim0, ⟨Subsingleton.elim (α := Fin 0 → ℚ) _ _, fun _ => ⟨trivial, trivial⟩, fun j => j.elim0,
      fun call hcall => by simp [mpc, cfg] at hcall, ?_⟩, ?_⟩
    · have : Within (fun _ => .fin (-5)) (fun _ => .fin 5) (x + -x : Vec ℚ 1) := by rw [within5]; simp
      exact this
    · simp [mpc, cfg, model]

theorem runs : (Loop.iterate mpc sim [solver, solver, solver] start).isSome := by decide +kernel

end StabEx

/-- Non-vacuity of C70 and C71: all hypotheses hold for the example, the first problem is feasible and three iterations succeed. -/
example : ∃ l' w0, StabEx.cfg.Regular StabEx.model ∧ Loop.iterate StabEx.mpc StabEx.sim [StabEx.solver, StabEx.solver, StabEx.solver] StabEx.start = some l' ∧
    PlantMatches StabEx.mpc StabEx.sim ∧ ConsistentPredictions StabEx.mpc ∧ TerminalCost StabEx.mpc ∧ InvariantTerminalSet StabEx.mpc ∧
    FindsOptimum StabEx.cfg StabEx.solver ∧ StabEx.cfg.Feasible w0 (StabEx.start.asked StabEx.mpc).p := by
  obtain ⟨l', hl⟩ := Option.isSome_iff_exists.mp StabEx.runs
  have hT := StabEx.terminalCost
  exact ⟨l', _, StabEx.regular, hl, StabEx.matches_, ⟨fun _ _ _ => rfl, fun _ => rfl⟩, hT,
    ⟨hT.inside, hT.noSlack, fun t x hx => let ⟨u, z, h, _⟩ := hT.decrease t x hx; ⟨u, z, h⟩⟩, StabEx.findsOptimum,
    (C12_admissible_is_feasible StabEx.cfg StabEx.model StabEx.regular _ _ (StabEx.admissible _)).1⟩

end DoMpc
