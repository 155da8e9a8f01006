import Verif.Spec.GuaranteesColl
import Verif.Props.RobustFeasibility
import Verif.Props.MpcOptimalColl

/-! # Properties C76, C77, C78: what a feasible solution guarantees for a continuous-time plant -/
set_option linter.unusedSectionVars false
namespace DoMpc
open Spec Polynomial
variable {K : Type} [Field K] [LinearOrder K] [IsStrictOrderedRing K] {d : Dims}

/-- Settings of `MpcCfg.CollConstraints` for a scheme. -/
abbrev MpcCfg.OnScheme (cfg : MpcCfg K d) (m : DaeModel K d) (s : Scheme K) : Prop := cfg.CollConstraints m s.deg s.ni s.tau s.tStep

theorem continuous_simulate {s : Scheme K} {m : DaeModel K d} {ES : SimEnv K d} (hP : SameContinuousPlant s m ES) {x : Vec K d.nx} {u : Vec K d.nu}
    {tv : Vec K d.ntv} {p : Vec K d.np} {x' : Vec K d.nx} {P : Nat → Fin d.nx → K[X]} {ζ : Nat → Nat → Vec K d.nz}
    (h : s.Interval m x u tv p x' P ζ) (z0 : Vec K d.nz) : (ES.simulate x z0 u tv p 0).1 = x' := by
  obtain ⟨integ, h1, h2⟩ := hP.continuous
  unfold SimEnv.simulate
  rw [h1]
  exact h2 z0 x u tv p x' P ζ h

theorem asked_state {EM : MpcEnv K d} {l : Loop K d} (hx : l.x = List.ofFn l.sim.x0) : (l.asked EM).p.x0 = l.sim.x0 := by
  funext i
  simp [Loop.asked, hx, List.getD_eq_getElem?_getD]

/-- A feasible point of the problem, applied to the plant for one step. -/
theorem one_interval {s : Scheme K} {EM : MpcEnv K d} {ES : SimEnv K d} (hc : EM.cfg.OnScheme EM.model s) (hN : 0 < EM.cfg.N)
    (hP : ContinuousPlantFollows s EM ES) {w : OptX K d} {q : OptP K d} (hw : EM.cfg.Feasible w q) {t : K} (htv : q.tvp = EM.tvpFun t)
    (hp : q.p = EM.pFun t) (z0 : Vec K d.nz) {π : CollPolicy K d}
    (hadm : (EM.cfg.collProblem EM.model s.deg s.ni s.tau s.tStep q).Admissible π) (hXU : π.X = EM.cfg.X w ∧ π.U = EM.cfg.U w ∧ π.E = EM.cfg.E w) :
    ∃ r P ζ, MayOccur EM.cfg.c EM.cfg.nRobust 0 [] r ∧ ES.pFun t = EM.pFun t r ∧
      s.Interval EM.model q.x0 (EM.cfg.uPhys w 0 0) (ES.tvpFun t) (ES.pFun t) (EM.cfg.X w 1 (extend EM.cfg.nRobust 0 [] r)) P ζ ∧
      (ES.simulate q.x0 z0 (EM.cfg.uPhys w 0 0) (ES.tvpFun t) (ES.pFun t) 0).1 = EM.cfg.X w 1 (extend EM.cfg.nRobust 0 [] r) ∧
      Within EM.cfg.ulb EM.cfg.uub (EM.cfg.uPhys w 0 0) ∧ s.AlgInside EM.cfg.consColloc EM.cfg.zlb EM.cfg.zub ζ ∧
      (if EM.cfg.N = 1 then Within EM.cfg.xtlb EM.cfg.xtub (EM.cfg.X w 1 (extend EM.cfg.nRobust 0 [] r))
        else Within EM.cfg.xlb EM.cfg.xub (EM.cfg.X w 1 (extend EM.cfg.nRobust 0 [] r)) ∧
          (EM.cfg.consColloc = true → s.Inside EM.cfg.xlb EM.cfg.xub P)) ∧
      ConstraintsHold EM.cfg.nl q.x0 (EM.cfg.uPhys w 0 0) (ζ 0 0) (ES.tvpFun t) (ES.pFun t) := by
  obtain ⟨r, hr, hpr⟩ := hP.params t
  refine ⟨r, π.P 0 (extend EM.cfg.nRobust 0 [] r), π.ζ 0 (extend EM.cfg.nRobust 0 [] r), hr, hpr, ?_⟩
  set h1 := extend EM.cfg.nRobust 0 [] r with hh1def
  have h0 : IsHistory EM.cfg.c EM.cfg.nRobust 0 [] := ⟨by simp, by simp⟩
  have hh1 : IsHistory EM.cfg.c EM.cfg.nRobust 1 h1 := isHistory_extend h0 hr
  have hx0 : EM.cfg.X w 0 [] = q.x0 := by rw [← hXU.1]; exact hadm.start
  have hu0 : EM.cfg.U w 0 [] = EM.cfg.uPhys w 0 0 := by simp [MpcCfg.U, number]
  have hdyn : s.Interval EM.model q.x0 (EM.cfg.uPhys w 0 0) (ES.tvpFun t) (ES.pFun t) (EM.cfg.X w 1 h1) (π.P 0 h1) (π.ζ 0 h1) := by
    have := hadm.dynamics 0 hN [] h0 r hr
    rw [hXU.1, hXU.2.1] at this
    rw [hP.tvp, hpr, ← hx0, ← hu0]
    rw [← htv, ← hp]
    exact this
  refine ⟨hdyn, continuous_simulate hP.toSameContinuousPlant hdyn z0, ?_, ?_, ?_, ?_⟩
  · have := hadm.inputs 0 hN [] h0
    rw [hXU.2.1] at this
    rw [← hu0]; exact this
  · exact hadm.algebraic 0 hN h1 hh1
  · split_ifs with h
    · have := hadm.terminal h1 (by show IsHistory EM.cfg.c EM.cfg.nRobust EM.cfg.N h1; rw [h]; exact hh1)
      rw [hXU.1] at this
      have e : (EM.cfg.collProblem EM.model s.deg s.ni s.tau s.tStep q).N = 1 := h
      rw [e] at this
      exact this
    · refine ⟨?_, ?_⟩
      · have := hadm.states 1 le_rfl (by show 1 < EM.cfg.N; omega) h1 hh1
        rw [hXU.1] at this; exact this
      · intro hcc
        exact hadm.inside hcc 0 (by show 0 + 1 < EM.cfg.N; omega) h1 hh1
  · intro call hcall i hi
    have h2 := hadm.constraints 0 hN [] h0 r hr call hcall i hi
    have h2' : if call.soft then
        call.ub.ge (call.expr q.x0 (EM.cfg.uPhys w 0 0) (π.ζ 0 h1 0 0) (ES.tvpFun t) (ES.pFun t) i - π.E 0 [] call.name i)
      else call.ub.ge (call.expr q.x0 (EM.cfg.uPhys w 0 0) (π.ζ 0 h1 0 0) (ES.tvpFun t) (ES.pFun t) i) := by
      rw [hXU.1, hXU.2.1] at h2
      rw [hP.tvp, hpr, ← hx0, ← hu0, ← htv, ← hp]
      exact h2
    cases hs : call.soft with
    | false => rw [hs] at h2'; simpa using h2'
    | true =>
      rw [hs] at h2'
      simp only [if_true] at h2' ⊢
      have h3 := hadm.slacks 0 hN [] h0 call hcall hs i hi
      exact ⟨_, h3.1, h3.2, h2'⟩

/-- **C76** (continuous-time models): robust constraint satisfaction.  In every closed loop of any length whose plant is the model with parameters among those
the controller takes into account, if the solver returns a feasible point in every iteration: between two entries of the simulator's log the state follows the model's
collocation polynomials; inputs and algebraic states are inside their bounds; every state after the first is inside the state bounds (the terminal
bounds if `n_horizon = 1`), with `cons_check_colloc_points` and `n_horizon > 1` also at the collocation points in between; and the nonlinear
constraints hold at the sampling times with the plant's own parameters, the soft ones up to their maximum violation. -/
theorem C76_robust_constraint_satisfaction (s : Scheme K) (EM : MpcEnv K d) (ES : SimEnv K d) (hc : EM.cfg.OnScheme EM.model s) (hN : 0 < EM.cfg.N)
    (hP : ContinuousPlantMatches s EM ES) (Ss : List (SolverArgs K d → SolverResult K d EM.nLagr)) (l l' : Loop K d)
    (hx : l.x = List.ofFn l.sim.x0) (ht : l.mpc.t0 = l.sim.t0) (hrun : Loop.iterate EM ES Ss l = some l') (hfeas : SolverFeasible EM ES Ss l) :
    ∃ (x : Nat → Vec K d.nx) (u : Nat → Vec K d.nu) (P : Nat → Nat → Fin d.nx → K[X]) (ζ : Nat → Nat → Nat → Vec K d.nz),
      x 0 = l.sim.x0 ∧ x Ss.length = l'.sim.x0 ∧
      l'.sim.data.rows "_x" = l.sim.data.rows "_x" ++ (List.range Ss.length).map (fun i => List.ofFn (x i)) ∧
      l'.sim.data.rows "_u" = l.sim.data.rows "_u" ++ (List.range Ss.length).map (fun i => List.ofFn (u i)) ∧
      ∀ i < Ss.length,
        let tv := ES.tvpFun (l.sim.t0 + i * ES.tStep)
        let p := ES.pFun (l.sim.t0 + i * ES.tStep)
        s.Interval EM.model (x i) (u i) tv p (x (i + 1)) (P i) (ζ i) ∧
        Within EM.cfg.ulb EM.cfg.uub (u i) ∧ s.AlgInside EM.cfg.consColloc EM.cfg.zlb EM.cfg.zub (ζ i) ∧
        (if EM.cfg.N = 1 then Within EM.cfg.xtlb EM.cfg.xtub (x (i + 1))
          else Within EM.cfg.xlb EM.cfg.xub (x (i + 1)) ∧ (EM.cfg.consColloc = true → s.Inside EM.cfg.xlb EM.cfg.xub (P i))) ∧
        ConstraintsHold EM.cfg.nl (x i) (u i) (ζ i 0 0) tv p := by
  induction Ss generalizing l with
  | nil =>
    simp only [Loop.iterate, Option.some.injEq] at hrun
    subst hrun
    exact ⟨fun _ => l.sim.x0, fun _ => 0, fun _ _ _ => 0, fun _ _ _ => 0, rfl, rfl, by simp, by simp, fun i hi => by simp at hi⟩
  | cons S Ss ih =>
    simp only [Loop.iterate, Option.bind_eq_some_iff] at hrun
    obtain ⟨l1, h1, h2⟩ := hrun
    obtain ⟨e1, e2, e3, e4, e5, e6, e7⟩ := loop_step hP.measured hP.time h1
    have hf0 := hfeas 0 (by simp) l (by simp [Loop.iterate])
    simp only [List.getElem_cons_zero] at hf0
    have hq := asked_state (EM := EM) hx
    obtain ⟨Q, hadm⟩ := C12_feasible_is_admissible_collocation hc _ _ hf0
    obtain ⟨r, P0, ζ0, hr, hpr, hint, hsim, hu, hzz, hxb, hcons⟩ := one_interval (t := l.sim.t0) hc hN hP.toContinuousPlantFollows hf0
      (by simp [Loop.asked, ht]) (by simp [Loop.asked, ht]) l.sim.simZ hadm ⟨rfl, rfl, rfl⟩
    rw [hq] at hint hsim hcons
    rw [hsim] at e4
    obtain ⟨x, u, P, ζ, a1, a2, a3, a4, a5⟩ := ih l1 e5 (by rw [e1, e2, ht]) h2 (solverFeasible_tail hfeas h1)
    rw [← e4, ← a1] at hint hxb
    refine ⟨fun i => Nat.casesOn i l.sim.x0 x, fun i => Nat.casesOn i (EM.cfg.uPhys (S (l.asked EM)).x 0 0) u, fun i => Nat.casesOn i P0 P,
      fun i => Nat.casesOn i ζ0 ζ, rfl, a2, ?_, ?_, ?_⟩
    rotate_left 2
    · intro i hi
      cases i with
      | zero =>
        dsimp only
        simp only [Nat.cast_zero, zero_mul, add_zero]
        exact ⟨hint, hu, hzz, hxb, hcons⟩
      | succ i =>
        have := a5 i (by simpa using hi)
        rw [e2] at this
        have e : l.sim.t0 + ES.tStep + (i : K) * ES.tStep = l.sim.t0 + ((i + 1 : Nat) : K) * ES.tStep := by push_cast; ring
        rw [e] at this
        exact this
    · rw [a3, e6, List.length_cons, List.range_succ_eq_map]
      simp [Function.comp_def]
    · rw [a4, e7, List.length_cons, List.range_succ_eq_map]
      simp [Function.comp_def]

/-! ## recursive feasibility -/

/-- If feasibility carries over from each iteration to the next, all problems are feasible. -/
theorem feasible_for_ever {EM : MpcEnv K d} {ES : SimEnv K d} (hm : StateMeasured ES.model) (htime : EM.tStep = ES.tStep)
    (hnext : ∀ (S : SolverArgs K d → SolverResult K d EM.nLagr) (l l1 : Loop K d), l.x = List.ofFn l.sim.x0 → l.mpc.t0 = l.sim.t0 →
      l.step EM ES S = some l1 → EM.cfg.Feasible (S (l.asked EM)).x (l.asked EM).p → ∃ w, EM.cfg.Feasible w (l1.asked EM).p)
    (Ss : List (SolverArgs K d → SolverResult K d EM.nLagr)) (hS : ∀ S ∈ Ss, FindsFeasible EM.cfg S) (l l' : Loop K d)
    (hx : l.x = List.ofFn l.sim.x0) (ht : l.mpc.t0 = l.sim.t0) (hrun : Loop.iterate EM ES Ss l = some l')
    (h0 : ∃ w, EM.cfg.Feasible w (l.asked EM).p) :
    SolverFeasible EM ES Ss l ∧ ∃ w, EM.cfg.Feasible w (l'.asked EM).p := by
  induction Ss generalizing l with
  | nil =>
    simp only [Loop.iterate, Option.some.injEq] at hrun
    subst hrun
    exact ⟨fun i hi => by simp at hi, h0⟩
  | cons S Ss ih =>
    simp only [Loop.iterate, Option.bind_eq_some_iff] at hrun
    obtain ⟨l1, h1, h2⟩ := hrun
    obtain ⟨e1, e2, e3, e4, e5, -, -⟩ := loop_step hm htime h1
    have hf := hS S (by simp) _ h0
    obtain ⟨i1, i2⟩ := ih (fun S' hS' => hS S' (by simp [hS'])) l1 e5 (by rw [e1, e2, ht]) h2 (hnext S l l1 hx ht h1 hf)
    refine ⟨?_, i2⟩
    intro i hi l2 h3
    cases i with
    | zero =>
      simp only [List.take_zero, Loop.iterate, Option.some.injEq] at h3
      subst h3
      exact hf
    | succ i =>
      simp only [List.take_succ_cons, Loop.iterate, Option.bind_eq_some_iff] at h3
      obtain ⟨l1', h1', h3⟩ := h3
      rw [h1] at h1'
      cases h1'
      exact i1 i (by simpa using hi) l2 h3

/-- The old plan without its first interval, continued by one interval that keeps the terminal set. -/
def shiftColl (N : Nat) (π : CollPolicy K d) (u : Vec K d.nu) (x' : Vec K d.nx) (P : Nat → Fin d.nx → K[X]) (ζ : Nat → Nat → Vec K d.nz) :
    CollPolicy K d where
  X := fun k _ => if k < N then π.X (k + 1) [] else x'
  U := fun k _ => if k + 1 < N then π.U (k + 1) [] else u
  E := fun k _ => if k + 1 < N then π.E (k + 1) [] else fun _ _ => 0
  P := fun k _ => if k + 1 < N then π.P (k + 1) [] else P
  ζ := fun k _ => if k + 1 < N then π.ζ (k + 1) [] else ζ

section
variable {EM : MpcEnv K d} {s : Scheme K}

theorem shiftColl_admissible (hnom : EM.cfg.nRobust = 0) (hN : 0 < EM.cfg.N) (hcon : ConsistentPredictions EM) (t : K)
    (hover : EM.cfg.consColloc = true → NoOvershoot s EM.cfg EM.model (EM.tvpFun t (EM.cfg.N - 1)) (EM.pFun t 0))
    (hin : ∀ x, Within EM.cfg.xtlb EM.cfg.xtub x → Within EM.cfg.xlb EM.cfg.xub x)
    (hslack : ∀ call ∈ EM.cfg.nl, call.soft = true → call.maxViolation.ge 0)
    (q q' : OptP K d) (htv : q.tvp = EM.tvpFun t) (hp : q.p = EM.pFun t) (htv' : q'.tvp = EM.tvpFun (t + EM.tStep))
    (hp' : q'.p = EM.pFun (t + EM.tStep)) (π : CollPolicy K d)
    (hπ : (EM.cfg.collProblem EM.model s.deg s.ni s.tau s.tStep q).Admissible π) (hx' : q'.x0 = π.X 1 [])
    (u : Vec K d.nu) (x' : Vec K d.nx) (P : Nat → Fin d.nx → K[X]) (ζ : Nat → Nat → Vec K d.nz)
    (hk : KeepsTerminalAlong s EM.cfg EM.model (EM.tvpFun t EM.cfg.N) (EM.pFun t 0) (π.X EM.cfg.N []) u x' P ζ) :
    (EM.cfg.collProblem EM.model s.deg s.ni s.tau s.tStep q').Admissible (shiftColl EM.cfg.N π u x' P ζ) := by
  have hnil : ∀ k, IsHistory EM.cfg.c EM.cfg.nRobust k [] := fun k => by rw [hnom]; exact isHistory_zero.mpr rfl
  have hocc : ∀ k, MayOccur EM.cfg.c EM.cfg.nRobust k [] 0 := fun k => by rw [hnom]; exact mayOccur_zero.mpr rfl
  have hex : ∀ k h r, extend EM.cfg.nRobust k h r = h := fun k h r => by rw [hnom]; exact extend_zero k r h
  have ptv : ∀ k < EM.cfg.N, q'.tvp k = q.tvp (k + 1) := fun k hk => by rw [htv', htv, hcon.tvp t k hk]
  have pp : q'.p 0 = q.p 0 := by rw [hp', hp, hcon.params]
  obtain ⟨k1, k2, k3, k3b, k4, k5⟩ := hk
  have hterm : Within EM.cfg.xtlb EM.cfg.xtub (π.X EM.cfg.N []) := hπ.terminal [] (hnil _)
  have hlast : ∀ k < EM.cfg.N, ¬ k + 1 < EM.cfg.N → k + 1 = EM.cfg.N := fun k h1 h2 => by omega
  refine ⟨?_, ?_, ?_, ?_, ?_, ?_, ?_, ?_, ?_, ?_⟩
  · show (if 0 < EM.cfg.N then π.X 1 [] else _) = q'.x0
    rw [if_pos hN, hx']
  · intro k hk h hh r hr
    have hk : k < EM.cfg.N := hk
    have hh : IsHistory EM.cfg.c EM.cfg.nRobust k h := hh
    rw [hnom, isHistory_zero] at hh; subst hh
    have hr : MayOccur EM.cfg.c EM.cfg.nRobust k [] r := hr
    rw [hnom, mayOccur_zero] at hr; subst hr
    by_cases hl : k + 1 < EM.cfg.N
    · have := hπ.dynamics (k + 1) hl [] (hnil _) 0 (hocc _)
      simp only [MpcCfg.collProblem, MpcCfg.problem, hex, shiftColl, if_pos hl, if_pos hk, ptv k hk, pp] at this ⊢
      exact this
    · have hN' := hlast k hk hl
      simp only [MpcCfg.collProblem, MpcCfg.problem, hex, shiftColl, if_neg hl, if_pos hk, ptv k hk, pp, hN', htv, hp, lt_irrefl, if_false]
      exact k1
  · intro k h1 h2 h hh
    have h2 : k < EM.cfg.N := h2
    show Within EM.cfg.xlb EM.cfg.xub (if k < EM.cfg.N then π.X (k + 1) [] else _)
    rw [if_pos h2]
    by_cases hl : k + 1 < EM.cfg.N
    · exact hπ.states (k + 1) (by omega) hl [] (hnil _)
    · rw [hlast k h2 hl]; exact hin _ hterm
  · intro hcc k hk h hh
    have hk : k + 1 < EM.cfg.N := hk
    show s.Inside EM.cfg.xlb EM.cfg.xub (if k + 1 < EM.cfg.N then π.P (k + 1) [] else _)
    rw [if_pos hk]
    by_cases hl : k + 1 + 1 < EM.cfg.N
    · exact hπ.inside hcc (k + 1) hl [] (hnil _)
    · have hkN : k + 1 + 1 = EM.cfg.N := by omega
      have hkN' : EM.cfg.N - 1 = k + 1 := by omega
      have hd := hπ.dynamics (k + 1) hk [] (hnil _) 0 (hocc _)
      have hd' : s.Interval EM.model (π.X (k + 1) []) (π.U (k + 1) []) (EM.tvpFun t (EM.cfg.N - 1)) (EM.pFun t 0) (π.X EM.cfg.N [])
          (π.P (k + 1) []) (π.ζ (k + 1) []) := by
        rw [hkN', ← htv, ← hp, ← hkN]
        simp only [MpcCfg.collProblem, MpcCfg.problem, hex] at hd
        exact hd
      exact hover hcc _ _ _ _ _ hd' (hπ.states (k + 1) (by omega) hk [] (hnil _)) (hπ.inputs (k + 1) hk [] (hnil _)) hterm
  · intro h hh
    show Within EM.cfg.xtlb EM.cfg.xtub (if EM.cfg.N < EM.cfg.N then _ else _)
    rw [if_neg (lt_irrefl _)]
    exact k5
  · intro k hk h hh
    show Within EM.cfg.ulb EM.cfg.uub (if k + 1 < EM.cfg.N then _ else _)
    split_ifs with hl
    · exact hπ.inputs (k + 1) hl [] (hnil _)
    · exact k2
  · intro k hk h hh
    show s.AlgInside EM.cfg.consColloc EM.cfg.zlb EM.cfg.zub (if k + 1 < EM.cfg.N then _ else _)
    split_ifs with hl
    · exact hπ.algebraic (k + 1) hl [] (hnil _)
    · exact k3
  · intro k hk h hh r hr call hcall i hi
    have hk : k < EM.cfg.N := hk
    have hh : IsHistory EM.cfg.c EM.cfg.nRobust k h := hh
    rw [hnom, isHistory_zero] at hh; subst hh
    have hr : MayOccur EM.cfg.c EM.cfg.nRobust k [] r := hr
    rw [hnom, mayOccur_zero] at hr; subst hr
    by_cases hl : k + 1 < EM.cfg.N
    · have := hπ.constraints (k + 1) hl [] (hnil _) 0 (hocc _) call hcall i hi
      simp only [MpcCfg.collProblem, MpcCfg.problem, hex, shiftColl, if_pos hl, if_pos hk, ptv k hk, pp] at this ⊢
      exact this
    · have hN' := hlast k hk hl
      have := k4 call hcall i hi
      simp only [MpcCfg.collProblem, MpcCfg.problem, hex, shiftColl, if_neg hl, if_pos hk, ptv k hk, pp, hN', htv, hp, lt_irrefl, if_false, sub_zero]
      split_ifs <;> exact this
  · intro k hk h hh call hcall hs i hi
    have hk : k < EM.cfg.N := hk
    by_cases hl : k + 1 < EM.cfg.N
    · have := hπ.slacks (k + 1) hl [] (hnil _) call hcall hs i hi
      simp only [MpcCfg.collProblem, MpcCfg.problem, shiftColl, if_pos hl] at this ⊢
      exact this
    · simp only [MpcCfg.collProblem, MpcCfg.problem, shiftColl, if_neg hl]
      exact ⟨le_rfl, hslack call hcall hs⟩
  · intro _ k _ h h' _ _
    rfl

/-- One iteration of the loop: from a feasible plan to a feasible plan of the next problem, of known cost. -/
theorem next_feasible_coll {ES : SimEnv K d} (hc : EM.cfg.OnScheme EM.model s) (hN : 0 < EM.cfg.N) (hnom : EM.cfg.nRobust = 0)
    (hP : ContinuousPlantMatches s EM ES) (hcon : ConsistentPredictions EM)
    (hover : EM.cfg.consColloc = true → ∀ t, NoOvershoot s EM.cfg EM.model (EM.tvpFun t (EM.cfg.N - 1)) (EM.pFun t 0))
    (hin : ∀ x, Within EM.cfg.xtlb EM.cfg.xtub x → Within EM.cfg.xlb EM.cfg.xub x)
    (hslack : ∀ call ∈ EM.cfg.nl, call.soft = true → call.maxViolation.ge 0)
    {S : SolverArgs K d → SolverResult K d EM.nLagr} {l l1 : Loop K d}
    (hx : l.x = List.ofFn l.sim.x0) (ht : l.mpc.t0 = l.sim.t0) (h1 : l.step EM ES S = some l1)
    (hf : EM.cfg.Feasible (S (l.asked EM)).x (l.asked EM).p) {π : CollPolicy K d}
    (hadm : (EM.cfg.collProblem EM.model s.deg s.ni s.tau s.tStep (l.asked EM).p).Admissible π)
    (hXU : π.X = EM.cfg.X (S (l.asked EM)).x ∧ π.U = EM.cfg.U (S (l.asked EM)).x ∧ π.E = EM.cfg.E (S (l.asked EM)).x)
    (u : Vec K d.nu) (x' : Vec K d.nx) (P : Nat → Fin d.nx → K[X]) (ζ : Nat → Nat → Vec K d.nz)
    (hk : KeepsTerminalAlong s EM.cfg EM.model (EM.tvpFun l.mpc.t0 EM.cfg.N) (EM.pFun l.mpc.t0 0) (π.X EM.cfg.N []) u x' P ζ) :
    (EM.cfg.collProblem EM.model s.deg s.ni s.tau s.tStep (l1.asked EM).p).Admissible (shiftColl EM.cfg.N π u x' P ζ) := by
  obtain ⟨e1, e2, e3, e4, e5, -, -⟩ := loop_step hP.measured hP.time h1
  have hq := asked_state (EM := EM) hx
  have hq1 := asked_state (EM := EM) e5
  obtain ⟨r, P0, ζ0, hr, hpr, hint, hsim, -⟩ := one_interval (t := l.sim.t0) hc hN hP.toContinuousPlantFollows hf
    (by simp [Loop.asked, ht]) (by simp [Loop.asked, ht]) l.sim.simZ hadm hXU
  rw [hq] at hsim
  rw [hsim] at e4
  have hext : extend EM.cfg.nRobust 0 [] r = [] := by rw [hnom]; exact extend_zero _ _ _
  rw [hext] at e4
  refine shiftColl_admissible hnom hN hcon l.mpc.t0 (fun h => hover h _) hin hslack (l.asked EM).p _ rfl rfl ?_ ?_ _ hadm ?_ u x' P ζ hk
  · show EM.tvpFun l1.mpc.t0 = _
    rw [e1, hP.time]
  · show EM.pFun l1.mpc.t0 = _
    rw [e1, hP.time]
  · rw [hq1, e4, hXU.1]

/-- **C77** (partial): recursive feasibility for continuous-time models.  Nominal controller, plant equal to the model, consistent predictions, control
invariant terminal set.  If `cons_check_colloc_points` is off, or no admissible trajectory leaves the state bounds on its way into the terminal set, then
feasibility of the first problem implies feasibility of every problem of a closed loop of any length.  Without the last condition the property is false:
`C77_fails_collocation_points`. -/
theorem C77_recursive_feasibility_partial {ES : SimEnv K d} (hc : EM.cfg.OnScheme EM.model s) (hN : 0 < EM.cfg.N) (hnom : EM.cfg.nRobust = 0)
    (hP : ContinuousPlantMatches s EM ES) (hcon : ConsistentPredictions EM) (hT : InvariantTerminalSetAlong s EM)
    (hover : EM.cfg.consColloc = false ∨ ∀ t, NoOvershoot s EM.cfg EM.model (EM.tvpFun t (EM.cfg.N - 1)) (EM.pFun t 0))
    (Ss : List (SolverArgs K d → SolverResult K d EM.nLagr)) (hS : ∀ S ∈ Ss, FindsFeasible EM.cfg S) (l l' : Loop K d)
    (hx : l.x = List.ofFn l.sim.x0) (ht : l.mpc.t0 = l.sim.t0) (hrun : Loop.iterate EM ES Ss l = some l')
    (h0 : ∃ w, EM.cfg.Feasible w (l.asked EM).p) :
    SolverFeasible EM ES Ss l ∧ ∃ w, EM.cfg.Feasible w (l'.asked EM).p := by
  refine feasible_for_ever hP.measured hP.time ?_ Ss hS l l' hx ht hrun h0
  intro S l l1 hx ht h1 hf
  obtain ⟨Q, hadm⟩ := C12_feasible_is_admissible_collocation hc _ _ hf
  obtain ⟨u, x', P, ζ, hk⟩ := hT.invariant l.mpc.t0 _ (hadm.terminal [] (by
    show IsHistory EM.cfg.c EM.cfg.nRobust EM.cfg.N []
    rw [hnom]; exact isHistory_zero.mpr rfl))
  exact ⟨_, (admissible_is_feasible_coll hc _ _ (next_feasible_coll hc hN hnom hP hcon
    (fun h => hover.resolve_left (by rw [h]; simp)) hT.inside hT.noSlack hx ht h1 hf hadm ⟨rfl, rfl, rfl⟩ u x' P ζ hk)).1⟩

/-- The old plan after realisation `r` has occurred, continued by one interval with the terminal controller. -/
def shiftRobustColl (N : Nat) (κ : Vec K d.nx → Vec K d.nu) (xe : Vec K d.nx → Nat → Vec K d.nx) (Pe : Vec K d.nx → Nat → Nat → Fin d.nx → K[X])
    (ζe : Vec K d.nx → Nat → Nat → Nat → Vec K d.nz) (r : Nat) (π : CollPolicy K d) : CollPolicy K d where
  X := fun k h => if k < N then π.X (k + 1) (r :: h) else xe (π.X N (r :: h.dropLast)) (h.getLastD 0)
  U := fun k h => if k + 1 < N then π.U (k + 1) (r :: h) else κ (π.X N (r :: h))
  E := fun k h => if k + 1 < N then π.E (k + 1) (r :: h) else fun _ _ => 0
  P := fun k h => if k + 1 < N then π.P (k + 1) (r :: h) else Pe (π.X N (r :: h.dropLast)) (h.getLastD 0)
  ζ := fun k h => if k + 1 < N then π.ζ (k + 1) (r :: h) else ζe (π.X N (r :: h.dropLast)) (h.getLastD 0)

theorem shiftRobustColl_admissible (hrob : EM.cfg.N ≤ EM.cfg.nRobust) (hN : 0 < EM.cfg.N) (hol : EM.cfg.openLoop = false)
    (hcon : ConsistentRealisations EM) (t : K)
    (hover : EM.cfg.consColloc = true → ∀ b < EM.cfg.c, NoOvershoot s EM.cfg EM.model (EM.tvpFun t (EM.cfg.N - 1)) (EM.pFun t b))
    (hin : ∀ x, Within EM.cfg.xtlb EM.cfg.xtub x → Within EM.cfg.xlb EM.cfg.xub x)
    (hslack : ∀ call ∈ EM.cfg.nl, call.soft = true → call.maxViolation.ge 0)
    (κ : Vec K d.nx → Vec K d.nu) (xe : Vec K d.nx → Nat → Vec K d.nx) (Pe : Vec K d.nx → Nat → Nat → Fin d.nx → K[X])
    (ζe : Vec K d.nx → Nat → Nat → Nat → Vec K d.nz)
    (hk : ∀ x, Within EM.cfg.xtlb EM.cfg.xtub x → ∀ r < EM.cfg.c,
      KeepsTerminalAlong s EM.cfg EM.model (EM.tvpFun t EM.cfg.N) (EM.pFun t r) x (κ x) (xe x r) (Pe x r) (ζe x r))
    (hc : 0 < EM.cfg.c)
    (q q' : OptP K d) (htv : q.tvp = EM.tvpFun t) (hp : q.p = EM.pFun t) (htv' : q'.tvp = EM.tvpFun (t + EM.tStep))
    (hp' : q'.p = EM.pFun (t + EM.tStep)) (π : CollPolicy K d)
    (hπ : (EM.cfg.collProblem EM.model s.deg s.ni s.tau s.tStep q).Admissible π) (r : Nat) (hr : r < EM.cfg.c)
    (hx' : q'.x0 = π.X 1 [r]) :
    (EM.cfg.collProblem EM.model s.deg s.ni s.tau s.tStep q').Admissible (shiftRobustColl EM.cfg.N κ xe Pe ζe r π) := by
  have ptv : ∀ k < EM.cfg.N, q'.tvp k = q.tvp (k + 1) := fun k hk => by rw [htv', htv, hcon.tvp t k hk]
  have pp : ∀ b < EM.cfg.c, q'.p b = q.p b := fun b hb => by rw [hp', hp, hcon.params t b hb]
  have hcons : ∀ {k h}, k < EM.cfg.N → IsHistory EM.cfg.c EM.cfg.nRobust k h → IsHistory EM.cfg.c EM.cfg.nRobust (k + 1) (r :: h) := by
    intro k h hk hh
    refine ⟨?_, ?_⟩
    · rw [List.length_cons, hh.1, min_eq_left (by omega), min_eq_left (by omega)]
    · intro b hb
      rcases List.mem_cons.mp hb with rfl | hb
      · exact hr
      · exact hh.2 b hb
  have hlast : ∀ k < EM.cfg.N, ¬ k + 1 < EM.cfg.N → k + 1 = EM.cfg.N := fun k h1 h2 => by omega
  have hterm : ∀ {k h}, k < EM.cfg.N → ¬ k + 1 < EM.cfg.N → IsHistory EM.cfg.c EM.cfg.nRobust k h →
      Within EM.cfg.xtlb EM.cfg.xtub (π.X EM.cfg.N (r :: h)) := by
    intro k h h1 h2 hh
    have := hcons h1 hh
    rw [hlast k h1 h2] at this
    exact hπ.terminal _ this
  have hocc : ∀ {k h b}, k < EM.cfg.N → (MayOccur EM.cfg.c EM.cfg.nRobust k h b ↔ b < EM.cfg.c) := by
    intro k h b hk
    unfold MayOccur
    rw [if_pos (by omega)]
  have hext : ∀ {k h b}, k < EM.cfg.N → extend EM.cfg.nRobust k h b = h ++ [b] := by
    intro k h b hk
    unfold extend
    rw [if_pos (by omega)]
  have hsplit : ∀ {k h}, k < EM.cfg.N → IsHistory EM.cfg.c EM.cfg.nRobust (k + 1) h →
      ∃ h' b, h = h' ++ [b] ∧ b < EM.cfg.c ∧ IsHistory EM.cfg.c EM.cfg.nRobust k h' := by
    intro k h hk hh
    have hl : h.length = k + 1 := by rw [hh.1]; omega
    have hne : h ≠ [] := by rintro rfl; simp at hl
    refine ⟨h.dropLast, h.getLast hne, (List.dropLast_append_getLast hne).symm, hh.2 _ (List.getLast_mem hne), ?_, ?_⟩
    · rw [List.length_dropLast, hl]; omega
    · intro b hb; exact hh.2 b (List.dropLast_subset h hb)
  refine ⟨?_, ?_, ?_, ?_, ?_, ?_, ?_, ?_, ?_, ?_⟩
  · show (if 0 < EM.cfg.N then π.X 1 [r] else _) = q'.x0
    rw [if_pos hN, hx']
  · intro k hk' h hh b hb
    have hk' : k < EM.cfg.N := hk'
    have hb : b < EM.cfg.c := (hocc hk').mp hb
    have hh : IsHistory EM.cfg.c EM.cfg.nRobust k h := hh
    by_cases hl : k + 1 < EM.cfg.N
    · have := hπ.dynamics (k + 1) hl (r :: h) (hcons hk' hh) b ((hocc hl).mpr hb)
      simp only [MpcCfg.collProblem, MpcCfg.problem, hext hl, hext hk', shiftRobustColl, if_pos hl, if_pos hk', ptv k hk', pp b hb, List.cons_append] at this ⊢
      exact this
    · have hN' := hlast k hk' hl
      have := hk _ (hterm hk' hl hh) b hb
      simp only [MpcCfg.collProblem, MpcCfg.problem, hext hk', shiftRobustColl, if_neg hl, if_pos hk', ptv k hk', pp b hb, hN', htv, hp, lt_irrefl, if_false,
        List.dropLast_concat, List.getLastD_concat]
      exact this.1
  · intro k h1 h2 h hh
    have h2 : k < EM.cfg.N := h2
    show Within EM.cfg.xlb EM.cfg.xub (if k < EM.cfg.N then π.X (k + 1) (r :: h) else _)
    rw [if_pos h2]
    by_cases hl : k + 1 < EM.cfg.N
    · exact hπ.states (k + 1) (by omega) hl _ (hcons h2 hh)
    · rw [hlast k h2 hl]; exact hin _ (hterm h2 hl hh)
  · intro hcc k hk' h hh
    have hk' : k + 1 < EM.cfg.N := hk'
    show s.Inside EM.cfg.xlb EM.cfg.xub (if k + 1 < EM.cfg.N then π.P (k + 1) (r :: h) else _)
    rw [if_pos hk']
    by_cases hl : k + 1 + 1 < EM.cfg.N
    · exact hπ.inside hcc (k + 1) hl _ (hcons hk' hh)
    · have hkN : k + 1 + 1 = EM.cfg.N := by omega
      have hkN' : EM.cfg.N - 1 = k + 1 := by omega
      obtain ⟨h', b, rfl, hb, hh'⟩ := hsplit (k := k) (by omega) hh
      have hd := hπ.dynamics (k + 1) hk' (r :: h') (hcons (by omega) hh') b ((hocc hk').mpr hb)
      have ht1 : Within EM.cfg.xtlb EM.cfg.xtub (π.X EM.cfg.N (r :: (h' ++ [b]))) := hterm (k := k + 1) hk' hl hh
      have hd' : s.Interval EM.model (π.X (k + 1) (r :: h')) (π.U (k + 1) (r :: h')) (EM.tvpFun t (EM.cfg.N - 1)) (EM.pFun t b)
          (π.X EM.cfg.N (r :: (h' ++ [b]))) (π.P (k + 1) (r :: (h' ++ [b]))) (π.ζ (k + 1) (r :: (h' ++ [b]))) := by
        rw [hkN', ← htv, ← hp, ← hkN]
        simp only [MpcCfg.collProblem, MpcCfg.problem, hext hk', List.cons_append] at hd
        exact hd
      exact hover hcc b hb _ _ _ _ _ hd' (hπ.states (k + 1) (by omega) hk' _ (hcons (by omega) hh'))
        (hπ.inputs (k + 1) hk' _ (hcons (by omega) hh')) ht1
  · intro h hh
    obtain ⟨n, hn⟩ : ∃ n, EM.cfg.N = n + 1 := ⟨EM.cfg.N - 1, by omega⟩
    have hh : IsHistory EM.cfg.c EM.cfg.nRobust EM.cfg.N h := hh
    rw [hn] at hh
    obtain ⟨h', b, rfl, hb, hh'⟩ := hsplit (by omega) hh
    show Within EM.cfg.xtlb EM.cfg.xtub (if EM.cfg.N < EM.cfg.N then _ else _)
    rw [if_neg (lt_irrefl _)]
    simp only [List.dropLast_concat, List.getLastD_concat]
    exact (hk _ (hterm (k := n) (by omega) (by omega) hh') b hb).2.2.2.2.2
  · intro k hk' h hh
    show Within EM.cfg.ulb EM.cfg.uub (if k + 1 < EM.cfg.N then _ else _)
    split_ifs with hl
    · exact hπ.inputs (k + 1) hl _ (hcons hk' hh)
    · exact (hk _ (hterm hk' hl hh) 0 hc).2.1
  · intro k hk' h hh
    have hk' : k < EM.cfg.N := hk'
    show s.AlgInside EM.cfg.consColloc EM.cfg.zlb EM.cfg.zub (if k + 1 < EM.cfg.N then _ else _)
    split_ifs with hl
    · exact hπ.algebraic (k + 1) hl _ (hcons (by omega) hh)
    · obtain ⟨h', b, rfl, hb, hh'⟩ := hsplit hk' hh
      simp only [List.dropLast_concat, List.getLastD_concat]
      exact (hk _ (hterm hk' hl hh') b hb).2.2.1
  · intro k hk' h hh b hb call hcall i hi
    have hk' : k < EM.cfg.N := hk'
    have hb : b < EM.cfg.c := (hocc hk').mp hb
    have hh : IsHistory EM.cfg.c EM.cfg.nRobust k h := hh
    by_cases hl : k + 1 < EM.cfg.N
    · have := hπ.constraints (k + 1) hl (r :: h) (hcons hk' hh) b ((hocc hl).mpr hb) call hcall i hi
      simp only [MpcCfg.collProblem, MpcCfg.problem, hext hl, hext hk', shiftRobustColl, if_pos hl, if_pos hk', ptv k hk', pp b hb, List.cons_append] at this ⊢
      exact this
    · have hN' := hlast k hk' hl
      have := (hk _ (hterm hk' hl hh) b hb).2.2.2.2.1 call hcall i hi
      simp only [MpcCfg.collProblem, MpcCfg.problem, hext hk', shiftRobustColl, if_neg hl, if_pos hk', ptv k hk', pp b hb, hN', htv, hp, lt_irrefl, if_false,
        List.dropLast_concat, List.getLastD_concat, sub_zero]
      split_ifs <;> exact this
  · intro k hk' h hh call hcall hs i hi
    have hk' : k < EM.cfg.N := hk'
    by_cases hl : k + 1 < EM.cfg.N
    · have := hπ.slacks (k + 1) hl (r :: h) (hcons hk' hh) call hcall hs i hi
      simp only [MpcCfg.collProblem, MpcCfg.problem, shiftRobustColl, if_pos hl] at this ⊢
      exact this
    · simp only [MpcCfg.collProblem, MpcCfg.problem, shiftRobustColl, if_neg hl]
      exact ⟨le_rfl, hslack call hcall hs⟩
  · intro ho
    have ho : EM.cfg.openLoop = true := ho
    rw [hol] at ho; cases ho

/-- **C77** (partial), robust: as C74 for continuous-time models.  The robust horizon is the prediction horizon, the plant's parameters are any of the
realisations at any time, the terminal set is robust control invariant; the condition on the way into the terminal set is as in the nominal case. -/
theorem C77_robust_recursive_feasibility_partial {ES : SimEnv K d} (hc : EM.cfg.OnScheme EM.model s) (hrob : EM.cfg.N ≤ EM.cfg.nRobust) (hN : 0 < EM.cfg.N)
    (hol : EM.cfg.openLoop = false) (hP : ContinuousPlantMatches s EM ES) (hcon : ConsistentRealisations EM) (hT : RobustInvariantTerminalSetAlong s EM)
    (hover : EM.cfg.consColloc = false ∨ ∀ t, ∀ r < EM.cfg.c, NoOvershoot s EM.cfg EM.model (EM.tvpFun t (EM.cfg.N - 1)) (EM.pFun t r))
    (Ss : List (SolverArgs K d → SolverResult K d EM.nLagr)) (hS : ∀ S ∈ Ss, FindsFeasible EM.cfg S) (l l' : Loop K d)
    (hx : l.x = List.ofFn l.sim.x0) (ht : l.mpc.t0 = l.sim.t0) (hrun : Loop.iterate EM ES Ss l = some l')
    (h0 : ∃ w, EM.cfg.Feasible w (l.asked EM).p) :
    SolverFeasible EM ES Ss l ∧ ∃ w, EM.cfg.Feasible w (l'.asked EM).p := by
  refine feasible_for_ever hP.measured hP.time ?_ Ss hS l l' hx ht hrun h0
  intro S l l1 hx ht h1 hf
  obtain ⟨e1, e2, e3, e4, e5, -, -⟩ := loop_step hP.measured hP.time h1
  have hq := asked_state (EM := EM) hx
  have hq1 := asked_state (EM := EM) e5
  obtain ⟨Q, hadm⟩ := C12_feasible_is_admissible_collocation hc _ _ hf
  obtain ⟨r, P0, ζ0, hr, hpr, hint, hsim, -⟩ := one_interval (t := l.sim.t0) hc hN hP.toContinuousPlantFollows hf
    (by simp [Loop.asked, ht]) (by simp [Loop.asked, ht]) l.sim.simZ hadm ⟨rfl, rfl, rfl⟩
  rw [hq] at hsim
  rw [hsim] at e4
  have hr' : r < EM.cfg.c := by
    unfold MayOccur at hr; rw [if_pos (by omega)] at hr; exact hr
  have hext : extend EM.cfg.nRobust 0 [] r = [r] := by unfold extend; rw [if_pos (by omega)]; rfl
  rw [hext] at e4
  have hinv := hT.invariant l.mpc.t0
  choose! κ hκ using hinv
  choose! xe Pe ζe hζ using hκ
  exact ⟨_, (admissible_is_feasible_coll hc (l1.asked EM).p _
      (shiftRobustColl_admissible hrob hN hol hcon l.mpc.t0 (fun h => hover.resolve_left (by rw [h]; simp) _) hT.inside hT.noSlack κ xe Pe ζe hζ hc.cpos
        (l.asked EM).p (l1.asked EM).p rfl rfl
        (by show EM.tvpFun l1.mpc.t0 = _; rw [e1, hP.time]) (by show EM.pFun l1.mpc.t0 = _; rw [e1, hP.time]) _ hadm r hr'
        (by rw [hq1, e4]))).1⟩

/-! ## closed-loop cost -/

theorem shiftColl_atNodes (N : Nat) (π : CollPolicy K d) (u : Vec K d.nu) (x' : Vec K d.nx) (P : Nat → Fin d.nx → K[X]) (ζ : Nat → Nat → Vec K d.nz) :
    (shiftColl N π u x' P ζ).atNodes = shiftPolicy N π.atNodes u (ζ 0 0) x' := by
  unfold shiftColl shiftPolicy CollPolicy.atNodes
  congr 1
  funext k h
  dsimp only
  split_ifs <;> rfl

/-- **C78** (partial: stage cost without algebraic states, conditions of C77): the closed loop with a continuous-time plant is never more expensive than planned.  If the
terminal cost falls by the stage cost inside the terminal set, the solver finds global minimisers, and `w0` is any feasible plan of the first problem, then the stage
costs of the trajectory in the simulator's log and the cost of some feasible plan of the problem after it together are at most the cost of `w0`. -/
theorem C78_closed_loop_cost_partial {ES : SimEnv K d} (hR : EM.cfg.CollRegular EM.model s.deg s.ni s.tau s.tStep) (hnom : EM.cfg.nRobust = 0)
    (hP : ContinuousPlantMatches s EM ES) (hcon : ConsistentPredictions EM) (hT : TerminalCostAlong s EM) (hch : EM.cfg.rterm = .factor fun _ => 0)
    (hpen : ∀ call ∈ EM.cfg.nl, call.soft = true → 0 ≤ call.penalty)
    (hover : EM.cfg.consColloc = false ∨ ∀ t, NoOvershoot s EM.cfg EM.model (EM.tvpFun t (EM.cfg.N - 1)) (EM.pFun t 0))
    (Ss : List (SolverArgs K d → SolverResult K d EM.nLagr)) (hS : ∀ S ∈ Ss, FindsOptimum EM.cfg S) (l l' : Loop K d)
    (hx : l.x = List.ofFn l.sim.x0) (ht : l.mpc.t0 = l.sim.t0) (hrun : Loop.iterate EM ES Ss l = some l')
    (w0 : OptX K d) (h0 : EM.cfg.Feasible w0 (l.asked EM).p) (z : Vec K d.nz) :
    ∃ (x : Nat → Vec K d.nx) (u : Nat → Vec K d.nu) (w : OptX K d),
      l'.sim.data.rows "_x" = l.sim.data.rows "_x" ++ (List.range Ss.length).map (fun i => List.ofFn (x i)) ∧
      l'.sim.data.rows "_u" = l.sim.data.rows "_u" ++ (List.range Ss.length).map (fun i => List.ofFn (u i)) ∧
      EM.cfg.Feasible w (l'.asked EM).p ∧
      ((List.range Ss.length).map fun i => EM.cfg.lterm (x i) (u i) z (ES.tvpFun (l.sim.t0 + i * ES.tStep)) (ES.pFun (l.sim.t0 + i * ES.tStep))).sum +
        EM.cfg.obj w (l'.asked EM).p ≤ EM.cfg.obj w0 (l.asked EM).p := by
  have hc : EM.cfg.OnScheme EM.model s := hR.toCollConstraints
  have hN : 0 < EM.cfg.N := by have := hR.horizon; omega
  induction Ss generalizing l w0 with
  | nil =>
    simp only [Loop.iterate, Option.some.injEq] at hrun
    subst hrun
    exact ⟨fun _ => 0, fun _ => 0, w0, by simp, by simp, h0, by simp⟩
  | cons S Ss ih =>
    simp only [Loop.iterate, Option.bind_eq_some_iff] at hrun
    obtain ⟨l1, h1, h2⟩ := hrun
    obtain ⟨e1, e2, e3, e4, e5, e6, e7⟩ := loop_step hP.measured hP.time h1
    obtain ⟨hf, hopt⟩ := hS S (by simp) _ ⟨w0, h0⟩
    obtain ⟨Q, hadm⟩ := C12_feasible_is_admissible_collocation hc _ _ hf
    obtain ⟨u, x', P, ζ, hk, hdec⟩ := hT.decrease l.mpc.t0 _ (hadm.terminal [] (by
      show IsHistory EM.cfg.c EM.cfg.nRobust EM.cfg.N []
      rw [hnom]; exact isHistory_zero.mpr rfl))
    have hnext := next_feasible_coll hc hN hnom hP hcon (fun h => hover.resolve_left (by rw [h]; simp)) hT.inside hT.noSlack hx ht h1 hf hadm
      ⟨rfl, rfl, rfl⟩ u x' P ζ hk
    obtain ⟨hn, hobj⟩ := C12_admissible_is_feasible_collocation hR _ _ hnext
    have hsl := slackCost_nonneg_of EM.cfg.nl (EM.cfg.E (S (l.asked EM)).x 0 []) hpen fun call hcall hs i hi =>
      (hadm.slacks 0 hN [] (by show IsHistory EM.cfg.c EM.cfg.nRobust 0 []; exact ⟨by simp, by simp⟩) call hcall hs i hi).1
    have hob0 := C12_objective_collocation hR (S (l.asked EM)).x (l.asked EM).p
      ⟨EM.cfg.X (S (l.asked EM)).x, EM.cfg.U (S (l.asked EM)).x, EM.cfg.E (S (l.asked EM)).x, Q,
        fun k h i j => EM.cfg.Z (S (l.asked EM)).x (i * (s.deg + 1) + j) k h⟩ (fun _ _ _ => rfl) (fun _ _ _ _ => rfl) (fun _ _ _ => rfl)
    set π : CollPolicy K d := ⟨EM.cfg.X (S (l.asked EM)).x, EM.cfg.U (S (l.asked EM)).x, EM.cfg.E (S (l.asked EM)).x, Q,
        fun k h i j => EM.cfg.Z (S (l.asked EM)).x (i * (s.deg + 1) + j) k h⟩ with hπdef
    have hsc := shift_cost hnom hN hcon l.mpc.t0 hch (l.asked EM).p (l1.asked EM).p rfl rfl
      (by show EM.tvpFun l1.mpc.t0 = _; rw [e1, hP.time]) (by show EM.pFun l1.mpc.t0 = _; rw [e1, hP.time]) π.atNodes hsl u (ζ 0 0) x' hdec
    rw [← shiftColl_atNodes EM.cfg.N π u x' P ζ] at hsc
    have hsc' : EM.cfg.lterm (π.X 0 []) (π.U 0 []) (π.ζ 0 [] 0 0) ((l.asked EM).p.tvp 0) ((l.asked EM).p.p 0) +
        EM.cfg.obj (EM.cfg.encodeColl s.deg s.ni s.tau (shiftColl EM.cfg.N π u x' P ζ)) (l1.asked EM).p ≤
        EM.cfg.obj (S (l.asked EM)).x (l.asked EM).p := by
      rw [hobj, hob0]; exact hsc
    obtain ⟨x, uu, w, a1, a2, a4, a5⟩ := ih (fun S' hS' => hS S' (by simp [hS'])) l1 e5 (by rw [e1, e2, ht]) h2 _ hn
    have hq := asked_state (EM := EM) hx
    obtain ⟨r, P0, ζ0, hr, hpr, -⟩ := one_interval (t := l.sim.t0) hc hN hP.toContinuousPlantFollows hf
      (by simp [Loop.asked, ht]) (by simp [Loop.asked, ht]) l.sim.simZ hadm ⟨rfl, rfl, rfl⟩
    rw [hnom] at hr
    have hr0 : r = 0 := mayOccur_zero.mp hr
    subst hr0
    have hu0 : π.U 0 [] = EM.cfg.uPhys (S (l.asked EM)).x 0 0 := by simp [hπdef, MpcCfg.U, number]
    have hx0 : π.X 0 [] = l.sim.x0 := by rw [← hq]; exact hadm.start
    have hl0 : EM.cfg.lterm (π.X 0 []) (π.U 0 []) (π.ζ 0 [] 0 0) ((l.asked EM).p.tvp 0) ((l.asked EM).p.p 0) =
        EM.cfg.lterm l.sim.x0 (EM.cfg.uPhys (S (l.asked EM)).x 0 0) z (ES.tvpFun l.sim.t0) (ES.pFun l.sim.t0) := by
      rw [hu0, hx0, hP.tvp, hpr, hR.lterm _ _ _ z]
      simp [Loop.asked, ht]
    rw [hl0] at hsc'
    have htime : ∀ i : Nat, l1.sim.t0 + (i : K) * ES.tStep = l.sim.t0 + ((i + 1 : Nat) : K) * ES.tStep := fun i => by rw [e2]; push_cast; ring
    refine ⟨fun i => Nat.casesOn i l.sim.x0 x, fun i => Nat.casesOn i (EM.cfg.uPhys (S (l.asked EM)).x 0 0) uu, w, ?_, ?_, a4, ?_⟩
    · rw [a1, e6, List.length_cons, List.range_succ_eq_map]
      simp [Function.comp_def]
    · rw [a2, e7, List.length_cons, List.range_succ_eq_map]
      simp [Function.comp_def]
    · rw [List.length_cons, List.range_succ_eq_map, List.map_cons, List.sum_cons, List.map_map]
      simp only [htime] at a5
      simp only [Function.comp_def, Nat.cast_zero, zero_mul, add_zero, Nat.succ_eq_add_one]
      refine le_trans ?_ (le_trans hsc' (hopt w0 h0))
      rw [add_assoc]
      exact add_le_add le_rfl a5

end
end DoMpc
