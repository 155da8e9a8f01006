import Verif.Props.Stability

/-! # Property C74: robust recursive feasibility of multi-stage MPC -/
set_option linter.unusedSectionVars false
namespace DoMpc
open Spec
variable {K : Type} [Field K] [LinearOrder K] [IsStrictOrderedRing K] {d : Dims}

/-- The old plan after realisation `r` has occurred, continued by one step with the terminal controller `κ` (and algebraic states `ζ`). -/
def shiftRobust (N : Nat) (m : DaeModel K d) (tv : Vec K d.ntv) (p : Nat → Vec K d.np) (κ : Vec K d.nx → Vec K d.nu)
    (ζ : Vec K d.nx → Nat → Vec K d.nz) (r : Nat) (π : Policy K d) : Policy K d where
  X := fun k h => if k < N then π.X (k + 1) (r :: h) else
    m.rhs (π.X N (r :: h.dropLast)) (κ (π.X N (r :: h.dropLast))) (ζ (π.X N (r :: h.dropLast)) (h.getLastD 0)) tv (p (h.getLastD 0)) 0
  U := fun k h => if k + 1 < N then π.U (k + 1) (r :: h) else κ (π.X N (r :: h))
  Z := fun k h => if k + 1 < N then π.Z (k + 1) (r :: h) else ζ (π.X N (r :: h.dropLast)) (h.getLastD 0)
  E := fun k h => if k + 1 < N then π.E (k + 1) (r :: h) else fun _ _ => 0

section
variable {EM : MpcEnv K d}

theorem shiftRobust_admissible (hrob : EM.cfg.N ≤ EM.cfg.nRobust) (hN : 0 < EM.cfg.N) (hol : EM.cfg.openLoop = false)
    (hcon : ConsistentRealisations EM) (t : K)
    (hin : ∀ x, Within EM.cfg.xtlb EM.cfg.xtub x → Within EM.cfg.xlb EM.cfg.xub x)
    (hslack : ∀ call ∈ EM.cfg.nl, call.soft = true → call.maxViolation.ge 0)
    (κ : Vec K d.nx → Vec K d.nu) (ζ : Vec K d.nx → Nat → Vec K d.nz)
    (hk : ∀ x, Within EM.cfg.xtlb EM.cfg.xtub x → ∀ r < EM.cfg.c, KeepsTerminal EM.cfg EM.model (EM.tvpFun t EM.cfg.N) (EM.pFun t r) x (κ x) (ζ x r))
    (hc : 0 < EM.cfg.c)
    (q q' : OptP K d) (htv : q.tvp = EM.tvpFun t) (hp : q.p = EM.pFun t) (htv' : q'.tvp = EM.tvpFun (t + EM.tStep))
    (hp' : q'.p = EM.pFun (t + EM.tStep)) (π : Policy K d) (hπ : (EM.cfg.problem EM.model q).Admissible π) (r : Nat) (hr : r < EM.cfg.c)
    (hx' : q'.x0 = π.X 1 [r]) :
    (EM.cfg.problem EM.model q').Admissible (shiftRobust EM.cfg.N EM.model (EM.tvpFun t EM.cfg.N) (EM.pFun t) κ ζ r π) := by
  have ptv : ∀ k < EM.cfg.N, q'.tvp k = q.tvp (k + 1) := fun k hk => by rw [htv', htv, hcon.tvp t k hk]
  have pp : ∀ b < EM.cfg.c, q'.p b = q.p b := fun b hb => by rw [hp', hp, hcon.params t b hb]
  have hcons : ∀ {k h}, k < EM.cfg.N → IsHistory EM.cfg.c EM.cfg.nRobust k h → IsHistory EM.cfg.c EM.cfg.nRobust (k + 1) (r :: h) := by
    intro k h hk hh
    refine ⟨?_, ?_⟩
    · rw [List.length_cons, hh.1, min_eq_left (by omega), min_eq_left (by omega)]
    · intro b hb
      rcases List.mem_cons.mp hb with rfl | hb
      · exact hr
      · exact hh.2 b hb
  have hlast : ∀ k < EM.cfg.N, ¬ k + 1 < EM.cfg.N → k + 1 = EM.cfg.N := fun k h1 h2 => by omega
  have hterm : ∀ {k h}, k < EM.cfg.N → ¬ k + 1 < EM.cfg.N → IsHistory EM.cfg.c EM.cfg.nRobust k h →
      Within EM.cfg.xtlb EM.cfg.xtub (π.X EM.cfg.N (r :: h)) := by
    intro k h h1 h2 hh
    have := hcons h1 hh
    rw [hlast k h1 h2] at this
    exact hπ.terminal _ this
  have hocc : ∀ {k h b}, k < EM.cfg.N → (MayOccur EM.cfg.c EM.cfg.nRobust k h b ↔ b < EM.cfg.c) := by
    intro k h b hk
    unfold MayOccur
    rw [if_pos (by omega)]
  have hext : ∀ {k h b}, k < EM.cfg.N → extend EM.cfg.nRobust k h b = h ++ [b] := by
    intro k h b hk
    unfold extend
    rw [if_pos (by omega)]
  -- the last branch of a history of positive length
  have hsplit : ∀ {k h}, k < EM.cfg.N → IsHistory EM.cfg.c EM.cfg.nRobust (k + 1) h →
      ∃ h' b, h = h' ++ [b] ∧ b < EM.cfg.c ∧ IsHistory EM.cfg.c EM.cfg.nRobust k h' := by
    intro k h hk hh
    have hl : h.length = k + 1 := by rw [hh.1]; omega
    have hne : h ≠ [] := by rintro rfl; simp at hl
    refine ⟨h.dropLast, h.getLast hne, (List.dropLast_append_getLast hne).symm, hh.2 _ (List.getLast_mem hne), ?_, ?_⟩
    · rw [List.length_dropLast, hl]; omega
    · intro b hb; exact hh.2 b (List.dropLast_subset h hb)
  refine ⟨⟨?_, ?_⟩, ?_, ?_, ?_, ?_, ?_, ?_, ?_⟩
  · show (if 0 < EM.cfg.N then π.X 1 [r] else _) = q'.x0
    rw [if_pos hN, hx']
  · intro k hk' h hh b hb
    have hk' : k < EM.cfg.N := hk'
    have hb : b < EM.cfg.c := (hocc hk').mp hb
    have hh : IsHistory EM.cfg.c EM.cfg.nRobust k h := hh
    by_cases hl : k + 1 < EM.cfg.N
    · have := hπ.dynamics.2 (k + 1) hl (r :: h) (hcons hk' hh) b ((hocc hl).mpr hb)
      simp only [MpcCfg.problem, hext hl, hext hk', shiftRobust, if_pos hl, if_pos hk', ptv k hk', pp b hb, List.cons_append] at this ⊢
      exact this
    · have hN' := hlast k hk' hl
      have := hk _ (hterm hk' hl hh) b hb
      simp only [MpcCfg.problem, hext hk', shiftRobust, if_neg hl, if_pos hk', ptv k hk', pp b hb, hN', htv, hp, lt_irrefl, if_false,
        List.dropLast_concat, List.getLastD_concat]
      exact ⟨this.1, trivial⟩
  · intro k h1 h2 h hh
    have h2 : k < EM.cfg.N := h2
    show Within EM.cfg.xlb EM.cfg.xub (if k < EM.cfg.N then π.X (k + 1) (r :: h) else _)
    rw [if_pos h2]
    by_cases hl : k + 1 < EM.cfg.N
    · exact hπ.states (k + 1) (by omega) hl _ (hcons h2 hh)
    · rw [hlast k h2 hl]; exact hin _ (hterm h2 hl hh)
  · intro h hh
    obtain ⟨n, hn⟩ : ∃ n, EM.cfg.N = n + 1 := ⟨EM.cfg.N - 1, by omega⟩
    have hh : IsHistory EM.cfg.c EM.cfg.nRobust EM.cfg.N h := hh
    rw [hn] at hh
    obtain ⟨h', b, rfl, hb, hh'⟩ := hsplit (by omega) hh
    show Within EM.cfg.xtlb EM.cfg.xtub (if EM.cfg.N < EM.cfg.N then _ else _)
    rw [if_neg (lt_irrefl _)]
    simp only [List.dropLast_concat, List.getLastD_concat]
    exact (hk _ (hterm (k := n) (by omega) (by omega) hh') b hb).2.2.2.2
  · intro k hk' h hh
    show Within EM.cfg.ulb EM.cfg.uub (if k + 1 < EM.cfg.N then _ else _)
    split_ifs with hl
    · exact hπ.inputs (k + 1) hl _ (hcons hk' hh)
    · exact (hk _ (hterm hk' hl hh) 0 hc).2.1
  · intro k hk' h hh
    have hk' : k < EM.cfg.N := hk'
    show Within EM.cfg.zlb EM.cfg.zub (if k + 1 < EM.cfg.N then _ else _)
    split_ifs with hl
    · exact hπ.algebraic (k + 1) hl _ (hcons (by omega) hh)
    · obtain ⟨h', b, rfl, hb, hh'⟩ := hsplit hk' hh
      simp only [List.dropLast_concat, List.getLastD_concat]
      exact (hk _ (hterm hk' hl hh') b hb).2.2.1
  · intro k hk' h hh b hb call hcall i hi
    have hk' : k < EM.cfg.N := hk'
    have hb : b < EM.cfg.c := (hocc hk').mp hb
    have hh : IsHistory EM.cfg.c EM.cfg.nRobust k h := hh
    by_cases hl : k + 1 < EM.cfg.N
    · have := hπ.constraints (k + 1) hl (r :: h) (hcons hk' hh) b ((hocc hl).mpr hb) call hcall i hi
      simp only [MpcCfg.problem, hext hl, hext hk', shiftRobust, if_pos hl, if_pos hk', ptv k hk', pp b hb, List.cons_append] at this ⊢
      exact this
    · have hN' := hlast k hk' hl
      have := (hk _ (hterm hk' hl hh) b hb).2.2.2.1 call hcall i hi
      simp only [MpcCfg.problem, hext hk', shiftRobust, if_neg hl, if_pos hk', ptv k hk', pp b hb, hN', htv, hp, lt_irrefl, if_false,
        List.dropLast_concat, List.getLastD_concat, sub_zero]
      split_ifs <;> exact this
  · intro k hk' h hh call hcall hs i hi
    have hk' : k < EM.cfg.N := hk'
    by_cases hl : k + 1 < EM.cfg.N
    · have := hπ.slacks (k + 1) hl (r :: h) (hcons hk' hh) call hcall hs i hi
      simp only [MpcCfg.problem, shiftRobust, if_pos hl] at this ⊢
      exact this
    · simp only [MpcCfg.problem, shiftRobust, if_neg hl]
      exact ⟨le_rfl, hslack call hcall hs⟩
  · intro ho
    have ho : EM.cfg.openLoop = true := ho
    rw [hol] at ho; cases ho

theorem MpcCfg.RegularConstraints.plain {cfg : MpcCfg K d} {m : DaeModel K d} (h : cfg.RegularConstraints m) (hN : 0 < cfg.N) : cfg.Plain m :=
  ⟨h.discrete, h.cpos, h.sx, h.su, h.sz, h.noColl, h.names, hN⟩

/-- **C74** (discrete-time models): robust recursive feasibility of the multi-stage controller.  The robust horizon is the prediction horizon; at every time the plant's
parameters are any of the realisations the controller knows, changing from step to step as they like (`PlantMatches`); predictions are consistent; and the
terminal set is robust control invariant.  If the first problem is feasible and the solver returns a feasible point whenever there is one, then in a
closed loop of any length every problem is feasible, including the next one. -/
theorem C74_robust_recursive_feasibility {ES : SimEnv K d} (hR : EM.cfg.RegularConstraints EM.model) (hrob : EM.cfg.N ≤ EM.cfg.nRobust) (hN : 0 < EM.cfg.N)
    (hol : EM.cfg.openLoop = false) (hP : PlantMatches EM ES) (hcon : ConsistentRealisations EM) (hT : RobustInvariantTerminalSet EM)
    (Ss : List (SolverArgs K d → SolverResult K d EM.nLagr)) (hS : ∀ S ∈ Ss, FindsFeasible EM.cfg S) (l l' : Loop K d)
    (hx : l.x = List.ofFn l.sim.x0) (ht : l.mpc.t0 = l.sim.t0) (hrun : Loop.iterate EM ES Ss l = some l')
    (h0 : ∃ w, EM.cfg.Feasible w (l.asked EM).p) :
    SolverFeasible EM ES Ss l ∧ ∃ w, EM.cfg.Feasible w (l'.asked EM).p := by
  induction Ss generalizing l with
  | nil =>
    simp only [Loop.iterate, Option.some.injEq] at hrun
    subst hrun
    exact ⟨fun i hi => by simp at hi, h0⟩
  | cons S Ss ih =>
    simp only [Loop.iterate, Option.bind_eq_some_iff] at hrun
    obtain ⟨l1, h1, h2⟩ := hrun
    obtain ⟨e1, e2, e3, e4, e5, -, -⟩ := loop_step hP.measured hP.time h1
    have hf := hS S (by simp) _ h0
    have hq : (l.asked EM).p.x0 = l.sim.x0 := by
      funext i; simp [Loop.asked, hx, List.getD_eq_getElem?_getD]
    have hq1 : (l1.asked EM).p.x0 = l1.sim.x0 := by
      funext i; simp [Loop.asked, e5, List.getD_eq_getElem?_getD]
    have hinv := hT.invariant l.mpc.t0
    choose! κ hκ using hinv
    choose! ζ hζ using hκ
    obtain ⟨r, zz, hr, hpr, -, ha, hsim, hrhs, -⟩ := one_step (t := l.sim.t0) (hR.plain hN) hR.noAlg hP.toPlantFollows hf
      (by simp [Loop.asked, ht]) (by simp [Loop.asked, ht]) l.sim.simZ
    rw [hq] at hsim hrhs
    rw [hsim] at e4
    dsimp only at e4
    have hr' : r < EM.cfg.c := by
      unfold MayOccur at hr; rw [if_pos (by omega)] at hr; exact hr
    have hext : extend EM.cfg.nRobust 0 [] r = [r] := by unfold extend; rw [if_pos (by omega)]; rfl
    rw [hext] at hrhs
    have hadm := feasible_is_admissible EM.cfg EM.model hR _ _ hf
    have hn := admissible_is_feasible EM.cfg EM.model hR (l1.asked EM).p _
      (shiftRobust_admissible hrob hN hol hcon l.mpc.t0 hT.inside hT.noSlack κ ζ hζ hR.cpos (l.asked EM).p (l1.asked EM).p rfl rfl
        (by show EM.tvpFun l1.mpc.t0 = _; rw [e1, hP.time]) (by show EM.pFun l1.mpc.t0 = _; rw [e1, hP.time]) _ hadm r hr'
        (by rw [hq1, e4, hrhs]; rfl))
    obtain ⟨i1, i2⟩ := ih (fun S' hS' => hS S' (by simp [hS'])) l1 e5 (by rw [e1, e2, ht]) h2 ⟨_, hn⟩
    refine ⟨?_, i2⟩
    intro i hi l2 h3
    cases i with
    | zero =>
      simp only [List.take_zero, Loop.iterate, Option.some.injEq] at h3
      subst h3
      exact hf
    | succ i =>
      simp only [List.take_succ_cons, Loop.iterate, Option.bind_eq_some_iff] at h3
      obtain ⟨l1', h1', h3⟩ := h3
      rw [h1] at h1'
      cases h1'
      exact i1 i (by simpa using hi) l2 h3

/-- **C74**, what it means for the plant: under the same hypotheses, feasibility of the first problem alone keeps the plant inside its constraints for a
closed loop of any length: the logged trajectory follows the model, inputs, algebraic states and (after the first) states are inside their bounds and the nonlinear
constraints hold with the plant's own parameters. -/
theorem C74_safe_for_ever {ES : SimEnv K d} (hR : EM.cfg.RegularConstraints EM.model) (hrob : EM.cfg.N ≤ EM.cfg.nRobust) (hN : 0 < EM.cfg.N)
    (hol : EM.cfg.openLoop = false) (hP : PlantMatches EM ES) (hcon : ConsistentRealisations EM) (hT : RobustInvariantTerminalSet EM)
    (Ss : List (SolverArgs K d → SolverResult K d EM.nLagr)) (hS : ∀ S ∈ Ss, FindsFeasible EM.cfg S) (l l' : Loop K d)
    (hx : l.x = List.ofFn l.sim.x0) (ht : l.mpc.t0 = l.sim.t0) (hrun : Loop.iterate EM ES Ss l = some l')
    (h0 : ∃ w, EM.cfg.Feasible w (l.asked EM).p) :
    ∃ (x : Nat → Vec K d.nx) (u : Nat → Vec K d.nu) (z : Nat → Vec K d.nz),
      x 0 = l.sim.x0 ∧ x Ss.length = l'.sim.x0 ∧
      l'.sim.data.rows "_x" = l.sim.data.rows "_x" ++ (List.range Ss.length).map (fun i => List.ofFn (x i)) ∧
      l'.sim.data.rows "_u" = l.sim.data.rows "_u" ++ (List.range Ss.length).map (fun i => List.ofFn (u i)) ∧
      ∀ i < Ss.length,
        let tv := ES.tvpFun (l.sim.t0 + i * ES.tStep)
        let p := ES.pFun (l.sim.t0 + i * ES.tStep)
        EM.model.alg (x i) (u i) (z i) tv p 0 = 0 ∧ x (i + 1) = EM.model.rhs (x i) (u i) (z i) tv p 0 ∧
        Within EM.cfg.ulb EM.cfg.uub (u i) ∧ Within EM.cfg.zlb EM.cfg.zub (z i) ∧ Within EM.cfg.xlb EM.cfg.xub (x (i + 1)) ∧
        ConstraintsHold EM.cfg.nl (x i) (u i) (z i) tv p := by
  obtain ⟨x, u, z, a1, a2, a3, a4, a5⟩ := C68_robust_constraint_satisfaction EM ES (hR.plain hN) hR.noAlg hP Ss l l' hx ht hrun
    (C74_robust_recursive_feasibility hR hrob hN hol hP hcon hT Ss hS l l' hx ht hrun h0).1
  refine ⟨x, u, z, a1, a2, a3, a4, fun i hi => ?_⟩
  obtain ⟨b1, b2, b3, b4, b5, b6⟩ := a5 i hi
  refine ⟨b1, b2, b3, b4, ?_, b6⟩
  split_ifs at b5
  · exact hT.inside _ b5
  · exact b5

end

/-! ## A plant with a changing parameter: `x⁺ = u + p`, `p = ±1/2`, robust horizon = horizon = 2 -/
namespace RobustFeasEx
open RobustEx (dm model par)

def cfg : MpcCfg ℚ dm := { RobustEx.cfg with nRobust := 2, xtlb := fun _ => .fin (-1), xtub := fun _ => .fin 1 }
def mpc : MpcEnv ℚ dm := { RobustEx.mpc with cfg := cfg }
/-- the least input that keeps the state above -1 for both realisations -/
def input (p : Nat → Vec ℚ 1) : ℚ := max (-1) (max (-1 - p 0 0) (-1 - p 1 0))
def plan (q : OptP ℚ dm) : Policy ℚ dm where
  X := fun k h => if k = 0 then q.x0 else fun _ => input q.p + q.p (h.getLastD 0) 0
  U := fun _ _ _ => input q.p
  Z := fun _ _ => Fin.elim0
  E := fun _ _ _ _ => max 0 (input q.p)
def solver (a : SolverArgs ℚ dm) : SolverResult ℚ dm 0 where
  x := cfg.encode (plan a.p)
  lamG := Fin.elim0
  lamX := []
  stats := []

theorem regular : cfg.RegularConstraints model where
  discrete := rfl
  cpos := by decide
  sx := fun _ => (by decide +kernel : (0 : ℚ) < 2)
  su := fun _ => (by decide +kernel : (0 : ℚ) < 3)
  sz := fun _ => (by decide +kernel : (0 : ℚ) < 1)
  noColl := rfl
  names := by decide
  noAlg := Or.inl rfl
  slack := rfl

theorem matches_ : PlantMatches mpc RobustEx.sim where
  model := rfl
  discrete := ⟨_, rfl, fun _ _ _ _ _ => Subsingleton.elim (α := Fin 0 → ℚ) _ _⟩
  unique := fun _ _ _ _ _ _ _ _ => Subsingleton.elim (α := Fin 0 → ℚ) _ _
  tvp := fun _ => rfl
  params := fun t => by
    by_cases h : t = 0
    · exact ⟨0, by simp [MayOccur, mpc, cfg, RobustEx.cfg], by simp [RobustEx.sim, mpc, RobustEx.mpc, h]⟩
    · exact ⟨1, by simp [MayOccur, mpc, cfg, RobustEx.cfg], by simp [RobustEx.sim, mpc, RobustEx.mpc, h]⟩
  time := rfl
  measured := fun _ _ _ _ _ => rfl

theorem invariantSet : RobustInvariantTerminalSet mpc where
  inside := fun _ h => h
  noSlack := fun call hcall _ => by
    simp only [mpc, cfg, RobustEx.cfg, List.mem_singleton] at hcall
    subst hcall
    show (0 : ℚ) ≤ 1
    norm_num
  invariant := fun t x _ => by
    refine ⟨0, fun r _ => ⟨Fin.elim0, Subsingleton.elim (α := Fin 0 → ℚ) _ _, fun _ => ?_, fun j => j.elim0, ?_, fun j => ?_⟩⟩
    · exact ⟨by show (-1 : ℚ) ≤ 0; norm_num, by show (0 : ℚ) ≤ 1; norm_num⟩
    · intro call hcall i hi
      simp only [mpc, cfg, RobustEx.cfg, List.mem_singleton] at hcall
      subst hcall
      show (0 : ℚ) ≤ 0
      exact le_rfl
    · have := RobustEx.par_within r 1 le_rfl j
      show (Bound.fin (-1)).le ((0 + par r : Vec ℚ 1) j) ∧ (Bound.fin 1).ge ((0 + par r : Vec ℚ 1) j)
      rw [zero_add]; exact this

/-- the input lies in every interval that contains an admissible one -/
theorem input_ok {p : Nat → Vec ℚ 1} {v : ℚ} (h0 : -1 ≤ v ∧ v ≤ 1) (h1 : ∀ r < 2, -1 ≤ v + p r 0 ∧ v + p r 0 ≤ 1) :
    (-1 ≤ input p ∧ input p ≤ 1) ∧ ∀ r < 2, -1 ≤ input p + p r 0 ∧ input p + p r 0 ≤ 1 := by
  have a0 := h1 0 (by decide)
  have a1 := h1 1 (by decide)
  have hle : input p ≤ v := by
    unfold input
    exact max_le h0.1 (max_le (by linarith [a0.1]) (by linarith [a1.1]))
  have b : -1 ≤ input p ∧ -1 - p 0 0 ≤ input p ∧ -1 - p 1 0 ≤ input p := by
    unfold input
    exact ⟨le_max_left _ _, le_trans (le_max_left _ _) (le_max_right _ _), le_trans (le_max_right _ _) (le_max_right _ _)⟩
  refine ⟨⟨b.1, le_trans hle h0.2⟩, fun r hr => ?_⟩
  have : r = 0 ∨ r = 1 := by omega
  rcases this with rfl | rfl
  · exact ⟨by linarith [b.2.1], by linarith [a0.2]⟩
  · exact ⟨by linarith [b.2.2], by linarith [a1.2]⟩

theorem admissible (q : OptP ℚ dm) (ho : (-1 ≤ input q.p ∧ input q.p ≤ 1) ∧ ∀ r < 2, -1 ≤ input q.p + q.p r 0 ∧ input q.p + q.p r 0 ≤ 1) :
    (cfg.problem model q).Admissible (plan q) := by
  have hX : ∀ k h, 1 ≤ k → IsHistory 2 2 k h → ∀ j, (Bound.fin (-1)).le ((plan q).X k h j) ∧ (Bound.fin 1).ge ((plan q).X k h j) := by
    intro k h hk hh j
    show (Bound.fin (-1)).le ((if k = 0 then q.x0 else fun _ => input q.p + q.p (h.getLastD 0) 0) j) ∧
      (Bound.fin 1).ge ((if k = 0 then q.x0 else fun _ => input q.p + q.p (h.getLastD 0) 0) j)
    rw [if_neg (by omega)]
    refine ho.2 _ ?_
    have hne : h ≠ [] := by
      rintro rfl
      have := hh.1
      simp at this; omega
    rw [List.getLastD_eq_getLast?, List.getLast?_eq_getLast_of_ne_nil hne]
    exact hh.2 _ (List.getLast_mem hne)
  refine ⟨⟨rfl, fun k hk h hh r hr => ⟨Subsingleton.elim (α := Fin 0 → ℚ) _ _, ?_⟩⟩, fun k h1 _ h hh => hX k h h1 hh, fun h hh => hX 2 h (by decide) hh,
    fun _ _ _ _ _ => ho.1, fun _ _ _ _ j => j.elim0, ?_, ?_, fun _ _ _ _ _ _ _ => rfl⟩
  · have hk : k < 2 := hk
    have he : (extend 2 k h r).getLastD 0 = r := by
      unfold extend
      rw [if_pos hk]; simp
    funext j
    show (if k + 1 = 0 then q.x0 else fun _ => input q.p + q.p ((extend 2 k h r).getLastD 0) 0) j = input q.p + q.p r j
    rw [if_neg (by omega), he, Subsingleton.elim j 0]
  · intro k hk h hh r hr call hcall i hi
    simp only [MpcCfg.problem, cfg, RobustEx.cfg, List.mem_singleton] at hcall
    subst hcall
    show input q.p - max 0 (input q.p) ≤ 0
    linarith [le_max_right 0 (input q.p)]
  · intro k hk h hh call hcall hs i hi
    simp only [MpcCfg.problem, cfg, RobustEx.cfg, List.mem_singleton] at hcall
    subst hcall
    exact ⟨le_max_left _ _, max_le zero_le_one ho.1.2⟩

theorem findsFeasible : FindsFeasible cfg solver := by
  rintro a ⟨w, hw⟩
  have hadm := feasible_is_admissible cfg model regular w a.p hw
  refine admissible_is_feasible cfg model regular a.p _ (admissible a.p (input_ok (v := (cfg.policy w).U 0 [] 0) ?_ ?_))
  · exact hadm.inputs 0 Nat.two_pos [] ⟨by simp, by simp⟩ 0
  · intro r hr
    have h1 := hadm.states 1 le_rfl Nat.one_lt_two [r] ⟨by simp [MpcCfg.problem, cfg, RobustEx.cfg], by simpa [MpcCfg.problem, cfg, RobustEx.cfg] using hr⟩ 0
    have h2 := (hadm.dynamics.2 0 Nat.two_pos [] ⟨by simp, by simp⟩ r (by simpa [MayOccur, MpcCfg.problem, cfg, RobustEx.cfg] using hr)).2
    have h3 : (cfg.policy w).X 1 [r] 0 = (cfg.policy w).U 0 [] 0 + a.p.p r 0 := congrFun h2 0
    rw [h3] at h1
    exact h1

theorem runs : (Loop.iterate mpc RobustEx.sim [solver, solver, solver] RobustEx.start).isSome := by decide +kernel

theorem first : ∃ w, cfg.Feasible w (RobustEx.start.asked mpc).p := by
  refine ⟨_, admissible_is_feasible cfg model regular _ _ (admissible _ (input_ok (v := 0) ?_ ?_))⟩
  · norm_num
  · intro r _
    have := RobustEx.par_within r 1 le_rfl 0
    rw [zero_add]; exact this

end RobustFeasEx

/-- Non-vacuity of C74: all hypotheses hold in a run of three iterations in which the plant's parameter changes. -/
example : ∃ l', RobustFeasEx.cfg.RegularConstraints RobustEx.model ∧ RobustFeasEx.cfg.N ≤ RobustFeasEx.cfg.nRobust ∧ 0 < RobustFeasEx.cfg.N ∧
    RobustFeasEx.cfg.openLoop = false ∧ PlantMatches RobustFeasEx.mpc RobustEx.sim ∧ ConsistentRealisations RobustFeasEx.mpc ∧
    RobustInvariantTerminalSet RobustFeasEx.mpc ∧ FindsFeasible RobustFeasEx.cfg RobustFeasEx.solver ∧
    Loop.iterate RobustFeasEx.mpc RobustEx.sim [RobustFeasEx.solver, RobustFeasEx.solver, RobustFeasEx.solver] RobustEx.start = some l' ∧
    ∃ w, RobustFeasEx.cfg.Feasible w (RobustEx.start.asked RobustFeasEx.mpc).p := by
  obtain ⟨l', hl⟩ := Option.isSome_iff_exists.mp RobustFeasEx.runs
  exact ⟨l', RobustFeasEx.regular, by decide, by decide, rfl, RobustFeasEx.matches_, ⟨fun _ _ _ => rfl, fun _ _ _ => rfl⟩, RobustFeasEx.invariantSet,
    RobustFeasEx.findsFeasible, hl, RobustFeasEx.first⟩

end DoMpc
