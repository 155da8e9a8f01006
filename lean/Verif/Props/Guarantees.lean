import Verif.Spec.Guarantees
import Verif.Props.MpcRun2
import Verif.Props.MpcOptimal

/-! # Properties C68, C69: what a feasible solution guarantees for the plant -/
set_option linter.unusedSectionVars false
namespace DoMpc
open Spec
variable {K : Type} [Field K] [LinearOrder K] [IsStrictOrderedRing K] {d : Dims}

/-- Settings under which the dynamics, bounds and constraints of the solver's problem are the documented ones. -/
structure MpcCfg.Plain (cfg : MpcCfg K d) (m : DaeModel K d) : Prop where
  discrete : cfg.ifcn = discreteIfcn m cfg.sx cfg.su cfg.sz 1
  cpos : 0 < cfg.c
  sx : ∀ i, 0 < cfg.sx i
  su : ∀ i, 0 < cfg.su i
  sz : ∀ i, 0 < cfg.sz i
  noColl : cfg.nlColloc = false
  names : (cfg.nl.map (·.name)).Nodup
  horizon : 0 < cfg.N

theorem MpcCfg.Regular.plain {cfg : MpcCfg K d} {m : DaeModel K d} (h : cfg.Regular m) : cfg.Plain m :=
  ⟨h.discrete, h.cpos, h.sx, h.su, h.sz, h.noColl, h.names, by have := h.horizon; omega⟩

/-- The simulator's step is the model's step. -/
theorem simulate_eq {m : DaeModel K d} {ES : SimEnv K d} (hP : SamePlant m ES) {x : Vec K d.nx} {u : Vec K d.nu} {z : Vec K d.nz} {tv : Vec K d.ntv}
    {p : Vec K d.np} (hz : m.alg x u z tv p 0 = 0) (z0 : Vec K d.nz) :
    ES.simulate x z0 u tv p 0 = (m.rhs x u z tv p 0, z) := by
  obtain ⟨root, h1, h2⟩ := hP.discrete
  unfold SimEnv.simulate
  rw [h1, hP.model]
  dsimp only
  have : (if 0 < d.nz then root z0 x u tv p 0 else z0) = z := by
    split_ifs with h
    · exact hP.unique _ _ _ _ _ _ (h2 _ _ _ _ _) hz
    · funext j; exact absurd j.2 (by omega)
  rw [this]

/-- One iteration of the loop. -/
theorem loop_step {EM : MpcEnv K d} {ES : SimEnv K d} (hm : StateMeasured ES.model) (ht : EM.tStep = ES.tStep)
    {S : SolverArgs K d → SolverResult K d EM.nLagr} {l l1 : Loop K d} (h : l.step EM ES S = some l1) :
    let w := (S (l.asked EM)).x
    let u := EM.cfg.uPhys w 0 0
    l1.mpc.t0 = l.mpc.t0 + ES.tStep ∧ l1.sim.t0 = l.sim.t0 + ES.tStep ∧ l1.mpc.u0 = u ∧
    l1.sim.x0 = (ES.simulate l.sim.x0 l.sim.simZ u (ES.tvpFun l.sim.t0) (ES.pFun l.sim.t0) 0).1 ∧ l1.x = List.ofFn l1.sim.x0 ∧
    l1.sim.data.rows "_x" = l.sim.data.rows "_x" ++ [List.ofFn l.sim.x0] ∧ l1.sim.data.rows "_u" = l.sim.data.rows "_u" ++ [List.ofFn u] := by
  unfold Loop.step at h
  split at h
  · simp at h
  · rename_i m' u hmpc
    split at h
    · simp at h
    · rename_i s' y hsim
      simp only [Option.some.injEq] at h
      obtain ⟨hl, hset, hu, hup, hst'⟩ := makeStep_ok EM S l.mpc l.x u (by rw [hmpc])
      obtain ⟨hset2, hy, hup2, hst2'⟩ := simStep_ok ES l.sim _ y (by rw [hsim])
      rw [hmpc] at hst'
      rw [hsim] at hst2'
      simp only at hst' hst2'
      have hr2 := fun k => C17_update_appends _ _ hup2 k
      have hask : l.asked EM = ⟨l.mpc.optX, ⟨fun i => l.x.get (i.cast hl.symm), EM.tvpFun l.mpc.t0, EM.pFun l.mpc.t0, l.mpc.u0⟩,
          if l.mpc.initialRun then some (l.mpc.lamG, l.mpc.lamX) else none⟩ := by
        unfold Loop.asked
        congr 2
        funext i
        rw [List.getD_eq_getElem?_getD, List.getElem?_eq_getElem (by rw [hl]; exact i.2)]
        rfl
      rw [← hask] at hu
      have hd2 := congrArg SimSt.data hst2'
      dsimp only at hd2
      subst h
      dsimp only
      rw [argument_ofFn] at hst2'
      refine ⟨?_, ?_, ?_, ?_, ?_, ?_, ?_⟩
      · rw [hst', ht]
      · rw [hst2']
      · rw [hst']; exact hu
      · rw [hst2', ← hu]; simp only [argument_none]
      · rw [hy, hst2']
        simp only [argument_ofFn, argument_none, stateFeedback]
        exact hm _ _ _ _ _
      · rw [hd2, hr2]; simp [given, PyVal.vec]
      · rw [hd2, hr2]; simp [given, PyVal.vec, argument_ofFn, hu]

/-- A feasible point of the problem, applied to the plant for one step: input, algebraic state and next state are inside their bounds. -/
theorem one_step {EM : MpcEnv K d} {ES : SimEnv K d} (hc : EM.cfg.Plain EM.model) (hz : EM.cfg.NoAlgBranching) (hP : PlantFollows EM ES)
    {w : OptX K d} {q : OptP K d} (hw : EM.cfg.Feasible w q) {t : K} (htv : q.tvp = EM.tvpFun t) (hp : q.p = EM.pFun t) (z0 : Vec K d.nz) :
    ∃ r z, MayOccur EM.cfg.c EM.cfg.nRobust 0 [] r ∧ ES.pFun t = EM.pFun t r ∧
      z = EM.cfg.Z w 0 0 (extend EM.cfg.nRobust 0 [] r) ∧
      EM.model.alg q.x0 (EM.cfg.uPhys w 0 0) z (ES.tvpFun t) (ES.pFun t) 0 = 0 ∧
      ES.simulate q.x0 z0 (EM.cfg.uPhys w 0 0) (ES.tvpFun t) (ES.pFun t) 0 =
        (EM.model.rhs q.x0 (EM.cfg.uPhys w 0 0) z (ES.tvpFun t) (ES.pFun t) 0, z) ∧
      EM.model.rhs q.x0 (EM.cfg.uPhys w 0 0) z (ES.tvpFun t) (ES.pFun t) 0 = EM.cfg.X w 1 (extend EM.cfg.nRobust 0 [] r) ∧
      Within EM.cfg.ulb EM.cfg.uub (EM.cfg.uPhys w 0 0) ∧ Within EM.cfg.zlb EM.cfg.zub z ∧
      (if EM.cfg.N = 1 then Within EM.cfg.xtlb EM.cfg.xtub (EM.cfg.X w 1 (extend EM.cfg.nRobust 0 [] r))
        else Within EM.cfg.xlb EM.cfg.xub (EM.cfg.X w 1 (extend EM.cfg.nRobust 0 [] r))) ∧
      ConstraintsHold EM.cfg.nl q.x0 (EM.cfg.uPhys w 0 0) z (ES.tvpFun t) (ES.pFun t) := by
  obtain ⟨⟨hx0, hdyn⟩, hcons⟩ := (C04_C07_rows_iff_discrete EM.model EM.cfg hc.discrete hc.cpos hc.sx hc.noColl hc.names w q).mp hw.1
  have hN := C06_feasible_nodes_within_bounds EM.cfg hc.cpos hc.sx hc.su hc.sz hc.names w q hw
  have hB := (C06_bounds_iff_physical EM.cfg hc.sx hc.su hc.sz hc.names w).mp hw.2
  have hlt : ∀ k h, IsHistory EM.cfg.c EM.cfg.nRobust k h → number EM.cfg.c h < EM.cfg.nMax := fun k h hh =>
    lt_of_lt_of_le (isHistory_number_lt hh) (Nat.pow_le_pow_right hc.cpos (by omega))
  obtain ⟨r, hr, hpr⟩ := hP.params t
  have h0 : IsHistory EM.cfg.c EM.cfg.nRobust 0 [] := ⟨by simp, by simp⟩
  have h1 := isHistory_extend h0 hr
  have hu0 : EM.cfg.U w 0 [] = EM.cfg.uPhys w 0 0 := by simp [MpcCfg.U, number]
  obtain ⟨ha, hx⟩ := hdyn 0 hc.horizon [] h0 r hr
  rw [hx0, hu0, htv, hp, ← hP.tvp, ← hpr] at ha hx
  refine ⟨r, _, hr, hpr, rfl, ha, simulate_eq hP.toSamePlant ha z0, hx.symm, ?_, ?_, ?_, ?_⟩
  · have := hN.2.2 0 hc.horizon [] h0
    rw [hu0] at this; exact this
  · intro j
    exact hB.2.2.1 0 hc.horizon _ (hlt _ _ h1) 0 (Nat.zero_le _) (Or.inr rfl) j
  · split_ifs with h
    · have := hN.2.1 (extend EM.cfg.nRobust 0 [] r) (by rw [h]; exact h1)
      rw [h] at this; exact this
    · exact hN.1 1 le_rfl (by have := hc.horizon; omega) _ h1
  · intro call hcall i hi
    have h2 := hcons 0 hc.horizon [] h0 r hr call hcall i hi
    rw [← noAlgBranching_Z EM.cfg hz w 0 0 h0 hr, hx0, hu0, htv, hp, ← hP.tvp, ← hpr] at h2
    cases hs : call.soft with
    | false => rw [hs] at h2; simpa using h2
    | true =>
      rw [hs] at h2
      simp only [if_true] at h2 ⊢
      have h3 := hB.2.2.2.2 0 (by unfold MpcCfg.nEps; have := hc.horizon; split_ifs <;> omega) _ (hlt _ _ h0) call hcall hs i hi
      refine ⟨_, h3.1, h3.2, ?_⟩
      have : EM.cfg.E w 0 [] = w.eps 0 (number EM.cfg.c []) := by simp [MpcCfg.E]
      rw [this] at h2
      exact h2

theorem solverFeasible_tail {EM : MpcEnv K d} {ES : SimEnv K d} {S : SolverArgs K d → SolverResult K d EM.nLagr}
    {Ss : List (SolverArgs K d → SolverResult K d EM.nLagr)} {l l1 : Loop K d} (h : SolverFeasible EM ES (S :: Ss) l) (h1 : l.step EM ES S = some l1) :
    SolverFeasible EM ES Ss l1 := by
  intro i hi l2 h2
  exact h (i + 1) (by simpa using hi) l2 (by simp [Loop.iterate, h1, h2])

/-- **C68** (discrete-time models): robust constraint satisfaction.  In every closed loop of any length whose plant is the model with parameters among those the
controller takes into account (`PlantMatches`), if the solver returns a feasible point in every iteration: the trajectory in the simulator's log
follows the model, every input and algebraic state is inside its bounds, every state after the first is inside the state bounds (the terminal bounds
if `n_horizon = 1`), and the nonlinear constraints hold with the plant's own parameters, the soft ones up to their maximum violation. -/
theorem C68_robust_constraint_satisfaction (EM : MpcEnv K d) (ES : SimEnv K d) (hc : EM.cfg.Plain EM.model) (hz : EM.cfg.NoAlgBranching)
    (hP : PlantMatches EM ES) (Ss : List (SolverArgs K d → SolverResult K d EM.nLagr)) (l l' : Loop K d)
    (hx : l.x = List.ofFn l.sim.x0) (ht : l.mpc.t0 = l.sim.t0) (hrun : Loop.iterate EM ES Ss l = some l') (hfeas : SolverFeasible EM ES Ss l) :
    ∃ (x : Nat → Vec K d.nx) (u : Nat → Vec K d.nu) (z : Nat → Vec K d.nz),
      x 0 = l.sim.x0 ∧ x Ss.length = l'.sim.x0 ∧
      l'.sim.data.rows "_x" = l.sim.data.rows "_x" ++ (List.range Ss.length).map (fun i => List.ofFn (x i)) ∧
      l'.sim.data.rows "_u" = l.sim.data.rows "_u" ++ (List.range Ss.length).map (fun i => List.ofFn (u i)) ∧
      ∀ i < Ss.length,
        let tv := ES.tvpFun (l.sim.t0 + i * ES.tStep)
        let p := ES.pFun (l.sim.t0 + i * ES.tStep)
        EM.model.alg (x i) (u i) (z i) tv p 0 = 0 ∧ x (i + 1) = EM.model.rhs (x i) (u i) (z i) tv p 0 ∧
        Within EM.cfg.ulb EM.cfg.uub (u i) ∧ Within EM.cfg.zlb EM.cfg.zub (z i) ∧
        (if EM.cfg.N = 1 then Within EM.cfg.xtlb EM.cfg.xtub (x (i + 1)) else Within EM.cfg.xlb EM.cfg.xub (x (i + 1))) ∧
        ConstraintsHold EM.cfg.nl (x i) (u i) (z i) tv p := by
  induction Ss generalizing l with
  | nil =>
    simp only [Loop.iterate, Option.some.injEq] at hrun
    subst hrun
    exact ⟨fun _ => l.sim.x0, fun _ => 0, fun _ => 0, rfl, rfl, by simp, by simp, fun i hi => by simp at hi⟩
  | cons S Ss ih =>
    simp only [Loop.iterate, Option.bind_eq_some_iff] at hrun
    obtain ⟨l1, h1, h2⟩ := hrun
    obtain ⟨e1, e2, e3, e4, e5, e6, e7⟩ := loop_step hP.measured hP.time h1
    have hf0 := hfeas 0 (by simp) l (by simp [Loop.iterate])
    simp only [List.getElem_cons_zero] at hf0
    have hq : (l.asked EM).p.x0 = l.sim.x0 := by
      funext i
      simp [Loop.asked, hx, List.getD_eq_getElem?_getD]
    obtain ⟨r, zz, hr, hpr, -, ha, hsim, hrhs, hu, hzz, hxb, hcons⟩ := one_step (t := l.sim.t0) hc hz hP.toPlantFollows hf0
      (by simp [Loop.asked, ht]) (by simp [Loop.asked, ht]) l.sim.simZ
    rw [hq] at ha hsim hrhs hcons
    rw [hsim] at e4
    dsimp only at e4
    obtain ⟨x, u, z, a1, a2, a3, a4, a5⟩ := ih l1 e5 (by rw [e1, e2, ht]) h2 (solverFeasible_tail hfeas h1)
    refine ⟨fun i => Nat.casesOn i l.sim.x0 x, fun i => Nat.casesOn i (EM.cfg.uPhys (S (l.asked EM)).x 0 0) u, fun i => Nat.casesOn i zz z,
      rfl, a2, ?_, ?_, ?_⟩
    · rw [a3, e6, List.length_cons, List.range_succ_eq_map]
      simp [Function.comp_def]
    · rw [a4, e7, List.length_cons, List.range_succ_eq_map]
      simp [Function.comp_def]
    · intro i hi
      cases i with
      | zero =>
        dsimp only
        rw [a1]
        simp only [Nat.cast_zero, zero_mul, add_zero]
        rw [← hrhs, ← e4] at hxb
        exact ⟨ha, e4, hu, hzz, hxb, hcons⟩
      | succ i =>
        have := a5 i (by simpa using hi)
        rw [e2] at this
        have e : l.sim.t0 + ES.tStep + (i : K) * ES.tStep = l.sim.t0 + ((i + 1 : Nat) : K) * ES.tStep := by push_cast; ring
        rw [e] at this
        exact this


/-- **C69** (discrete-time models): a plan is what happens.  Take any point that satisfies the equations of the solver's problem and any scenario `σ`.  If the inputs
the plan has for this scenario are applied to a simulator of the same model, with the time-varying parameters that were predicted and in
each step the parameters of the scenario, the simulator's log is the predicted state trajectory of the scenario, and its final state the predicted
terminal state. -/
theorem C69_plan_is_reproduced (cfg : MpcCfg K d) (m : DaeModel K d) (hc : cfg.Plain m) (ES : SimEnv K d) (hS : SamePlant m ES)
    (w : OptX K d) (q : OptP K d) (hw : ∀ r ∈ cfg.rows w q, r.Holds) (st : SimSt K d) (hx : st.x0 = q.x0)
    (σ : List Nat) (hσ : IsHistory cfg.c cfg.nRobust cfg.N σ)
    (htv : ∀ k < cfg.N, ES.tvpFun (st.t0 + k * ES.tStep) = q.tvp k)
    (hp : ∀ k < cfg.N, ES.pFun (st.t0 + k * ES.tStep) = q.p (realisation cfg.nRobust k σ)) (ys : List (Vec K d.ny)) :
    let calls : List (SimCall K) := (List.range cfg.N).map fun k => { u := some (List.ofFn (cfg.U w k (known cfg.nRobust k σ))) }
    ES.outputs st calls = ys.map .ok →
      (ES.after st calls).data.rows "_x" = st.data.rows "_x" ++ (List.range cfg.N).map (fun k => List.ofFn (cfg.X w k (known cfg.nRobust k σ))) ∧
      (ES.after st calls).x0 = cfg.X w cfg.N σ := by
  intro calls hok
  obtain ⟨⟨hx0, hdyn⟩, -⟩ := (C04_C07_rows_iff_discrete m cfg hc.discrete hc.cpos hc.sx hc.noColl hc.names w q).mp hw
  have hlen : calls.length = cfg.N := by simp [calls]
  have hkn : ∀ k ≤ cfg.N, IsHistory cfg.c cfg.nRobust k (known cfg.nRobust k σ) := by
    intro k hk
    unfold known
    exact ⟨by simp [hσ.1]; omega, fun b hb => hσ.2 b (List.mem_of_mem_take hb)⟩
  have hre : ∀ k < cfg.N, MayOccur cfg.c cfg.nRobust k (known cfg.nRobust k σ) (realisation cfg.nRobust k σ) := by
    intro k hk
    unfold MayOccur realisation known
    split_ifs with hkR
    · have hl : k < σ.length := by rw [hσ.1]; omega
      rw [List.getD_eq_getElem?_getD, List.getElem?_eq_getElem hl, Option.getD_some]
      exact hσ.2 _ (List.getElem_mem hl)
    · rw [List.take_of_length_le (by rw [hσ.1]; omega)]
  have hext : ∀ k < cfg.N, extend cfg.nRobust k (known cfg.nRobust k σ) (realisation cfg.nRobust k σ) = known cfg.nRobust (k + 1) σ := by
    intro k hk
    unfold extend realisation known
    split_ifs with hkR
    · have hl : k < σ.length := by rw [hσ.1]; omega
      rw [List.getD_eq_getElem?_getD, List.getElem?_eq_getElem hl, Option.getD_some, min_eq_left (by omega), min_eq_left (by omega),
        List.take_succ_eq_append_getElem hl]
    · rw [min_eq_right (by omega), min_eq_right (by omega)]
  have hat : ∀ k ≤ cfg.N, (plantAt ES st.t0 st.x0 st.simZ calls k).1 = cfg.X w k (known cfg.nRobust k σ) := by
    intro k
    induction k with
    | zero =>
      intro _
      have : known cfg.nRobust 0 σ = [] := by simp [known]
      rw [this, hx0]
      exact hx
    | succ k ih =>
      intro hk
      have ih := ih (by omega)
      obtain ⟨ha, hs⟩ := hdyn k (by omega) _ (hkn k (by omega)) _ (hre k (by omega))
      rw [hext k (by omega)] at ha hs
      rw [plantAt]
      have hci : calls[k]? = some { u := some (List.ofFn (cfg.U w k (known cfg.nRobust k σ))) } := by
        simp [calls, List.getElem?_range (show k < cfg.N by omega)]
      rw [ih, hci, htv k (by omega), hp k (by omega)]
      simp only [Option.bind_some, argument_ofFn, argument_none]
      rw [simulate_eq hS ha, hs]
  obtain ⟨c1, -, -, -, -, -, -, c8, -⟩ := C15_log ES st calls ys hok
  rw [hlen] at c1 c8
  refine ⟨?_, ?_⟩
  · rw [c1]
    congr 1
    apply List.map_congr_left
    intro k hk
    rw [hat k (by have := List.mem_range.mp hk; omega)]
  · rw [c8, hat _ le_rfl]
    congr 1
    unfold known
    exact List.take_of_length_le (by rw [hσ.1])


/-! ## A robust controller of a plant whose parameter changes -/
namespace RobustEx

abbrev dm : Dims := { nx := 1, nu := 1, nz := 0, ntv := 0, np := 1, ny := 1 }
/-- `x⁺ = u + p`, measured -/
def model : DaeModel ℚ dm where
  rhs := fun _ u _ _ p _ => u + p
  alg := fun _ _ z _ _ _ => z
  meas := fun x _ _ _ _ _ => x
  aux := fun _ _ _ _ _ => Fin.elim0
/-- the parameter of realisation `r` -/
def par (r : Nat) : Vec ℚ 1 := fun _ => if r = 0 then 1/2 else -1/2
/-- horizon 2, robust horizon 1, two realisations; state bounds `±1`, terminal bounds `±2`, soft constraint `u ≤ 0` -/
def cfg : MpcCfg ℚ dm where
  N := 2
  nRobust := 1
  c := 2
  ifcn := discreteIfcn model (fun _ => 2) (fun _ => 3) (fun _ => 1) 1
  sx := fun _ => 2
  su := fun _ => 3
  sz := fun _ => 1
  xlb := fun _ => .fin (-1)
  xub := fun _ => .fin 1
  ulb := fun _ => .fin (-1)
  uub := fun _ => .fin 1
  zlb := fun _ => .ninf
  zub := fun _ => .pinf
  xtlb := fun _ => .fin (-2)
  xtub := fun _ => .fin 2
  nl := [{ name := "c", dim := 1, expr := fun _ u _ _ _ _ => u 0, ub := .fin 0, soft := true, penalty := 1, maxViolation := .fin 1 }]
  lterm := fun x _ _ _ _ => x 0 ^ 2
  mterm := fun x _ _ => x 0 ^ 2
  rterm := .factor fun _ => 0
def mpc : MpcEnv ℚ dm where
  model := model
  cfg := cfg
  tStep := 1
  tvpFun := fun _ _ => Fin.elim0
  pFun := fun _ r => par r
  nOptX := 0
  nOptP := 0
  nOptAux := 0
  nLagr := 0
  flatX := fun _ => Fin.elim0
  flatP := fun _ => Fin.elim0
  flatAux := fun _ _ => Fin.elim0
/-- the plant has the nominal parameter at time 0 and the other one afterwards -/
def sim : SimEnv ℚ dm where
  model := model
  plant := .discrete fun z _ _ _ _ _ => z
  tStep := 1
  tvpFun := fun _ => Fin.elim0
  pFun := fun t => if t = 0 then par 0 else par 1
/-- apply the input 0 -/
def plan (q : OptP ℚ dm) : Policy ℚ dm where
  X := fun k h => if k = 0 then q.x0 else q.p (h.getLastD 0)
  U := fun _ _ => 0
  Z := fun _ _ => Fin.elim0
  E := fun _ _ _ _ => 0
def solver (a : SolverArgs ℚ dm) : SolverResult ℚ dm 0 where
  x := cfg.encode (plan a.p)
  lamG := Fin.elim0
  lamX := []
  stats := []
def start : Loop ℚ dm := ⟨mpc.fresh 0 (fun _ => 8) (fun _ => 0) Fin.elim0, SimSt.fresh (fun _ => 8) Fin.elim0, [8]⟩

theorem regular : cfg.Regular model where
  discrete := rfl
  cpos := by decide
  sx := fun _ => (by decide +kernel : (0 : ℚ) < 2)
  su := fun _ => (by decide +kernel : (0 : ℚ) < 3)
  sz := fun _ => (by decide +kernel : (0 : ℚ) < 1)
  noColl := rfl
  names := by decide
  horizon := by decide
  noAlg := Or.inl rfl
  slack := rfl
  rterm := fun f h => by simp [cfg] at h

theorem matches_ : PlantMatches mpc sim where
  model := rfl
  discrete := ⟨_, rfl, fun _ _ _ _ _ => Subsingleton.elim (α := Fin 0 → ℚ) _ _⟩
  unique := fun _ _ _ _ _ _ _ _ => Subsingleton.elim (α := Fin 0 → ℚ) _ _
  tvp := fun _ => rfl
  params := fun t => by
    by_cases h : t = 0
    · exact ⟨0, by simp [MayOccur, mpc, cfg], by simp [sim, mpc, h]⟩
    · exact ⟨1, by simp [MayOccur, mpc, cfg], by simp [sim, mpc, h]⟩
  time := rfl
  measured := fun _ _ _ _ _ => rfl

theorem par_within (r : Nat) (b : ℚ) (hb : 1 ≤ b) (j : Fin 1) : (Bound.fin (-b)).le (par r j) ∧ (Bound.fin b).ge (par r j) := by
  unfold par Bound.le Bound.ge
  split_ifs <;> constructor <;> linarith

theorem admissible (q : OptP ℚ dm) (hp : q.p = par) : (cfg.problem model q).Admissible (plan q) where
  dynamics := by
    refine ⟨rfl, fun k hk h hh r hr => ⟨Subsingleton.elim (α := Fin 0 → ℚ) _ _, ?_⟩⟩
    have hr : MayOccur 2 1 k h r := hr
    have he : (extend 1 k h r).getLastD 0 = r := by
      unfold extend; unfold MayOccur at hr
      split_ifs with h1
      · simp
      · rw [if_neg h1] at hr; exact hr.symm
    funext j
    show (if k + 1 = 0 then q.x0 else q.p ((extend 1 k h r).getLastD 0)) j = (0 + q.p r : Vec ℚ 1) j
    rw [if_neg (by omega), he, zero_add]
  states := fun k h1 h2 h hh j => by
    show (Bound.fin (-1)).le ((if k = 0 then q.x0 else q.p (h.getLastD 0)) j) ∧ (Bound.fin 1).ge ((if k = 0 then q.x0 else q.p (h.getLastD 0)) j)
    rw [if_neg (by omega), hp]
    exact par_within _ 1 le_rfl j
  terminal := fun h hh j => by
    show (Bound.fin (-2)).le (q.p (h.getLastD 0) j) ∧ (Bound.fin 2).ge (q.p (h.getLastD 0) j)
    rw [hp]
    exact par_within _ 2 (by norm_num) j
  inputs := fun _ _ _ _ _ => ⟨by show (-1 : ℚ) ≤ 0; norm_num, by show (0 : ℚ) ≤ 1; norm_num⟩
  algebraic := fun _ _ _ _ j => j.elim0
  constraints := fun k hk h hh r hr call hcall i hi => by
    simp only [MpcCfg.problem, cfg, List.mem_singleton] at hcall
    subst hcall
    show (0 : ℚ) - 0 ≤ 0
    norm_num
  slacks := fun k hk h hh call hcall hs i hi => by
    simp only [MpcCfg.problem, cfg, List.mem_singleton] at hcall
    subst hcall
    exact ⟨le_rfl, by show (0 : ℚ) ≤ 1; norm_num⟩
  oneInput := fun _ _ _ _ _ _ _ => rfl

theorem feasible (Ss : List (SolverArgs ℚ dm → SolverResult ℚ dm 0)) (hS : ∀ S ∈ Ss, S = solver) (l : Loop ℚ dm) : SolverFeasible mpc sim Ss l := by
  intro i hi l1 _
  rw [hS _ (List.getElem_mem hi)]
  exact (C12_admissible_is_feasible cfg model regular _ _ (admissible _ rfl)).1

theorem runs : (Loop.iterate mpc sim [solver, solver, solver] start).isSome := by decide +kernel

end RobustEx

/-- Non-vacuity of C68: all hypotheses hold in a run of three iterations of a robust controller. -/
example : ∃ l', RobustEx.cfg.Plain RobustEx.model ∧ RobustEx.cfg.NoAlgBranching ∧ PlantMatches RobustEx.mpc RobustEx.sim ∧
    Loop.iterate RobustEx.mpc RobustEx.sim [RobustEx.solver, RobustEx.solver, RobustEx.solver] RobustEx.start = some l' ∧
    SolverFeasible RobustEx.mpc RobustEx.sim [RobustEx.solver, RobustEx.solver, RobustEx.solver] RobustEx.start := by
  obtain ⟨l', hl⟩ := Option.isSome_iff_exists.mp RobustEx.runs
  exact ⟨l', RobustEx.regular.plain, RobustEx.regular.noAlg, RobustEx.matches_, hl, RobustEx.feasible (List.replicate 3 RobustEx.solver) (fun _ h => List.eq_of_mem_replicate h) _⟩

/-- Non-vacuity of C69: the plan of the same controller for the scenario in which the second realisation occurs, in a simulator with this parameter. -/
example : RobustEx.cfg.Plain RobustEx.model ∧ SamePlant RobustEx.model { RobustEx.sim with pFun := fun _ => RobustEx.par 1 } ∧
    (∀ r ∈ RobustEx.cfg.rows (RobustEx.solver (RobustEx.start.asked RobustEx.mpc)).x (RobustEx.start.asked RobustEx.mpc).p, r.Holds) ∧
    IsHistory RobustEx.cfg.c RobustEx.cfg.nRobust RobustEx.cfg.N [1] ∧
    (({ RobustEx.sim with pFun := fun _ => RobustEx.par 1 } : SimEnv ℚ RobustEx.dm).outputs RobustEx.start.sim
      ((List.range RobustEx.cfg.N).map fun k => { u := some (List.ofFn (RobustEx.cfg.U (RobustEx.solver (RobustEx.start.asked RobustEx.mpc)).x k
        (known RobustEx.cfg.nRobust k [1]))) })).map (·.toOption.map List.ofFn) = [some [-1/2], some [-1/2]] := by
  refine ⟨RobustEx.regular.plain, ⟨rfl, ⟨_, rfl, fun _ _ _ _ _ => Subsingleton.elim (α := Fin 0 → ℚ) _ _⟩,
    fun _ _ _ _ _ _ _ _ => Subsingleton.elim (α := Fin 0 → ℚ) _ _⟩, ?_, ?_, ?_⟩
  · exact ((C12_admissible_is_feasible RobustEx.cfg RobustEx.model RobustEx.regular _ _ (RobustEx.admissible _ rfl)).1).1
  · exact ⟨by decide, by decide⟩
  · decide +kernel

end DoMpc
