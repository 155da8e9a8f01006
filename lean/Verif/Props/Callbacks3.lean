import Verif.Props.Callbacks2
import Verif.Props.ClosedLoop

set_option linter.unusedSectionVars false

/-!
# C107: when the functions are called
-/
namespace DoMpc
variable {K : Type} [Field K] [LinearOrder K] [IsStrictOrderedRing K] {d : Dims} {ne ns : Nat} {W Ref : Type}
open Spec
variable (R : Contents K d ns W Ref) (EM : MpcEnv K d) (ES : SimEnv K d) (EE : MheEnv K d ne ns)

theorem timesOf_append (w : Which) (b : By) (x y : List (Which × By × K)) : timesOf w b (x ++ y) = timesOf w b x ++ timesOf w b y := List.filterMap_append

theorem timesFrom_succ (t h : K) (n : Nat) : timesFrom t h (n + 1) = t :: timesFrom (t + h) h n := by
  unfold timesFrom
  rw [List.range_succ_eq_map]
  simp only [List.map_cons, List.map_map, Nat.cast_zero, zero_mul, add_zero]
  congr 1
  apply List.map_congr_left
  intro k _
  simp only [Function.comp]
  push_cast; ring

/-- the calls that an action adds -/
def added (P : Prog K d ne ns W Ref) (op : UserOp K d ne ns EM.nLagr EE.nLagr W Ref) : List (Which × By × K) :=
  (P.act R EM ES EE op).calls.drop P.calls.length

theorem act_calls (P : Prog K d ne ns W Ref) (op : UserOp K d ne ns EM.nLagr EE.nLagr W Ref) :
    (P.act R EM ES EE op).calls = P.calls ++ added R EM ES EE P op := by
  have : ∃ l, (P.act R EM ES EE op).calls = P.calls ++ l := by
    cases op with
    | mpcStep S x0 =>
      simp only [Prog.act]; split
      · exact ⟨_, rfl⟩
      · exact ⟨[], by simp⟩
    | simStep c =>
      simp only [Prog.act]; split
      · exact ⟨_, rfl⟩
      · exact ⟨[], by simp⟩
    | mheStep S y0 =>
      simp only [Prog.act]; split
      · split
        · exact ⟨[], by simp⟩
        · split <;> exact ⟨_, rfl⟩
      · exact ⟨[], by simp⟩
    | edit e => exact ⟨[], by simp [Prog.act]⟩
    | _ => exact ⟨_, rfl⟩
  obtain ⟨l, h⟩ := this
  rw [added, h, List.drop_left]

/-- **C107**: registering a function calls it at time 0, twice for `tvp_fun` and for the simulator's `p_fun`, once for the others; nothing else makes such calls. -/
theorem C107_registrations (w : Which) (ops : List (UserOp K d ne ns EM.nLagr EE.nLagr W Ref)) : ∀ P : Prog K d ne ns W Ref,
    timesOf w .register (P.run R EM ES EE ops).calls = timesOf w .register P.calls ++ List.replicate (ops.map (registers w)).sum 0 := by
  induction ops with
  | nil => intro P; simp [Prog.run]
  | cons op ops ih =>
    intro P
    have hrun : P.run R EM ES EE (op :: ops) = (P.act R EM ES EE op).run R EM ES EE ops := rfl
    have key : timesOf w .register (P.act R EM ES EE op).calls = timesOf w .register P.calls ++ List.replicate (registers w op) 0 := by
      cases op with
      | mpcStep S x0 => simp only [Prog.act]; split <;> simp [timesOf, registers]
      | simStep c => simp only [Prog.act]; split <;> simp [timesOf, registers]
      | mheStep S y0 =>
        simp only [Prog.act]; split
        · split
          · simp [registers]
          · split <;> simp [timesOf, registers]
        · simp [registers]
      | simInit root => simp [Prog.act, timesOf, registers]
      | edit e => simp [Prog.act, registers]
      | _ => cases w <;> simp [Prog.act, timesOf, registers, List.replicate]
    rw [hrun, ih, key, List.append_assoc, List.map_cons, List.sum_cons, List.replicate_add]

/-- **C107**: each `make_step` of the controller calls `tvp_fun` and `p_fun` once, with the current time; nothing else does except registering them. -/
theorem C107_calls_mpc (ops : List (UserOp K d ne ns EM.nLagr EE.nLagr W Ref)) : ∀ (P : Prog K d ne ns W Ref),
    (∀ o ∈ (P.run R EM ES EE ops).mpcOut, ∃ u, o = .ok u) → ∀ w, w = .mpcTvp ∨ w = .mpcP →
    timesOf w .step (P.run R EM ES EE ops).calls = timesOf w .step P.calls ++ timesFrom P.mpc.t0 EM.tStep (mpcSteps ops).length ∧
    timesOf w .init (P.run R EM ES EE ops).calls = timesOf w .init P.calls := by
  induction ops with
  | nil => intro P _ w _; simp [Prog.run, mpcSteps, timesFrom]
  | cons op ops ih =>
    intro P hok w hw
    have hrun : P.run R EM ES EE (op :: ops) = (P.act R EM ES EE op).run R EM ES EE ops := rfl
    rw [hrun] at hok ⊢
    obtain ⟨i1, i2⟩ := ih _ hok w hw
    obtain ⟨vs, -, -, -, hgrow⟩ := mpc_project R EM ES EE ops _ hok
    rw [i1, i2]
    have hnot : w ≠ .simTvp ∧ w ≠ .simP ∧ w ≠ .mheTvp ∧ w ≠ .mheP ∧ w ≠ .mheY := by rcases hw with rfl | rfl <;> decide
    have other : timesOf w .step (P.act R EM ES EE op).calls = timesOf w .step P.calls → timesOf w .init (P.act R EM ES EE op).calls = timesOf w .init P.calls →
        (P.act R EM ES EE op).mpc = P.mpc → mpcSteps (op :: ops) = mpcSteps ops → _ := fun e1 e2 e3 e4 =>
      (⟨by rw [e1, e3, e4], e2⟩ : timesOf w .step (P.act R EM ES EE op).calls ++ timesFrom (P.act R EM ES EE op).mpc.t0 EM.tStep (mpcSteps ops).length =
          timesOf w .step P.calls ++ timesFrom P.mpc.t0 EM.tStep (mpcSteps (op :: ops)).length ∧ timesOf w .init (P.act R EM ES EE op).calls = timesOf w .init P.calls)
    cases op with
    | mpcStep S x0 =>
      by_cases ha : P.mpc.setup = true ∧ x0.length = d.nx
      · have hclk : (P.act R EM ES EE (.mpcStep S x0)).mpc.t0 = P.mpc.t0 + EM.tStep := by
          have hout : ∃ r : MpcSt K d × Except String (Vec K d.nu), ∃ v, r = stepM EM v P.mpc ⟨x0, S⟩ ∧ (P.act R EM ES EE (.mpcStep S x0)).mpc = r.1 ∧
              (P.act R EM ES EE (.mpcStep S x0)).mpcOut = P.mpcOut ++ [r.2] := by
            simp only [Prog.act, ha, and_self, if_true]
            exact ⟨_, _, rfl, rfl, rfl⟩
          obtain ⟨r, v, rfl, h1, h2⟩ := hout
          obtain ⟨u, hu⟩ := hok (stepM EM v P.mpc ⟨x0, S⟩).2 (by rw [hgrow, h2]; simp)
          obtain ⟨hl', hs', hu', hd', h⟩ := makeStep_ok (EM.withValues v) S P.mpc x0 u hu
          rw [h1]
          show ((EM.withValues v).makeStep S P.mpc x0).1.t0 = _
          rw [h]; rfl
        rw [hclk]
        simp only [mpcSteps, List.length_cons, timesFrom_succ]
        have hc : (P.act R EM ES EE (.mpcStep S x0)).calls = P.calls ++ [(.mpcTvp, .step, P.mpc.t0), (.mpcP, .step, P.mpc.t0)] := by
          simp only [Prog.act, ha, and_self, if_true]
        rw [hc]
        rcases hw with rfl | rfl <;> simp [timesOf]
      · exfalso
        obtain ⟨u, hu⟩ := hok (.error "AssertionError") (by rw [hgrow]; simp [Prog.act, ha])
        cases hu
    | simStep c =>
      refine other ?_ ?_ ?_ rfl
      · simp only [Prog.act]; split
        · simp [timesOf, hnot.1.symm, hnot.2.1.symm]
        · rfl
      · simp only [Prog.act]; split
        · simp [timesOf]
        · rfl
      · simp only [Prog.act]; split <;> rfl
    | mheStep S y0 =>
      refine other ?_ ?_ ?_ rfl
      · simp only [Prog.act]; split
        · split
          · rfl
          · split <;> simp [timesOf, hnot.2.2.1.symm, hnot.2.2.2.1.symm, hnot.2.2.2.2.symm]
        · rfl
      · simp only [Prog.act]; split
        · split
          · rfl
          · split <;> simp [timesOf]
        · rfl
      · exact (act_mhe_others R EM ES EE P S y0).2.2.2.2.2.1
    | simInit root => exact other (by simp [Prog.act, timesOf]) (by simp [Prog.act, timesOf, hnot.1.symm, hnot.2.1.symm]) rfl rfl
    | edit e => exact other rfl rfl rfl rfl
    | setMpcTvp f => exact other (by simp [Prog.act, timesOf]) (by simp [Prog.act, timesOf]) rfl rfl
    | setMpcP f => exact other (by simp [Prog.act, timesOf]) (by simp [Prog.act, timesOf]) rfl rfl
    | setSimTvp f => exact other (by simp [Prog.act, timesOf]) (by simp [Prog.act, timesOf]) rfl rfl
    | setSimP f => exact other (by simp [Prog.act, timesOf]) (by simp [Prog.act, timesOf]) rfl rfl
    | setMheTvp f => exact other (by simp [Prog.act, timesOf]) (by simp [Prog.act, timesOf]) rfl rfl
    | setMheP f => exact other (by simp [Prog.act, timesOf]) (by simp [Prog.act, timesOf]) rfl rfl
    | setMheY f => exact other (by simp [Prog.act, timesOf]) (by simp [Prog.act, timesOf]) rfl rfl

/-- **C107**: each `make_step` of the simulator calls `tvp_fun` and `p_fun` once, with the current time. -/
theorem C107_calls_sim (ops : List (UserOp K d ne ns EM.nLagr EE.nLagr W Ref)) (hi : ¬ Inits ops) : ∀ (P : Prog K d ne ns W Ref),
    (∀ o ∈ (P.run R EM ES EE ops).simOut, ∃ u, o = .ok u) → ∀ w, w = .simTvp ∨ w = .simP →
    timesOf w .step (P.run R EM ES EE ops).calls = timesOf w .step P.calls ++ timesFrom P.sim.t0 ES.tStep (simSteps ops).length := by
  induction ops with
  | nil => intro P _ w _; simp [Prog.run, simSteps, timesFrom]
  | cons op ops ih =>
    intro P hok w hw
    have hrun : P.run R EM ES EE (op :: ops) = (P.act R EM ES EE op).run R EM ES EE ops := rfl
    have hi' : ¬ Inits ops := fun ⟨o, ho, h⟩ => hi ⟨o, List.mem_cons_of_mem _ ho, h⟩
    rw [hrun] at hok ⊢
    rw [ih hi' _ hok w hw]
    obtain ⟨vs, -, -, -, hgrow⟩ := sim_project R EM ES EE ops hi' _ hok
    have hnot : w ≠ .mpcTvp ∧ w ≠ .mpcP ∧ w ≠ .mheTvp ∧ w ≠ .mheP ∧ w ≠ .mheY := by rcases hw with rfl | rfl <;> decide
    have other : timesOf w .step (P.act R EM ES EE op).calls = timesOf w .step P.calls →
        (P.act R EM ES EE op).sim = P.sim → simSteps (op :: ops) = simSteps ops → _ := fun e1 e3 e4 =>
      (by rw [e1, e3, e4] : timesOf w .step (P.act R EM ES EE op).calls ++ timesFrom (P.act R EM ES EE op).sim.t0 ES.tStep (simSteps ops).length =
          timesOf w .step P.calls ++ timesFrom P.sim.t0 ES.tStep (simSteps (op :: ops)).length)
    cases op with
    | simStep c =>
      by_cases ha : P.sim.setup = true ∧ (argInput d.nu c.u).isSome ∧ (argVec d.nw c.w).isSome ∧ (argVec d.nv c.v).isSome
      · have hclk : (P.act R EM ES EE (.simStep c)).sim.t0 = P.sim.t0 + ES.tStep := by
          have hout : ∃ v, (P.act R EM ES EE (.simStep c)).sim = (stepS ES v P.sim c).1 ∧ (P.act R EM ES EE (.simStep c)).simOut = P.simOut ++ [(stepS ES v P.sim c).2] := by
            simp only [Prog.act, ha, and_self, if_true]
            exact ⟨_, rfl, rfl⟩
          obtain ⟨v, h1, h2⟩ := hout
          obtain ⟨u, hu⟩ := hok (stepS ES v P.sim c).2 (by rw [hgrow, h2]; simp)
          obtain ⟨hs', hu', hd', h⟩ := simStep_ok (ES.withValues v) P.sim c u hu
          rw [h1]
          show ((ES.withValues v).makeStep P.sim c).1.t0 = _
          rw [h]; rfl
        rw [hclk]
        simp only [simSteps, List.length_cons, timesFrom_succ]
        have hc : (P.act R EM ES EE (.simStep c)).calls = P.calls ++ [(.simTvp, .step, P.sim.t0), (.simP, .step, P.sim.t0)] := by
          simp only [Prog.act, ha, and_self, if_true]
        rw [hc]
        rcases hw with rfl | rfl <;> simp [timesOf]
      · exfalso
        obtain ⟨u, hu⟩ := hok (.error "AssertionError") (by rw [hgrow]; simp [Prog.act, ha])
        cases hu
    | simInit root => exact absurd ⟨_, List.mem_cons_self .., root, rfl⟩ hi
    | mpcStep S x0 =>
      refine other ?_ ?_ rfl
      · simp only [Prog.act]; split
        · simp [timesOf, hnot.1.symm, hnot.2.1.symm]
        · rfl
      · simp only [Prog.act]; split <;> rfl
    | mheStep S y0 =>
      refine other ?_ ?_ rfl
      · simp only [Prog.act]; split
        · split
          · rfl
          · split <;> simp [timesOf, hnot.2.2.1.symm, hnot.2.2.2.1.symm, hnot.2.2.2.2.symm]
        · rfl
      · exact (act_mhe_others R EM ES EE P S y0).1
    | edit e => exact other rfl rfl rfl
    | setMpcTvp f => exact other (by simp [Prog.act, timesOf]) rfl rfl
    | setMpcP f => exact other (by simp [Prog.act, timesOf]) rfl rfl
    | setSimTvp f => exact other (by simp [Prog.act, timesOf]) rfl rfl
    | setSimP f => exact other (by simp [Prog.act, timesOf]) rfl rfl
    | setMheTvp f => exact other (by simp [Prog.act, timesOf]) rfl rfl
    | setMheP f => exact other (by simp [Prog.act, timesOf]) rfl rfl
    | setMheY f => exact other (by simp [Prog.act, timesOf]) rfl rfl

/-- **C107**: each `make_step` of the estimator calls `tvp_fun`, `p_fun` and the user's `y_fun` once, with the current time. -/
theorem C107_calls_mhe (ops : List (UserOp K d ne ns EM.nLagr EE.nLagr W Ref)) : ∀ (P : Prog K d ne ns W Ref), P.mheY.isSome = true →
    (∀ o ∈ (P.run R EM ES EE ops).mheOut, ∃ u, o = .ok u) → ∀ w, w = .mheTvp ∨ w = .mheP ∨ w = .mheY →
    timesOf w .step (P.run R EM ES EE ops).calls = timesOf w .step P.calls ++ timesFrom P.mhe.t0 EE.tStep (mheSteps ops).length := by
  induction ops with
  | nil => intro P _ _ w _; simp [Prog.run, mheSteps, timesFrom]
  | cons op ops ih =>
    intro P hy hok w hw
    have hrun : P.run R EM ES EE (op :: ops) = (P.act R EM ES EE op).run R EM ES EE ops := rfl
    have hy' : (P.act R EM ES EE op).mheY.isSome = true := by
      cases op with
      | setMheY f => rfl
      | mheStep S y0 => rw [(act_mhe_others R EM ES EE P S y0).2.2.2.2.2.2]; exact hy
      | mpcStep S x0 => simp only [Prog.act]; split <;> exact hy
      | simStep c => simp only [Prog.act]; split <;> exact hy
      | _ => exact hy
    rw [hrun] at hok ⊢
    rw [ih _ hy' hok w hw]
    obtain ⟨vs, -, -, -, hgrow⟩ := mhe_project R EM ES EE ops _ (Or.inl hy') hok
    have hnot : w ≠ .mpcTvp ∧ w ≠ .mpcP ∧ w ≠ .simTvp ∧ w ≠ .simP := by rcases hw with rfl | rfl | rfl <;> decide
    have other : timesOf w .step (P.act R EM ES EE op).calls = timesOf w .step P.calls →
        (P.act R EM ES EE op).mhe = P.mhe → mheSteps (op :: ops) = mheSteps ops → _ := fun e1 e3 e4 =>
      (by rw [e1, e3, e4] : timesOf w .step (P.act R EM ES EE op).calls ++ timesFrom (P.act R EM ES EE op).mhe.t0 EE.tStep (mheSteps ops).length =
          timesOf w .step P.calls ++ timesFrom P.mhe.t0 EE.tStep (mheSteps (op :: ops)).length)
    cases op with
    | mheStep S y0 =>
      by_cases ha : P.mhe.setup = true ∧ y0.length = d.ny
      · cases hup : P.mhe.data.update [("_y", .arr y0)] with
        | mk D e =>
        cases e with
        | some e =>
          exfalso
          obtain ⟨u, hu⟩ := hok (.error e) (by rw [hgrow]; simp [Prog.act, ha, hup])
          cases hu
        | none =>
          obtain ⟨f, hY⟩ := Option.isSome_iff_exists.1 hy
          have hclk : (P.act R EM ES EE (.mheStep S y0)).mhe.t0 = P.mhe.t0 + EE.tStep := by
            have hout : ∃ v, (P.act R EM ES EE (.mheStep S y0)).mhe = (stepE EE true v P.mhe ⟨S, y0⟩).1 ∧
                (P.act R EM ES EE (.mheStep S y0)).mheOut = P.mheOut ++ [(stepE EE true v P.mhe ⟨S, y0⟩).2] := by
              simp only [Prog.act, ha, and_self, if_true, hup, hY]
              exact ⟨_, rfl, rfl⟩
            obtain ⟨v, h1, h2⟩ := hout
            obtain ⟨u, hu⟩ := hok (stepE EE true v P.mhe ⟨S, y0⟩).2 (by rw [hgrow, h2]; simp)
            rw [h1]
            exact mhe_clock (EE.withValues true v) S P.mhe y0 u hu
          rw [hclk]
          simp only [mheSteps, List.length_cons, timesFrom_succ]
          have hc : (P.act R EM ES EE (.mheStep S y0)).calls = P.calls ++ [(.mheTvp, .step, P.mhe.t0), (.mheP, .step, P.mhe.t0), (.mheY, .step, P.mhe.t0)] := by
            simp only [Prog.act, ha, and_self, if_true, hup, hY]
          rw [hc]
          rcases hw with rfl | rfl | rfl <;> simp [timesOf]
      · exfalso
        obtain ⟨u, hu⟩ := hok (.error "AssertionError") (by rw [hgrow]; simp [Prog.act, ha])
        cases hu
    | simInit root => exact other (by simp [Prog.act, timesOf]) rfl rfl
    | mpcStep S x0 =>
      refine other ?_ ?_ rfl
      · simp only [Prog.act]; split
        · simp [timesOf, hnot.1.symm, hnot.2.1.symm]
        · rfl
      · simp only [Prog.act]; split <;> rfl
    | simStep c =>
      refine other ?_ ?_ rfl
      · simp only [Prog.act]; split
        · simp [timesOf, hnot.2.2.1.symm, hnot.2.2.2.symm]
        · rfl
      · simp only [Prog.act]; split <;> rfl
    | edit e => exact other rfl rfl rfl
    | setMpcTvp f => exact other (by simp [Prog.act, timesOf]) rfl rfl
    | setMpcP f => exact other (by simp [Prog.act, timesOf]) rfl rfl
    | setSimTvp f => exact other (by simp [Prog.act, timesOf]) rfl rfl
    | setSimP f => exact other (by simp [Prog.act, timesOf]) rfl rfl
    | setMheTvp f => exact other (by simp [Prog.act, timesOf]) rfl rfl
    | setMheP f => exact other (by simp [Prog.act, timesOf]) rfl rfl
    | setMheY f => exact other (by simp [Prog.act, timesOf]) rfl rfl

/-! ## what the documented random walk does -/

namespace CallbackEx
/-- one state that is driven by a parameter -/
def dd : Dims := ⟨1, 0, 0, 0, 1, 0, 0, 1, 0⟩
def sim : SimEnv ℚ dd where
  model := ⟨fun x _ _ _ p _ => fun i => x i + p i, fun _ _ _ _ _ _ i => i.elim0, fun x _ _ _ _ _ => x, fun _ _ _ _ _ i => i.elim0⟩
  plant := .discrete fun z _ _ _ _ _ => z
  tStep := 1
  tvpFun := fun _ i => i.elim0
  pFun := fun _ _ => 0
def mpc : MpcEnv ℚ dd where
  model := sim.model
  cfg := { N := 1, nRobust := 0, c := 1, ifcn := discreteIfcn sim.model (fun _ => 1) (fun i => i.elim0) (fun i => i.elim0) 1
           sx := fun _ => 1, su := fun _ => 1, sz := fun _ => 1
           xlb := fun _ => .ninf, xub := fun _ => .pinf, ulb := fun _ => .ninf, uub := fun _ => .pinf
           zlb := fun _ => .ninf, zub := fun _ => .pinf, xtlb := fun _ => .ninf, xtub := fun _ => .pinf
           nl := [], lterm := fun _ _ _ _ _ => 0, mterm := fun _ _ _ => 0, rterm := .factor fun _ => 0 }
  tStep := 1
  tvpFun := fun _ _ i => i.elim0
  pFun := fun _ _ _ => 0
  nOptX := 0
  nOptP := 0
  nOptAux := 0
  nLagr := 0
  flatX := fun _ i => i.elim0
  flatP := fun _ i => i.elim0
  flatAux := fun _ _ i => i.elim0
def mhe : MheEnv ℚ dd 0 1 where
  cfg := { N := 1, model := sim.model, ifcn := ⟨0, fun _ _ _ _ _ _ _ => [], fun x _ _ _ _ _ _ => x⟩
           sel := fun _ => .inr 0, sx := fun _ => 1, su := Fin.elim0, sz := Fin.elim0, sp := Fin.elim0
           xlb := fun _ => .ninf, xub := fun _ => .pinf, ulb := fun _ => .ninf, uub := fun _ => .pinf
           zlb := fun _ => .ninf, zub := fun _ => .pinf, plb := fun _ => .ninf, pub := fun _ => .pinf
           nl := [], stage := fun _ _ _ _ => 0, arrival := fun _ _ _ _ _ => 0 }
  tStep := 1
  tvpFun := fun _ _ => Fin.elim0
  pFun := fun _ _ => 0
  nOptX := 0
  nOptP := 0
  nOptAux := 0
  nLagr := 0
  flatX := fun _ i => i.elim0
  flatP := fun _ i => i.elim0
  flatAux := fun _ _ => Fin.elim0

/-- The world has one parameter structure, which holds a number. -/
def vals : Contents ℚ dd 1 Nat Unit where
  tvp := fun _ _ _ i => i.elim0
  p := fun w _ _ _ => w
  simTvp := fun _ _ i => i.elim0
  simP := fun w _ _ => w
  pSet := fun w _ _ => w
  y := fun w _ _ _ => w

/-- `p_template['Theta'] += …; return p_template` (`simulator.py:463-470`) -/
def walk : UserFun ℚ Nat Unit := fun _ w => ((), w + 1)
def still : UserFun ℚ Nat Unit := fun _ w => ((), w)

def start : Prog ℚ dd 0 1 Nat Unit :=
  { world := 0, mpcTvp := still, mpcP := still, simTvp := still, simP := still, mheTvp := still, mheP := still, mheY := none
    mpc := mpc.fresh 0 (fun _ => 0) (fun i => i.elim0) (fun i => i.elim0), sim := SimSt.fresh (fun _ => 0) (fun i => i.elim0)
    mhe := mhe.fresh 0 (fun _ => 0) (fun i => i.elim0) (fun i => i.elim0) (fun i => i.elim0) }

def ops : List (UserOp ℚ dd 0 1 mpc.nLagr mhe.nLagr Nat Unit) :=
  [.setSimP walk, .simStep { u := none }, .edit (· + 10), .simStep { u := none }, .simStep { u := none }]

-- the log: the walk goes on in steps of one, the user adds ten in between; the state is the sum of the logged parameters
example : let Q := start.run vals mpc sim mhe ops
    Q.sim.data.rows "_p" = [[3], [14], [15]] ∧ Q.sim.data.rows "_x" = [[0], [3], [17]] ∧ List.ofFn Q.sim.x0 = [32] ∧ Q.simOut.length = 3 := by
  refine ⟨?_, ?_, ?_, ?_⟩ <;> decide +kernel

example : ∀ o ∈ (start.run vals mpc sim mhe ops).simOut, ∃ y, o = .ok y := by
  have h : (start.run vals mpc sim mhe ops).simOut.all (fun o => match o with | .ok _ => true | .error _ => false) = true := by decide +kernel
  intro o ho
  have := List.all_eq_true.1 h o ho
  cases o with
  | ok y => exact ⟨y, rfl⟩
  | error e => simp at this
end CallbackEx

/-- **C107**: the documented random walk does not start at the values given in the template: registering it makes two steps of the walk, so the first step of the
simulator sees the third value (`set_p_fun` calls it twice). -/
theorem C107_fails_first_value : let Q := CallbackEx.start.run CallbackEx.vals CallbackEx.mpc CallbackEx.sim CallbackEx.mhe [.setSimP CallbackEx.walk, .simStep { u := none }]
    Q.sim.data.rows "_p" = [[3]] := by decide +kernel

/-- **C107**: with such a function, `init_algebraic_variables` solves the algebraic equations for other parameter values than those of the step that follows, at the same
time. -/
theorem C107_fails_init : let Q := CallbackEx.start.run CallbackEx.vals CallbackEx.mpc CallbackEx.sim CallbackEx.mhe [.setSimP CallbackEx.walk, .simInit (fun _ _ _ _ _ i => i.elim0), .simStep { u := none }]
    timesOf .simP .init Q.calls = [0] ∧ timesOf .simP .step Q.calls = [0] ∧ Q.sim.data.rows "_p" = [[4]] := by
  refine ⟨?_, ?_, ?_⟩ <;> decide +kernel

end DoMpc
