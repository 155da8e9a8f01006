import Verif.Props.Simulator

/-! # Property C16: closed loop of MPC, simulator and state feedback; counterexamples for C51 -/
set_option linter.unusedSectionVars false
namespace DoMpc
variable {K : Type} [Field K] [LinearOrder K] {d : Dims}

/-- `StateFeedback.make_step` (`/repo/do_mpc/estimator/_base.py:62-71`). -/
def stateFeedback (y : List K) : List K := y

/-- State of the user's loop: controller, simulator, current estimate. -/
structure Loop (K : Type) (d : Dims) where
  mpc : MpcSt K d
  sim : SimSt K d
  x : List K

/-- One iteration of the user's loop `u = mpc.make_step(x); y = simulator.make_step(u); x = estimator.make_step(y)`; `none` if one of
the calls raises.  `S` is what the solver does in this iteration. -/
def Loop.step (EM : MpcEnv K d) (ES : SimEnv K d) (S : SolverArgs K d → SolverResult K d EM.nLagr) (l : Loop K d) : Option (Loop K d) :=
  match EM.makeStep S l.mpc l.x with
  | (_, .error _) => none
  | (m', .ok u) =>
    match ES.makeStep l.sim { u := some (List.ofFn u) } with
    | (_, .error _) => none
    | (s', .ok y) => some { mpc := m', sim := s', x := stateFeedback (List.ofFn y) }

/-- A number of iterations, each with its own solver behaviour. -/
def Loop.iterate (EM : MpcEnv K d) (ES : SimEnv K d) : List (SolverArgs K d → SolverResult K d EM.nLagr) → Loop K d → Option (Loop K d)
  | [], l => some l
  | S :: Ss, l => (l.step EM ES S).bind (Loop.iterate EM ES Ss)

/-- the measurement of the model is its state (what `Model.setup` does if no measurement was configured, C30) -/
def StateMeasured (m : DaeModel K d) : Prop := ∀ x u z tv p, List.ofFn (m.meas x u z tv p 0) = List.ofFn x

theorem argument_none (n : Nat) : (Spec.argument n none : Vec K n) = 0 := by funext i; simp [Spec.argument]

theorem argument_ofFn {n : Nat} (v : Vec K n) : Spec.argument n (some (List.ofFn v)) = v := by
  funext i
  simp [Spec.argument, List.getD_eq_getElem?_getD]

/-- **C16**: with state feedback, equal time steps, and controller and simulator started with the same state and time and with logs that
agree in state, input and time, for every number of iterations and whatever the solver does, as long as no call raises: the two
logs agree row by row in state, input and time, both have one more row per iteration, and the controller's next measured state is
the plant's state. -/
theorem C16_closed_loop (EM : MpcEnv K d) (ES : SimEnv K d) (hst : ∀ s ∈ EM.storeStats, s ∈ validStats) (ht : EM.tStep = ES.tStep)
    (hm : StateMeasured ES.model) (Ss : List (SolverArgs K d → SolverResult K d EM.nLagr)) (l l' : Loop K d)
    (hx : l.x = List.ofFn l.sim.x0) (ht0 : l.mpc.t0 = l.sim.t0)
    (hlog : ∀ k ∈ ["_x", "_u", "_time"], l.mpc.data.rows k = l.sim.data.rows k)
    (hrun : Loop.iterate EM ES Ss l = some l') :
    (∀ k ∈ ["_x", "_u", "_time"], l'.mpc.data.rows k = l'.sim.data.rows k) ∧ l'.x = List.ofFn l'.sim.x0 ∧ l'.mpc.t0 = l'.sim.t0 ∧
    (∀ k ∈ ["_x", "_u", "_time"], (l'.mpc.data.rows k).length = (l.mpc.data.rows k).length + Ss.length) := by
  induction Ss generalizing l with
  | nil =>
    simp only [Loop.iterate, Option.some.injEq] at hrun
    subst hrun
    exact ⟨hlog, hx, ht0, fun _ _ => by simp⟩
  | cons S Ss ih =>
    simp only [Loop.iterate, Option.bind_eq_some_iff] at hrun
    obtain ⟨l1, h1, h2⟩ := hrun
    unfold Loop.step at h1
    split at h1
    · simp at h1
    · rename_i m' u hmpc
      split at h1
      · simp at h1
      · rename_i s' y hsim
        simp only [Option.some.injEq] at h1
        obtain ⟨hl, hset, hu, hup, hst'⟩ := makeStep_ok EM S l.mpc l.x u (by rw [hmpc])
        obtain ⟨hset2, hy, hup2, hst2'⟩ := simStep_ok ES l.sim _ y (by rw [hsim])
        rw [hmpc] at hst'
        rw [hsim] at hst2'
        simp only at hst' hst2'
        have hr1 := fun k => C17_update_appends _ _ hup k
        have hr2 := fun k => C17_update_appends _ _ hup2 k
        obtain ⟨g1, g2, -, -, -, g6, -⟩ := record_given EM hst l.mpc.t0 (fun i => l.x.get (i.cast hl.symm)) _
          (S { x0 := l.mpc.optX, p := ⟨_, EM.tvpFun l.mpc.t0, EM.pFun l.mpc.t0, l.mpc.u0⟩,
               lam := if l.mpc.initialRun then some (l.mpc.lamG, l.mpc.lamX) else none })
        have hx0 : List.ofFn (fun i : Fin d.nx => l.x.get (i.cast hl.symm)) = l.x := by
          apply List.ext_getElem
          · simp [hl]
          · intro i h1 h2; simp
        have hd := congrArg MpcSt.data hst'
        have hd2 := congrArg SimSt.data hst2'
        dsimp only at hd hd2
        simp only [List.mem_cons, List.not_mem_nil, or_false, forall_eq_or_imp, forall_eq] at hlog
        obtain ⟨lx, lu, lt⟩ := hlog
        have rx : m'.data.rows "_x" = l.mpc.data.rows "_x" ++ [l.x] := by rw [hd, hr1, g1, hx0]
        have ru : m'.data.rows "_u" = l.mpc.data.rows "_u" ++ [List.ofFn u] := by rw [hd, hr1, g2, hu]
        have rt : m'.data.rows "_time" = l.mpc.data.rows "_time" ++ [[l.mpc.t0]] := by rw [hd, hr1, g6]
        have sx : s'.data.rows "_x" = l.sim.data.rows "_x" ++ [l.x] := by
          rw [hd2, hr2, hx]; simp [Spec.given, PyVal.vec]
        have su : s'.data.rows "_u" = l.sim.data.rows "_u" ++ [List.ofFn u] := by
          rw [hd2, hr2]; simp [Spec.given, PyVal.vec, argument_ofFn]
        have stt : s'.data.rows "_time" = l.sim.data.rows "_time" ++ [[l.mpc.t0]] := by
          rw [hd2, hr2, ht0]; simp [Spec.given, PyVal.vec]
        subst h1
        obtain ⟨i1, i2, i3, i4⟩ := ih ⟨m', s', stateFeedback (List.ofFn y)⟩
          (by
            simp only [stateFeedback]
            rw [hy, hst2']
            simp only [argument_none]
            exact hm _ _ _ _ _)
          (by simp only; rw [hst', hst2']; simp only; rw [ht0, ht])
          (by
            simp only [List.mem_cons, List.not_mem_nil, or_false, forall_eq_or_imp, forall_eq]
            exact ⟨by rw [rx, sx, lx], by rw [ru, su, lu], by rw [rt, stt, lt]⟩)
          h2
        refine ⟨i1, i2, i3, ?_⟩
        intro k hk
        rw [i4 k hk]
        simp only [List.mem_cons, List.not_mem_nil, or_false] at hk
        rcases hk with rfl | rfl | rfl
        · rw [rx]; simp; omega
        · rw [ru]; simp; omega
        · rw [rt]; simp; omega

/-- dimensions with a state measurement and one auxiliary expression -/
def clDims : Dims := { nx := 1, nu := 1, nz := 0, ntv := 0, np := 0, ny := 1, naux := 1 }
/-- `x⁺ = x + u`, measured state, auxiliary expression `u` -/
def clModel : DaeModel ℚ clDims where
  rhs := fun x u _ _ _ _ => fun i => x i + u i
  alg := fun _ _ z _ _ _ => z
  meas := fun x _ _ _ _ _ => x
  aux := fun _ u _ _ _ => u
def clSim : SimEnv ℚ clDims where
  model := clModel
  plant := .discrete fun z _ _ _ _ _ => z
  tStep := 1
  tvpFun := fun _ i => i.elim0
  pFun := fun _ i => i.elim0

/-- **C51 fails**: the auxiliary expression "input" logged in the second row is the input of the first row. -/
theorem C51_fails_aux_of_previous_input :
    let st := clSim.after (SimSt.fresh (fun _ => 0) (fun i => i.elim0)) [{ u := some [3] }, { u := some [5] }]
    st.data.rows "_u" = [[3], [5]] ∧ st.data.rows "_aux" = [[3], [3]] := by
  constructor <;> decide +kernel

/-- discrete model with an algebraic state `z = u` and an exact root finder -/
def daeDims : Dims := { nx := 1, nu := 1, nz := 1, ntv := 0, np := 0, ny := 0, naux := 0 }
def daeModel : DaeModel ℚ daeDims where
  rhs := fun x _ z _ _ _ => fun i => x i + z i
  alg := fun _ u z _ _ _ => fun i => z i - u i
  meas := fun _ _ _ _ _ _ i => i.elim0
  aux := fun _ _ _ _ _ i => i.elim0
def daeSim : SimEnv ℚ daeDims where
  model := daeModel
  plant := .discrete fun _ _ u _ _ _ => u
  tStep := 1
  tvpFun := fun _ i => i.elim0
  pFun := fun _ i => i.elim0

/-- **C51 fails** for algebraic states: the root finder is exact (`z = u`), yet no row of the log satisfies the algebraic equation:
row `i` holds the algebraic state of step `i-1`. -/
theorem C51_fails_algebraic_state :
    (∀ z x u tv p w, daeModel.alg x u ((daeSim.simulate x z u tv p w).2) tv p w = 0) ∧
    let st := daeSim.after (SimSt.fresh (fun _ => 0) (fun _ => 0)) [{ u := some [3] }, { u := some [5] }]
    st.data.rows "_u" = [[3], [5]] ∧ st.data.rows "_z" = [[0], [3]] := by
  refine ⟨?_, ?_⟩
  · intro z x u tv p w; funext i
    simp [daeModel, daeSim, SimEnv.simulate, daeDims]
  · constructor <;> decide +kernel

/-- **C51** (partial): if the auxiliary expressions depend on the states only, every logged row is consistent. -/
theorem C51_logged_aux_partial (E : SimEnv K d) (f : Vec K d.nx → Vec K d.naux) (hax : ∀ x u z tv p, E.model.aux x u z tv p = f x)
    (st : SimSt K d) (hf : st.firstStep = true) (calls : List (SimCall K)) (ys : List (Vec K d.ny)) (hok : E.outputs st calls = ys.map .ok) :
    (E.after st calls).data.rows "_aux" = st.data.rows "_aux" ++ (List.range calls.length).map fun i =>
      List.ofFn (f (Spec.plantAt E st.t0 st.x0 st.simZ calls i).1) := by
  rw [C51_logged_aux_exact E st hf calls ys hok]
  congr 1
  apply List.map_congr_left
  intro i _
  cases i with
  | zero => simp [hax, Spec.plantAt]
  | succ i => simp [hax]

/-- a controller for the example plant and a solver that proposes `u = -x/2` -/
def clMpc : MpcEnv ℚ clDims where
  model := clModel
  cfg := { N := 1, nRobust := 0, c := 1, ifcn := discreteIfcn clModel (fun _ => 1) (fun _ => 1) (fun _ => 1) 1
           sx := fun _ => 1, su := fun _ => 1, sz := fun _ => 1
           xlb := fun _ => .ninf, xub := fun _ => .pinf, ulb := fun _ => .ninf, uub := fun _ => .pinf
           zlb := fun _ => .ninf, zub := fun _ => .pinf, xtlb := fun _ => .ninf, xtub := fun _ => .pinf
           nl := [], lterm := fun _ _ _ _ _ => 0, mterm := fun _ _ _ => 0, rterm := .factor fun _ => 0 }
  tStep := 1
  tvpFun := fun _ _ i => i.elim0
  pFun := fun _ _ i => i.elim0
  nOptX := 0
  nOptP := 0
  nOptAux := 0
  nLagr := 0
  flatX := fun _ i => i.elim0
  flatP := fun _ i => i.elim0
  flatAux := fun _ _ i => i.elim0
def clSolver (a : SolverArgs ℚ clDims) : SolverResult ℚ clDims 0 where
  x := { x := fun _ _ _ => a.p.x0, z := fun _ _ _ i => i.elim0, u := fun _ _ => fun i => - a.p.x0 i / 2, eps := fun _ _ _ _ => 0 }
  lamG := fun i => i.elim0
  lamX := []
  stats := []

/-- Non-vacuity of C16: three iterations of the example loop succeed, with non-trivial states. -/
example : ((Loop.iterate clMpc clSim [clSolver, clSolver, clSolver]
    ⟨clMpc.fresh 0 (fun _ => 8) (fun _ => 0) (fun i => i.elim0), SimSt.fresh (fun _ => 8) (fun i => i.elim0), [8]⟩).map
      fun l => (l.mpc.data.rows "_x", l.sim.data.rows "_u", l.x)) =
    some ([[8], [4], [2]], [[-4], [-2], [-1]], [1]) := by decide +kernel

/-- Non-vacuity of C15. -/
example : ((clSim.outputs (SimSt.fresh (fun _ => 0) (fun i => i.elim0)) [{ u := some [3] }, { u := some [5] }]).map
    fun r => r.toOption.map fun y => List.ofFn y) = [some [3], some [8]] := by decide +kernel

end DoMpc
