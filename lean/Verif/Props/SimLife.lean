import Verif.Model.SimLife
import Verif.Props.Simulator
import Mathlib.Algebra.Field.Rat
import Mathlib.Algebra.Order.Ring.Unbundled.Rat

/-! # Properties C84, C85: configuration of the simulator, initial algebraic states -/
set_option linter.unusedSectionVars false
namespace DoMpc
variable {K : Type} [Field K] [LinearOrder K] {d : Dims}

/-! ## C84 -/

/-- calls that change the configuration -/
def SimOp.configures : SimOp K d → Prop
  | .settings _ | .setTvpFun _ _ | .setPFun _ _ | .setup => True
  | _ => False

/-- The integrator that is built for the time step `dt` moves the state along `flow` over the time `dt` (`flow t x z u tv p w`: state and algebraic state
reached after the time `t`). -/
def SimTools.Exact (T : SimTools K d)
    (flow : K → Vec K d.nx → Vec K d.nz → Vec K d.nu → Vec K d.ntv → Vec K d.np → Vec K d.nw → Vec K d.nx × Vec K d.nz) : Prop :=
  ∀ dt, T.build dt = .continuous (flow dt)

/-- **C84** (`setup`): `setup()` succeeds iff the time step was given and the functions that the model needs were given; then the simulator is set up. -/
theorem C84_setup_succeeds_iff (T : SimTools K d) (o : SimObj K d) :
    ((o.exec T .setup).2 = none ↔ o.tStep.isSome ∧ (0 < d.ntv → o.tvpFun.isSome) ∧ (0 < d.np → o.pFun.isSome)) ∧
    ((o.exec T .setup).2 = none → (o.exec T .setup).1.st.setup = true) ∧ ((o.exec T .setup).2 ≠ none → (o.exec T .setup).1.st = o.st) := by
  simp only [SimObj.exec, SimObj.doSetup]
  cases h1 : o.tvpFun <;> cases h2 : o.pFun <;> cases h3 : o.tStep <;> by_cases h4 : 0 < d.ntv <;> by_cases h5 : 0 < d.np <;> simp [h4, h5]

/-- **C84** (frozen): after `setup` `set_param` is refused, and no call except an assignment to `settings`, `set_tvp_fun`, `set_p_fun` and `setup` changes
the integrator, the time step or the functions. -/
theorem C84_frozen (T : SimTools K d) (ops : List (SimOp K d)) : ∀ o : SimObj K d, o.st.setup = true → (∀ op ∈ ops, ¬ op.configures) →
    (∀ t, (o.run T ops).exec T (.setParam t) = (o.run T ops, some "AssertionError")) ∧ (o.run T ops).st.setup = true ∧
    (o.run T ops).plant = o.plant ∧ (o.run T ops).tStep = o.tStep ∧ (o.run T ops).tvpFun = o.tvpFun ∧ (o.run T ops).pFun = o.pFun := by
  induction ops with
  | nil => intro o h _; exact ⟨fun t => by simp [SimObj.run, SimObj.exec, h], h, rfl, rfl, rfl, rfl⟩
  | cons op ops ih =>
    intro o h hops
    have hop := hops op (by simp)
    have key : (o.exec T op).1.st.setup = true ∧ (o.exec T op).1.plant = o.plant ∧ (o.exec T op).1.tStep = o.tStep ∧
        (o.exec T op).1.tvpFun = o.tvpFun ∧ (o.exec T op).1.pFun = o.pFun := by
      cases op with
      | settings t => exact (hop trivial).elim
      | setTvpFun f v => exact (hop trivial).elim
      | setPFun f v => exact (hop trivial).elim
      | setup => exact (hop trivial).elim
      | setParam t => simp [SimObj.exec, h]
      | x0 x => exact ⟨h, rfl, rfl, rfl, rfl⟩
      | u0 x => exact ⟨h, rfl, rfl, rfl, rfl⟩
      | z0 x => exact ⟨h, rfl, rfl, rfl, rfl⟩
      | t0 x => exact ⟨h, rfl, rfl, rfl, rfl⟩
      | setInitialGuess => simp [SimObj.exec, SimObj.guess, h]
      | initAlgebraic =>
        simp only [SimObj.exec]
        split
        · simp [SimObj.guess, h]
        · exact ⟨h, rfl, rfl, rfl, rfl⟩
      | resetHistory => exact ⟨h, rfl, rfl, rfl, rfl⟩
      | makeStep c =>
        simp only [SimObj.exec]
        split
        · rename_i P dt tf pf e1 e2 e3 e4
          have hs : (SimEnv.makeStep ⟨T.model, P, dt, tf, pf⟩ o.st c).1.setup = true := by
            unfold SimEnv.makeStep
            split
            · exact h
            · split
              · exact h
              · split
                · dsimp only
                  generalize Data.update _ _ = r
                  rcases r with ⟨D, _ | e⟩ <;> exact h
                · exact h
          split <;> rename_i s e he <;> (rw [he] at hs; exact ⟨hs, rfl, rfl, rfl, rfl⟩)
        · exact ⟨h, rfl, rfl, rfl, rfl⟩
    obtain ⟨k1, k2, k3, k4, k5⟩ := key
    obtain ⟨b0, b1, b2, b3, b4, b5⟩ := ih _ k1 fun p hp => hops p (by simp [hp])
    exact ⟨b0, b1, b2.trans k2, b3.trans k3, b4.trans k4, b5.trans k5⟩

/-- the set-up object as an environment for `make_step` -/
theorem exec_makeStep (T : SimTools K d) (o : SimObj K d) (P : Plant K d) (dt : K) (tf : K → Vec K d.ntv) (pf : K → Vec K d.np)
    (hP : o.plant = some P) (hd : o.tStep = some dt) (ht : o.tvpFun = some tf) (hp : o.pFun = some pf) (c : SimCall K) :
    (o.exec T (.makeStep c)).1 = { o with st := (SimEnv.makeStep ⟨T.model, P, dt, tf, pf⟩ o.st c).1 } ∧
    ((o.exec T (.makeStep c)).2 = none ↔ ∃ y, (SimEnv.makeStep ⟨T.model, P, dt, tf, pf⟩ o.st c).2 = .ok y) := by
  simp only [SimObj.exec, hP, hd, ht, hp]
  split <;> rename_i s e he <;> simp [he]

/-- **C84** (log): once `setup` has succeeded and as long as the configuration is not changed afterwards, the time between two consecutive rows of the log is
the time over which the plant was simulated, for every number of steps, all inputs and noises: the state of a row is reached from the state of the row
before, under the input, parameters and noise of that row, after the difference of the two logged times. -/
theorem C84_log_partial (T : SimTools K d)
    (flow : K → Vec K d.nx → Vec K d.nz → Vec K d.nu → Vec K d.ntv → Vec K d.np → Vec K d.nw → Vec K d.nx × Vec K d.nz) (hT : T.Exact flow)
    (o : SimObj K d) (hset : (o.exec T .setup).2 = none) (ops : List (SimOp K d)) (hops : ∀ op ∈ ops, ¬ op.configures)
    (calls : List (SimCall K)) :
    let o1 := ((o.exec T .setup).1).run T ops
    let o2 := o1.run T (calls.map .makeStep)
    (∀ i, i < calls.length → ((o1.run T ((calls.take i).map .makeStep)).exec T (.makeStep (calls[i]?.getD ⟨none, none, none⟩))).2 = none) →
    ∃ (x : Nat → Vec K d.nx) (z : Nat → Vec K d.nz) (t : Nat → K) (tf : K → Vec K d.ntv) (pf : K → Vec K d.np),
      (∀ f, o.tvpFun = some f → tf = f) ∧ (∀ f, o.pFun = some f → pf = f) ∧
      o2.st.data.rows "_x" = o1.st.data.rows "_x" ++ (List.range calls.length).map (fun i => List.ofFn (x i)) ∧
      o2.st.data.rows "_z" = o1.st.data.rows "_z" ++ (List.range calls.length).map (fun i => List.ofFn (z i)) ∧
      o2.st.data.rows "_time" = o1.st.data.rows "_time" ++ (List.range calls.length).map (fun i => [t i]) ∧
      o2.st.data.rows "_u" = o1.st.data.rows "_u" ++ calls.map (fun c => List.ofFn (Spec.argument d.nu c.u)) ∧
      x 0 = o1.st.x0 ∧ t 0 = o1.st.t0 ∧ o2.st.x0 = x calls.length ∧ o2.st.t0 = t calls.length ∧
      ∀ i, ∀ hi : i < calls.length, (x (i + 1), z (i + 1)) =
        flow (t (i + 1) - t i) (x i) (z i) (Spec.argument d.nu calls[i].u) (tf (t i)) (pf (t i)) (Spec.argument d.nw calls[i].w) := by
  intro o1 o2 hok
  -- what `setup` leaves
  obtain ⟨dt, hdt⟩ := Option.isSome_iff_exists.mp ((C84_setup_succeeds_iff T o).1.mp hset).1
  have hs : (o.exec T .setup).1 = ⟨o.tStep, some (o.tvpFun.getD fun _ => 0), some (o.pFun.getD fun _ => 0),
      some (T.build dt), { o.st with setup := true, simZ := 0, simAux := 0 }⟩ := by
    have h2 := hset
    simp only [SimObj.exec, SimObj.doSetup, hdt] at h2 ⊢
    split
    · rename_i h; simp [h] at h2
    · split
      · rename_i h h'; rw [if_neg h, if_pos h'] at h2; simp at h2
      · rfl
  obtain ⟨-, f1, f2, f3, f4, f5⟩ := C84_frozen T ops (o.exec T .setup).1 (by rw [hs]) hops
  rw [hs] at f2 f3 f4 f5
  dsimp only at f2 f3 f4 f5
  rw [← hs] at f2 f3 f4 f5
  set tf := o.tvpFun.getD fun _ => 0
  set pf := o.pFun.getD fun _ => 0
  let E : SimEnv K d := ⟨T.model, T.build dt, dt, tf, pf⟩
  -- the calls are those of the environment
  have hrun : ∀ (cs : List (SimCall K)) (o1 : SimObj K d), o1.plant = some (T.build dt) → o1.tStep = some dt → o1.tvpFun = some tf → o1.pFun = some pf →
      o1.run T (cs.map .makeStep) = { o1 with st := E.after o1.st cs } := by
    intro cs
    induction cs with
    | nil => intros; rfl
    | cons c cs ih =>
      intro o1 g1 g2 g3 g4
      have := (exec_makeStep T o1 _ dt tf pf g1 g2 g3 g4 c).1
      simp only [List.map_cons, SimObj.run]
      rw [this, ih ⟨o1.tStep, o1.tvpFun, o1.pFun, o1.plant, (E.makeStep o1.st c).1⟩ g1 g2 g3 g4]
      rfl
  have h2 : o2 = { o1 with st := E.after o1.st calls } := hrun calls o1 f2 (f3.trans hdt) f4 f5
  -- all calls succeed
  have hout : ∃ ys : List (Vec K d.ny), E.outputs o1.st calls = ys.map .ok := by
    have : ∀ (cs : List (SimCall K)) (o1 : SimObj K d), o1.plant = some (T.build dt) → o1.tStep = some dt → o1.tvpFun = some tf → o1.pFun = some pf →
        (∀ i, i < cs.length → ((o1.run T ((cs.take i).map .makeStep)).exec T (.makeStep (cs[i]?.getD ⟨none, none, none⟩))).2 = none) →
        ∃ ys : List (Vec K d.ny), E.outputs o1.st cs = ys.map .ok := by
      intro cs
      induction cs with
      | nil => intro _ _ _ _ _ _; exact ⟨[], rfl⟩
      | cons c cs ih =>
        intro o1 g1 g2 g3 g4 hk
        obtain ⟨e1, e2⟩ := exec_makeStep T o1 _ dt tf pf g1 g2 g3 g4 c
        obtain ⟨y, hy⟩ := e2.mp (by simpa [SimObj.run] using hk 0 (by simp))
        obtain ⟨ys, hys⟩ := ih (o1.exec T (.makeStep c)).1 (by rw [e1]; exact g1) (by rw [e1]; exact g2) (by rw [e1]; exact g3) (by rw [e1]; exact g4)
          (fun i hi => by simpa [SimObj.run] using hk (i + 1) (by simpa using hi))
        rw [e1] at hys
        exact ⟨y :: ys, by simp only [SimEnv.outputs, List.map_cons]; exact congrArg₂ _ hy hys⟩
    exact this calls o1 f2 (f3.trans hdt) f4 f5 hok
  obtain ⟨ys, hys⟩ := hout
  obtain ⟨c1, c2, c3, c4, -, -, -, c8, -, c10, -⟩ := C15_log E o1.st calls ys hys
  refine ⟨fun i => (Spec.plantAt E o1.st.t0 o1.st.x0 o1.st.simZ calls i).1, fun i => (Spec.plantAt E o1.st.t0 o1.st.x0 o1.st.simZ calls i).2,
    fun i => o1.st.t0 + i * dt, tf, pf, ?_, ?_, ?_, ?_, ?_, ?_, rfl, by simp, ?_, ?_, ?_⟩
  · intro f hf; simp [tf, hf]
  · intro f hf; simp [pf, hf]
  · rw [h2]; exact c1
  · rw [h2]; exact c2
  · rw [h2]; exact c4
  · rw [h2]; exact c3
  · rw [h2]; exact c8
  · rw [h2]; exact c10
  · intro i hi
    have e : o1.st.t0 + ((i + 1 : Nat) : K) * dt - (o1.st.t0 + (i : K) * dt) = dt := by push_cast; ring
    dsimp only
    rw [e, Prod.mk.eta]
    simp only [Spec.plantAt, List.getElem?_eq_getElem hi, Option.bind_some]
    simp only [SimEnv.simulate, E, hT dt]

namespace SimLifeEx
/-- one state, one input, one auxiliary expression -/
abbrev dd : Dims := ⟨1, 1, 0, 0, 0, 0, 0, 1, 1⟩
/-- `dx/dt = u`, measured state, auxiliary expression `x` -/
abbrev mm : DaeModel ℚ dd where
  rhs := fun _ u _ _ _ _ => u
  alg := fun _ _ _ _ _ _ => Fin.elim0
  meas := fun x _ _ _ _ _ => x
  aux := fun x _ _ _ _ => x
/-- the exact solution -/
abbrev flow (t : ℚ) (x : Vec ℚ 1) (z : Vec ℚ 0) (u : Vec ℚ 1) (_ : Vec ℚ 0) (_ : Vec ℚ 0) (_ : Vec ℚ 0) : Vec ℚ 1 × Vec ℚ 0 := (fun i => x i + t * u i, z)
abbrev T : SimTools ℚ dd := ⟨mm, fun dt => .continuous (flow dt), fun z _ _ _ _ => z⟩
end SimLifeEx

open SimLifeEx in
/-- Non-vacuity of C84: the integrator is exact, `setup` succeeds, and the steps are recorded. -/
example : T.Exact flow ∧ ((SimObj.new.run T [.settings 1]).exec T .setup).2 = none ∧
    (SimObj.new.run T [.settings 1, .setup, .makeStep ⟨some [1], none, none⟩, .makeStep ⟨some [2], none, none⟩]).st.data.rows "_x" = [[0], [1]] := by
  refine ⟨fun dt => rfl, ?_, ?_⟩ <;> decide +kernel

open SimLifeEx in
/-- **C84 fails for the settings**: `simulator.settings.t_step = 2` after `setup` is accepted; then the logged times advance by 2 while the plant is still
simulated over the time 1: the last two rows say that the state 1 at time 1 became 2 at time 3 under the input 1. -/
theorem C84_fails_settings :
    T.Exact flow ∧ ((SimObj.new.run T [.settings 1, .setup, .makeStep ⟨some [1], none, none⟩]).exec T (.settings 2)).2 = none ∧
    let o := SimObj.new.run T [.settings 1, .setup, .makeStep ⟨some [1], none, none⟩, .settings 2, .makeStep ⟨some [1], none, none⟩,
      .makeStep ⟨some [1], none, none⟩]
    o.st.data.rows "_time" = [[0], [1], [3]] ∧ o.st.data.rows "_x" = [[0], [1], [2]] ∧ o.st.data.rows "_u" = [[1], [1], [1]] ∧
    (flow (3 - 1) (fun _ => 1) Fin.elim0 (fun _ => 1) Fin.elim0 Fin.elim0 Fin.elim0).1 = fun _ => 3 := by
  refine ⟨fun dt => rfl, rfl, ?_, ?_, ?_, ?_⟩
  · decide +kernel
  · decide +kernel
  · decide +kernel
  · funext i; norm_num [flow]

open SimLifeEx in
/-- **C84 fails for a second `setup`**: calling `setup()` again (e.g. to make a new time step effective) is accepted, but the next step logs the auxiliary
expression as 0, although it is the state, which is 1 in that row. -/
theorem C84_fails_setup_again :
    (∀ x u z tv p, T.model.aux x u z tv p = x) ∧
    let o := SimObj.new.run T [.settings 1, .setup, .makeStep ⟨some [1], none, none⟩, .setup, .makeStep ⟨some [1], none, none⟩]
    o.st.data.rows "_x" = [[0], [1]] ∧ o.st.data.rows "_aux" = [[0], [0]] := by
  refine ⟨fun _ _ _ _ _ => rfl, ?_, ?_⟩ <;> decide +kernel

/-! ## C85 -/

/-- The optimisation in `init_algebraic_variables` does its job: a solution of the algebraic equations is returned if there is one. -/
def SimTools.FindsAlgebraic (T : SimTools K d) : Prop :=
  ∀ z x u tv p, (∃ z', T.model.alg x u z' tv p 0 = 0) → T.model.alg x u (T.init z x u tv p) tv p 0 = 0

/-- **C85**: after a successful `setup`, for all initial values, `init_algebraic_variables()` succeeds; `z0` then solves the algebraic equations for the
current `x0`, `u0`, time and parameters if they have a solution; and the row that the next `make_step(u0)` logs (after `reset_history` or as the first step) holds
exactly these values with the auxiliary expressions that belong to them. -/
theorem C85_consistent_start (T : SimTools K d) (hT : T.FindsAlgebraic) (o : SimObj K d) (P : Plant K d) (dt : K) (tf : K → Vec K d.ntv) (pf : K → Vec K d.np)
    (hs : o.st.setup = true) (hP : o.plant = some P) (hd : o.tStep = some dt) (ht : o.tvpFun = some tf) (hp : o.pFun = some pf)
    (hsol : ∃ z, T.model.alg o.st.x0 o.st.u0 z (tf o.st.t0) (pf o.st.t0) 0 = 0) (hfirst : o.st.firstStep = true) (hD : o.st.data.fields = simFields d) :
    let o1 := (o.exec T .initAlgebraic).1
    let o2 := (o1.exec T (.makeStep ⟨some (List.ofFn o.st.u0), none, none⟩)).1
    (o.exec T .initAlgebraic).2 = none ∧ T.model.alg o.st.x0 o.st.u0 o1.st.z0 (tf o.st.t0) (pf o.st.t0) 0 = 0 ∧
    (o1.exec T (.makeStep ⟨some (List.ofFn o.st.u0), none, none⟩)).2 = none ∧
    (∀ kv ∈ [("_x", List.ofFn o.st.x0), ("_u", List.ofFn o.st.u0), ("_z", List.ofFn o1.st.z0), ("_tvp", List.ofFn (tf o.st.t0)), ("_p", List.ofFn (pf o.st.t0)),
        ("_time", [o.st.t0]), ("_aux", List.ofFn (T.model.aux o.st.x0 o.st.u0 o1.st.z0 (tf o.st.t0) (pf o.st.t0)))],
      o2.st.data.rows kv.1 = o.st.data.rows kv.1 ++ [kv.2]) := by
  intro o1 o2
  have he : o.exec T .initAlgebraic = (⟨o.tStep, o.tvpFun, o.pFun, o.plant, { o.st with z0 := T.init o.st.z0 o.st.x0 o.st.u0 (tf o.st.t0) (pf o.st.t0), simZ := T.init o.st.z0 o.st.x0 o.st.u0 (tf o.st.t0) (pf o.st.t0) }⟩, none) := by
    simp [SimObj.exec, ht, hp, SimObj.guess, hs]
  have h1 : o1 = ⟨o.tStep, o.tvpFun, o.pFun, o.plant, { o.st with z0 := T.init o.st.z0 o.st.x0 o.st.u0 (tf o.st.t0) (pf o.st.t0), simZ := T.init o.st.z0 o.st.x0 o.st.u0 (tf o.st.t0) (pf o.st.t0) }⟩ := by simp only [o1, he]
  set z := T.init o.st.z0 o.st.x0 o.st.u0 (tf o.st.t0) (pf o.st.t0)
  obtain ⟨e1, e2⟩ := exec_makeStep T o1 P dt tf pf (by rw [h1]; exact hP) (by rw [h1]; exact hd) (by rw [h1]; exact ht) (by rw [h1]; exact hp)
    ⟨some (List.ofFn o.st.u0), none, none⟩
  obtain ⟨y, hy⟩ := (C15_succeeds_iff ⟨T.model, P, dt, tf, pf⟩ o1.st (by rw [h1]; exact hD) ⟨some (List.ofFn o.st.u0), none, none⟩).1
    ⟨by rw [h1]; exact hs, by simp, by simp, by simp⟩
  obtain ⟨-, -, hup, hst⟩ := simStep_ok _ _ _ _ hy
  have hz : o1.st.z0 = z ∧ o1.st.simZ = z ∧ o1.st.x0 = o.st.x0 ∧ o1.st.t0 = o.st.t0 ∧ o1.st.firstStep = true ∧ o1.st.data = o.st.data := by
    rw [h1]; exact ⟨rfl, rfl, rfl, rfl, hfirst, rfl⟩
  refine ⟨by rw [he], ?_, e2.mpr ⟨y, hy⟩, ?_⟩
  · rw [hz.1]; exact hT _ _ _ _ _ hsol
  · have ho2 : o2.st.data = (o1.st.data.update [("_x", PyVal.vec o1.st.x0), ("_u", .vec (Spec.argument d.nu (some (List.ofFn o.st.u0)))), ("_z", .vec o1.st.simZ),
        ("_tvp", .vec (tf o1.st.t0)), ("_p", .vec (pf o1.st.t0)), ("_y", .vec y),
        ("_aux", .vec (if o1.st.firstStep then T.model.aux o1.st.x0 (Spec.argument d.nu (some (List.ofFn o.st.u0))) o1.st.simZ (tf o1.st.t0) (pf o1.st.t0) else o1.st.simAux)),
        ("_time", .arr [o1.st.t0])]).1 := by
      show o2.st.data = _
      have : o2 = { o1 with st := _ } := e1
      rw [this]
      dsimp only
      rw [hst]
    have hrows := fun k => C17_update_appends _ _ hup k
    have hu : Spec.argument d.nu (some (List.ofFn o.st.u0)) = o.st.u0 := by
      funext i; simp [Spec.argument, List.getD_eq_getElem?_getD]
    obtain ⟨z1, z2, z3, z4, z5, z6⟩ := hz
    intro kv hkv
    rw [ho2, hrows kv.1, z6, hu, z2, z3, z4, z5]
    rw [z1] at hkv
    simp only [List.mem_cons, List.not_mem_nil, or_false] at hkv
    rcases hkv with rfl | rfl | rfl | rfl | rfl | rfl | rfl <;> simp [Spec.given, PyVal.vec]

/-- `init_algebraic_variables()` before `setup` (as in its documentation) is refused. -/
theorem C85_refused_before_setup (T : SimTools K d) (o : SimObj K d) (hs : o.st.setup = false) : (o.exec T .initAlgebraic).2 ≠ none := by
  simp only [SimObj.exec]
  split <;> simp [SimObj.guess, hs]

namespace SimAlgEx
/-- one state, one algebraic state, auxiliary expression `z` -/
abbrev dd : Dims := ⟨1, 0, 1, 0, 0, 0, 0, 1, 1⟩
/-- `0 = z - 2 x` -/
abbrev mm : DaeModel ℚ dd where
  rhs := fun _ _ z _ _ _ => z
  alg := fun x _ z _ _ _ => z - 2 * x
  meas := fun x _ _ _ _ _ => x
  aux := fun _ _ z _ _ => z
abbrev T : SimTools ℚ dd := ⟨mm, fun _ => .discrete fun _ x _ _ _ _ => 2 * x, fun _ x _ _ _ => 2 * x⟩
end SimAlgEx

open SimAlgEx in
/-- Non-vacuity of C85: from `x0 = 3` the first row has the algebraic state 6. -/
example : T.FindsAlgebraic ∧
    let o := SimObj.new.run T [.settings 1, .setup, .x0 fun _ => 3]
    o.st.setup = true ∧ o.st.firstStep = true ∧
    (o.run T [.initAlgebraic, .makeStep ⟨some [], none, none⟩]).st.data.rows "_z" = [[6]] ∧
    (o.run T [.initAlgebraic, .makeStep ⟨some [], none, none⟩]).st.data.rows "_aux" = [[6]] ∧
    (o.run T [.makeStep ⟨some [], none, none⟩]).st.data.rows "_z" = [[0]] := by
  refine ⟨fun z x u tv p _ => ?_, ?_, ?_, ?_, ?_, ?_⟩
  · simp [mm]
  all_goals decide +kernel

end DoMpc
