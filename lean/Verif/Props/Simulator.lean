import Verif.Model.Simulator
import Verif.Props.MpcRun2

/-! # Properties C15, C16, C18 (simulator), C51: simulator and closed loop -/
set_option linter.unusedSectionVars false
namespace DoMpc
variable {K : Type} [Field K] [LinearOrder K] {d : Dims}

/-- The simulator after a sequence of calls. -/
def SimEnv.after (E : SimEnv K d) (st : SimSt K d) (calls : List (SimCall K)) : SimSt K d :=
  calls.foldl (fun s c => (E.makeStep s c).1) st

/-- The results of the calls. -/
def SimEnv.outputs (E : SimEnv K d) (st : SimSt K d) : List (SimCall K) → List (Except String (Vec K d.ny))
  | [] => []
  | c :: cs => (E.makeStep st c).2 :: E.outputs (E.makeStep st c).1 cs

/-- An argument of the call as a vector; zeros if it was left out. -/
def Spec.argument (n : Nat) (a : Option (List K)) : Vec K n := fun i => (a.getD []).getD i 0

/-- The plant trajectory prescribed by the calls: `(x, z)` at step `i`. -/
def Spec.plantAt (E : SimEnv K d) (t0 : K) (x0 : Vec K d.nx) (z0 : Vec K d.nz) (calls : List (SimCall K)) : Nat → Vec K d.nx × Vec K d.nz
  | 0 => (x0, z0)
  | i + 1 =>
    let s := Spec.plantAt E t0 x0 z0 calls i
    let t := t0 + i * E.tStep
    E.simulate s.1 s.2 (Spec.argument d.nu (calls[i]?.bind (·.u))) (E.tvpFun t) (E.pFun t) (Spec.argument d.nw (calls[i]?.bind (·.w)))

theorem argVec_eq {n : Nat} {a : Option (List K)} {v : Vec K n} (h : argVec n a = some v) : v = Spec.argument n a := by
  unfold argVec at h
  cases a with
  | none => simp only [Option.some.injEq] at h; subst h; funext i; simp [Spec.argument]
  | some l =>
    simp only at h
    split at h
    · rename_i hl
      simp only [Option.some.injEq] at h
      subst h
      funext i
      have : (i : Nat) < l.length := by rw [hl]; exact i.2
      simp [Spec.argument, List.getD_eq_getElem?_getD, List.getElem?_eq_getElem this]
    · simp at h

theorem argInput_eq {n : Nat} {a : Option (List K)} {v : Vec K n} (h : argInput n a = some v) : v = Spec.argument n a := by
  unfold argInput at h
  cases a with
  | none =>
    simp only at h
    split at h
    · rename_i hn; subst hn; funext i; exact i.elim0
    · simp at h
  | some l => exact argVec_eq h

/-- What a successful step does. -/
theorem simStep_ok (E : SimEnv K d) (st : SimSt K d) (c : SimCall K) (y : Vec K d.ny) (h : (E.makeStep st c).2 = .ok y) :
    let u := Spec.argument d.nu c.u
    let w := Spec.argument d.nw c.w
    let v := Spec.argument d.nv c.v
    let tv := E.tvpFun st.t0
    let p := E.pFun st.t0
    let r := E.simulate st.x0 st.simZ u tv p w
    let kw : List (String × PyVal K) := [("_x", .vec st.x0), ("_u", .vec u), ("_z", .vec st.simZ), ("_tvp", .vec tv), ("_p", .vec p),
        ("_y", .vec y), ("_aux", .vec (if st.firstStep then E.model.aux st.x0 u st.simZ tv p else st.simAux)), ("_time", .arr [st.t0])]
    st.setup = true ∧ y = E.model.meas r.1 u r.2 tv p v ∧ (st.data.update kw).2 = none ∧
    (E.makeStep st c).1 = { setup := true, t0 := st.t0 + E.tStep, x0 := r.1, u0 := u, z0 := st.simZ, simZ := r.2,
                            simAux := E.model.aux r.1 u r.2 tv p, firstStep := false, data := (st.data.update kw).1 } := by
  unfold SimEnv.makeStep at h ⊢
  split at h
  · simp at h
  · rename_i u hu
    by_cases hs : st.setup
    · simp only [hs, Bool.not_true, Bool.false_eq_true, if_false] at h ⊢
      split at h
      · rename_i w v hw hv
        rw [argInput_eq hu, argVec_eq hw, argVec_eq hv] at h
        rw [argInput_eq hu, argVec_eq hw, argVec_eq hv]
        split at h
        · simp at h
        · rename_i D heq
          simp only [Except.ok.injEq] at h
          subst h
          rw [heq]
          exact ⟨trivial, rfl, rfl, rfl⟩
      · simp at h
    · simp only [hs, Bool.not_false, if_true] at h; simp at h

theorem plantAt_succ (E : SimEnv K d) (t0 : K) (x0 : Vec K d.nx) (z0 : Vec K d.nz) (c : SimCall K) (cs : List (SimCall K)) (i : Nat) :
    Spec.plantAt E t0 x0 z0 (c :: cs) (i + 1) =
      Spec.plantAt E (t0 + E.tStep)
        (E.simulate x0 z0 (Spec.argument d.nu c.u) (E.tvpFun t0) (E.pFun t0) (Spec.argument d.nw c.w)).1
        (E.simulate x0 z0 (Spec.argument d.nu c.u) (E.tvpFun t0) (E.pFun t0) (Spec.argument d.nw c.w)).2 cs i := by
  induction i with
  | zero => simp [Spec.plantAt]
  | succ i ih =>
    rw [Spec.plantAt, ih, Spec.plantAt]
    simp only [List.getElem?_cons_succ]
    have : t0 + ((i + 1 : Nat) : K) * E.tStep = t0 + E.tStep + (i : K) * E.tStep := by push_cast; ring
    rw [this]

/-- **C15**: after any sequence of successful calls, from any state of the simulator, the log has grown by one row per call: the state
and algebraic state of the plant trajectory (each the integrator's result from the previous row with the input, disturbance,
time-varying parameter and parameter of that step), the input given, the time, the parameters, and the measurement, which is
also what was returned: the measurement function at the *new* state with the noise passed.  The simulator's `x0` is the final state. -/
theorem C15_log (E : SimEnv K d) (st : SimSt K d) (calls : List (SimCall K)) (ys : List (Vec K d.ny))
    (hok : E.outputs st calls = ys.map .ok) :
    let st' := E.after st calls
    let at' := Spec.plantAt E st.t0 st.x0 st.simZ calls
    let steps := List.range calls.length
    let time := fun i : Nat => st.t0 + i * E.tStep
    st'.data.rows "_x" = st.data.rows "_x" ++ steps.map (fun i => List.ofFn (at' i).1) ∧
    st'.data.rows "_z" = st.data.rows "_z" ++ steps.map (fun i => List.ofFn (at' i).2) ∧
    st'.data.rows "_u" = st.data.rows "_u" ++ calls.map (fun c => List.ofFn (Spec.argument d.nu c.u)) ∧
    st'.data.rows "_time" = st.data.rows "_time" ++ steps.map (fun i => [time i]) ∧
    st'.data.rows "_tvp" = st.data.rows "_tvp" ++ steps.map (fun i => List.ofFn (E.tvpFun (time i))) ∧
    st'.data.rows "_p" = st.data.rows "_p" ++ steps.map (fun i => List.ofFn (E.pFun (time i))) ∧
    st'.data.rows "_y" = st.data.rows "_y" ++ ys.map List.ofFn ∧
    st'.x0 = (at' calls.length).1 ∧ st'.simZ = (at' calls.length).2 ∧ st'.t0 = time calls.length ∧
    (∀ i (hi : i < calls.length), ys[i]? = some (E.model.meas (at' (i + 1)).1 (Spec.argument d.nu calls[i].u) (at' (i + 1)).2
      (E.tvpFun (time i)) (E.pFun (time i)) (Spec.argument d.nv calls[i].v))) := by
  induction calls generalizing st ys with
  | nil =>
    simp only [SimEnv.outputs] at hok
    have : ys = [] := by cases ys <;> simp_all
    subst this
    simp [SimEnv.after, Spec.plantAt]
  | cons c cs ih =>
    simp only [SimEnv.outputs] at hok
    cases ys with
    | nil => simp at hok
    | cons y ys =>
      simp only [List.map_cons, List.cons.injEq] at hok
      obtain ⟨h1, h2⟩ := hok
      obtain ⟨hset, hy, hup, hst'⟩ := simStep_ok E st c y h1
      have hrows := fun k => C17_update_appends _ _ hup k
      obtain ⟨i1, i2, i3, i4, i5, i6, i7, i8, i9, i10, i11⟩ := ih _ ys h2
      have haf : E.after st (c :: cs) = E.after (E.makeStep st c).1 cs := rfl
      have ht0 : (E.makeStep st c).1.t0 = st.t0 + E.tStep := by rw [hst']
      have hd := congrArg SimSt.data hst'
      have hx' := congrArg SimSt.x0 hst'
      have hz' := congrArg SimSt.simZ hst'
      dsimp only at hd hx' hz'
      have hpl : ∀ i, Spec.plantAt E (E.makeStep st c).1.t0 (E.makeStep st c).1.x0 (E.makeStep st c).1.simZ cs i =
          Spec.plantAt E st.t0 st.x0 st.simZ (c :: cs) (i + 1) := by
        intro i; rw [plantAt_succ, ht0, hx', hz']
      have htime : ∀ i : Nat, (E.makeStep st c).1.t0 + (i : K) * E.tStep = st.t0 + ((i + 1 : Nat) : K) * E.tStep := by
        intro i; rw [ht0]; push_cast; ring
      simp only [hpl, htime] at i1 i2 i4 i5 i6 i8 i9 i10 i11
      simp only [haf, List.length_cons, List.range_succ_eq_map, List.map_cons, List.map_map, Nat.cast_zero, zero_mul, add_zero]
      refine ⟨?_, ?_, ?_, ?_, ?_, ?_, ?_, i8, i9, i10, ?_⟩
      · rw [i1, hd, hrows]; simp [Spec.given, PyVal.vec, Spec.plantAt, Function.comp_def]
      · rw [i2, hd, hrows]; simp [Spec.given, PyVal.vec, Spec.plantAt, Function.comp_def]
      · rw [i3, hd, hrows]; simp [Spec.given, PyVal.vec]
      · rw [i4, hd, hrows]; simp [Spec.given, PyVal.vec, Function.comp_def]
      · rw [i5, hd, hrows]; simp [Spec.given, PyVal.vec, Function.comp_def]
      · rw [i6, hd, hrows]; simp [Spec.given, PyVal.vec, Function.comp_def]
      · rw [i7, hd, hrows]; simp [Spec.given, PyVal.vec]
      · intro i hi
        cases i with
        | zero =>
          simp only [List.getElem?_cons_zero, List.getElem_cons_zero, Nat.cast_zero, zero_mul, add_zero]
          rw [hy]
          simp [Spec.plantAt]
        | succ i =>
          have := i11 i (by omega)
          simpa using this

/-- **C15** errors: a call is refused, and changes nothing, iff the simulator is not set up or an argument has the wrong shape; otherwise
it succeeds. -/
theorem C15_succeeds_iff (E : SimEnv K d) (st : SimSt K d) (hD : st.data.fields = simFields d) (c : SimCall K) :
    let good := st.setup = true ∧ (match c.u with | none => d.nu = 0 | some l => l.length = d.nu) ∧
      (∀ l, c.w = some l → l.length = d.nw) ∧ (∀ l, c.v = some l → l.length = d.nv)
    (good → ∃ y, (E.makeStep st c).2 = .ok y) ∧ (¬ good → E.makeStep st c = (st, .error "AssertionError")) := by
  have hA : ∀ n (a : Option (List K)), (argVec n a).isSome ↔ ∀ l, a = some l → l.length = n := by
    intro n a
    unfold argVec
    cases a with
    | none => simp
    | some l => by_cases h : l.length = n <;> simp [h]
  have hI : ∀ n (a : Option (List K)), (argInput n a).isSome ↔ (match a with | none => n = 0 | some l => l.length = n) := by
    intro n a
    unfold argInput
    cases a with
    | none => by_cases h : n = 0 <;> simp [h]
    | some l => rw [hA]; simp
  constructor
  · rintro ⟨hs, hu, hw, hv⟩
    obtain ⟨u, hu⟩ := Option.isSome_iff_exists.mp ((hI _ _).mpr hu)
    obtain ⟨w, hw⟩ := Option.isSome_iff_exists.mp ((hA _ _).mpr hw)
    obtain ⟨v, hv⟩ := Option.isSome_iff_exists.mp ((hA _ _).mpr hv)
    unfold SimEnv.makeStep
    rw [hu]
    simp only [hs, Bool.not_true, Bool.false_eq_true, if_false]
    rw [hw, hv]
    simp only
    generalize hkw : ([("_x", PyVal.vec st.x0), _, _, _, _, _, _, _] : List (String × PyVal K)) = kw
    have : (st.data.update kw).2 = none := by
      rw [C17_update_ok_iff]
      subst hkw
      have hwd : ∀ k, st.data.width k = (simFields d).lookup k := fun k => by unfold Data.width; rw [hD]
      intro a ha
      simp only [List.mem_cons, List.not_mem_nil, or_false] at ha
      rcases ha with rfl | rfl | rfl | rfl | rfl | rfl | rfl | rfl <;>
        exact ⟨_, rfl, by rw [hwd]; simp [simFields, List.lookup]⟩
    cases hup : st.data.update kw with
    | mk D e => rw [hup] at this; simp only at this; subst this; exact ⟨_, rfl⟩
  · intro hbad
    unfold SimEnv.makeStep
    cases hu : argInput d.nu c.u with
    | none => rfl
    | some u =>
      simp only
      split
      · rfl
      · rename_i hs
        split
        · rename_i w v hw hv
          exfalso
          apply hbad
          refine ⟨by simpa using hs, ?_, ?_, ?_⟩
          · exact (hI _ _).mp (by rw [hu]; rfl)
          · exact (hA _ _).mp (by rw [hw]; rfl)
          · exact (hA _ _).mp (by rw [hv]; rfl)
        · rfl

/-- **C18** for the simulator: after `reset_history` the simulator behaves, for all calls and for ever, like a freshly set-up one whose
initial state is the current state and whose initial guess for the algebraic states is the current one: same outputs, same
log. -/
theorem C18_simulator_reset (E : SimEnv K d) (st : SimSt K d) (hset : st.setup = true) (hD : st.data.fields = simFields d)
    (calls : List (SimCall K)) :
    E.outputs st.resetHistory calls = E.outputs (SimSt.fresh st.x0 st.simZ) calls ∧
    (E.after st.resetHistory calls).data.Same (E.after (SimSt.fresh st.x0 st.simZ) calls).data := by
  have hsame : ∀ (s1 s2 : SimSt K d), (s1.setup = s2.setup ∧ s1.t0 = s2.t0 ∧ s1.x0 = s2.x0 ∧ s1.simZ = s2.simZ ∧
      s1.firstStep = s2.firstStep ∧ (s1.firstStep = false → s1.simAux = s2.simAux) ∧ s1.data.Same s2.data) → ∀ calls,
      E.outputs s1 calls = E.outputs s2 calls ∧ (E.after s1 calls).data.Same (E.after s2 calls).data := by
    intro s1 s2 h calls
    induction calls generalizing s1 s2 with
    | nil => exact ⟨rfl, h.2.2.2.2.2.2⟩
    | cons c cs ih =>
      obtain ⟨h1, h2, h3, h4, h5, h6, h7⟩ := h
      have step : (E.makeStep s1 c).2 = (E.makeStep s2 c).2 ∧ ((E.makeStep s1 c).1.setup = (E.makeStep s2 c).1.setup ∧
          (E.makeStep s1 c).1.t0 = (E.makeStep s2 c).1.t0 ∧ (E.makeStep s1 c).1.x0 = (E.makeStep s2 c).1.x0 ∧
          (E.makeStep s1 c).1.simZ = (E.makeStep s2 c).1.simZ ∧ (E.makeStep s1 c).1.firstStep = (E.makeStep s2 c).1.firstStep ∧
          ((E.makeStep s1 c).1.firstStep = false → (E.makeStep s1 c).1.simAux = (E.makeStep s2 c).1.simAux) ∧
          (E.makeStep s1 c).1.data.Same (E.makeStep s2 c).1.data) := by
        unfold SimEnv.makeStep
        cases hu : argInput d.nu c.u with
        | none => exact ⟨rfl, h1, h2, h3, h4, h5, h6, h7⟩
        | some u =>
          simp only
          rw [h1]
          split
          · exact ⟨rfl, h1, h2, h3, h4, h5, h6, h7⟩
          · split
            · rename_i w v hw hv
              rw [h2, h3, h4]
              have haux : (if s1.firstStep = true then E.model.aux s2.x0 u s2.simZ (E.tvpFun s2.t0) (E.pFun s2.t0) else s1.simAux) =
                  (if s2.firstStep = true then E.model.aux s2.x0 u s2.simZ (E.tvpFun s2.t0) (E.pFun s2.t0) else s2.simAux) := by
                rw [← h5]
                split_ifs with hf
                · rfl
                · exact h6 (by simpa using hf)
              rw [haux]
              generalize ([("_x", PyVal.vec s2.x0), _, _, _, _, _, _, _] : List (String × PyVal K)) = kw
              have hD' := h7.update kw
              cases e1 : s1.data.update kw with
              | mk D1 r1 =>
                cases e2 : s2.data.update kw with
                | mk D2 r2 =>
                  rw [e1, e2] at hD'
                  obtain ⟨hD', hr⟩ := hD'
                  simp only at hr
                  subst hr
                  cases r1 with
                  | none => exact ⟨rfl, rfl, rfl, rfl, rfl, rfl, fun _ => rfl, hD'⟩
                  | some e => exact ⟨rfl, rfl, rfl, rfl, rfl, h5, fun _ => rfl, hD'⟩
            · exact ⟨rfl, h1, h2, h3, h4, h5, h6, h7⟩
      obtain ⟨i1, i2⟩ := ih _ _ step.2
      exact ⟨by simp only [SimEnv.outputs]; rw [step.1, i1], i2⟩
  apply hsame
  refine ⟨hset, rfl, rfl, rfl, rfl, fun h => by simp [SimSt.resetHistory] at h, hD, fun k hk => ?_⟩
  have hk' : (st.data.width k).isSome := hk
  simp [SimSt.resetHistory, Data.initStorage, hk', SimSt.fresh, Data.new]

/-- **C51**, exact: the auxiliary expressions logged in row `i+1` are evaluated at the state of row `i+1` but with the input and parameters
of row `i`; only in the first row everything belongs together. -/
theorem C51_logged_aux_exact (E : SimEnv K d) (st : SimSt K d) (hf : st.firstStep = true) (calls : List (SimCall K)) (ys : List (Vec K d.ny))
    (hok : E.outputs st calls = ys.map .ok) :
    let at' := Spec.plantAt E st.t0 st.x0 st.simZ calls
    let time := fun i : Nat => st.t0 + i * E.tStep
    (E.after st calls).data.rows "_aux" = st.data.rows "_aux" ++ (List.range calls.length).map fun i =>
      List.ofFn (match i with
        | 0 => E.model.aux st.x0 (Spec.argument d.nu (calls[0]?.bind (·.u))) st.simZ (E.tvpFun st.t0) (E.pFun st.t0)
        | i + 1 => E.model.aux (at' (i + 1)).1 (Spec.argument d.nu (calls[i]?.bind (·.u))) (at' (i + 1)).2
            (E.tvpFun (time i)) (E.pFun (time i))) := by
  -- for a run that starts after the first step
  have later : ∀ (calls : List (SimCall K)) (st : SimSt K d) (ys : List (Vec K d.ny)), st.firstStep = false →
      E.outputs st calls = ys.map .ok →
      (E.after st calls).data.rows "_aux" = st.data.rows "_aux" ++ (List.range calls.length).map fun i =>
        List.ofFn (match i with
          | 0 => st.simAux
          | i + 1 => E.model.aux (Spec.plantAt E st.t0 st.x0 st.simZ calls (i + 1)).1 (Spec.argument d.nu (calls[i]?.bind (·.u)))
              (Spec.plantAt E st.t0 st.x0 st.simZ calls (i + 1)).2 (E.tvpFun (st.t0 + i * E.tStep)) (E.pFun (st.t0 + i * E.tStep))) := by
    intro calls
    induction calls with
    | nil => intro st ys _ _; simp [SimEnv.after]
    | cons c cs ih =>
      intro st ys hff hok
      simp only [SimEnv.outputs] at hok
      cases ys with
      | nil => simp at hok
      | cons y ys =>
        simp only [List.map_cons, List.cons.injEq] at hok
        obtain ⟨h1, h2⟩ := hok
        obtain ⟨hset, hy, hup, hst'⟩ := simStep_ok E st c y h1
        have hrows := C17_update_appends _ _ hup "_aux"
        have hff' : (E.makeStep st c).1.firstStep = false := by rw [hst']
        have haf : E.after st (c :: cs) = E.after (E.makeStep st c).1 cs := rfl
        have ht0 : (E.makeStep st c).1.t0 = st.t0 + E.tStep := by rw [hst']
        have hd := congrArg SimSt.data hst'
        have hx' := congrArg SimSt.x0 hst'
        have hz' := congrArg SimSt.simZ hst'
        have ha' := congrArg SimSt.simAux hst'
        dsimp only at hd hx' hz' ha'
        have hpl : ∀ i, Spec.plantAt E (E.makeStep st c).1.t0 (E.makeStep st c).1.x0 (E.makeStep st c).1.simZ cs i =
            Spec.plantAt E st.t0 st.x0 st.simZ (c :: cs) (i + 1) := by
          intro i; rw [plantAt_succ, ht0, hx', hz']
        have htime : ∀ i : Nat, (E.makeStep st c).1.t0 + (i : K) * E.tStep = st.t0 + ((i + 1 : Nat) : K) * E.tStep := by
          intro i; rw [ht0]; push_cast; ring
        rw [haf, ih _ ys hff' h2, hd, hrows]
        simp only [hpl, htime, List.length_cons, List.range_succ_eq_map, List.map_cons, List.map_map]
        simp only [Spec.given, List.filterMap, PyVal.vec, hff, Bool.false_eq_true, if_false, String.reduceEq, List.append_assoc,
          List.cons_append, List.nil_append, if_true]
        congr 2
        apply List.map_congr_left
        intro i _
        cases i with
        | zero => simp [Spec.plantAt, ha']
        | succ i => simp
  cases calls with
  | nil => simp [SimEnv.after]
  | cons c cs =>
    simp only [SimEnv.outputs] at hok
    cases ys with
    | nil => simp at hok
    | cons y ys =>
      simp only [List.map_cons, List.cons.injEq] at hok
      obtain ⟨h1, h2⟩ := hok
      obtain ⟨hset, hy, hup, hst'⟩ := simStep_ok E st c y h1
      have hrows := C17_update_appends _ _ hup "_aux"
      have hff' : (E.makeStep st c).1.firstStep = false := by rw [hst']
      have haf : E.after st (c :: cs) = E.after (E.makeStep st c).1 cs := rfl
      have ht0 : (E.makeStep st c).1.t0 = st.t0 + E.tStep := by rw [hst']
      have hd := congrArg SimSt.data hst'
      have hx' := congrArg SimSt.x0 hst'
      have hz' := congrArg SimSt.simZ hst'
      have ha' := congrArg SimSt.simAux hst'
      dsimp only at hd hx' hz' ha'
      have hpl : ∀ i, Spec.plantAt E (E.makeStep st c).1.t0 (E.makeStep st c).1.x0 (E.makeStep st c).1.simZ cs i =
          Spec.plantAt E st.t0 st.x0 st.simZ (c :: cs) (i + 1) := by
        intro i; rw [plantAt_succ, ht0, hx', hz']
      have htime : ∀ i : Nat, (E.makeStep st c).1.t0 + (i : K) * E.tStep = st.t0 + ((i + 1 : Nat) : K) * E.tStep := by
        intro i; rw [ht0]; push_cast; ring
      intro at' time
      rw [haf, later cs _ ys hff' h2, hd, hrows]
      simp only [hpl, htime, List.length_cons, List.range_succ_eq_map, List.map_cons, List.map_map]
      simp only [Spec.given, List.filterMap, PyVal.vec, hf, String.reduceEq, List.append_assoc,
        List.cons_append, List.nil_append, if_true, if_false]
      congr 2
      apply List.map_congr_left
      intro i _
      cases i with
      | zero => simp [Spec.plantAt, ha', at', time]
      | succ i => simp [at', time]

end DoMpc
