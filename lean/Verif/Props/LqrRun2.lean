import Verif.Props.LqrRun

/-! # LQR at run time: the properties C35, C36 and the optimality of `make_step` (C34), for all configurations and histories -/
set_option linter.unusedSectionVars false
namespace DoMpc
open Matrix Spec
variable {K : Type} [Field K] [LinearOrder K] [IsStrictOrderedRing K]

/-- the calls that configure an LQR before `setup` -/
def LqrOp.isConfig : LqrOp K → Bool
  | .setHorizon _ | .setTStep _ | .setObjective _ _ _ | .setRterm _ => true
  | _ => false

/-- state of the run-time attributes before the first run-time call -/
structure LqrFresh (E : LqrEnv K) (st : LqrSt K) : Prop where
  u0 : st.u0 = .col (0 : Vec K E.nu)
  t0 : st.t0 = 0
  data : st.data = Data.new (lqrFields E.nx E.nu)
  xss : st.xss = none
  uss : st.uss = none

theorem fresh_new (E : LqrEnv K) : LqrFresh E E.new := ⟨rfl, rfl, rfl, rfl, rfl⟩

theorem fresh_exec (E : LqrEnv K) (st : LqrSt K) (op : LqrOp K) (hop : op.isConfig) (hf : LqrFresh E st) : LqrFresh E (E.exec st op).1 := by
  cases op with
  | setHorizon N => exact ⟨hf.u0, hf.t0, hf.data, hf.xss, hf.uss⟩
  | setTStep h => exact ⟨hf.u0, hf.t0, hf.data, hf.xss, hf.uss⟩
  | setRterm d => exact ⟨hf.u0, hf.t0, hf.data, hf.xss, hf.uss⟩
  | setObjective Q R P =>
    simp only [LqrEnv.exec, LqrEnv.setObjective]
    repeat' split
    all_goals exact ⟨hf.u0, hf.t0, hf.data, hf.xss, hf.uss⟩
  | setup => simp [LqrOp.isConfig] at hop
  | setSetpoint x u => simp [LqrOp.isConfig] at hop
  | makeStep x => simp [LqrOp.isConfig] at hop
  | setU0 u => simp [LqrOp.isConfig] at hop
  | resetHistory => simp [LqrOp.isConfig] at hop

theorem fresh_run (E : LqrEnv K) (ops : List (LqrOp K)) : ∀ (st : LqrSt K), (∀ op ∈ ops, op.isConfig) → LqrFresh E st → LqrFresh E (E.run st ops) := by
  induction ops with
  | nil => intro st _ hf; exact hf
  | cons op ops ih =>
    intro st hc hf
    exact ih _ (fun o ho => hc o (List.mem_cons_of_mem _ ho)) (fresh_exec E st op (hc op List.mem_cons_self) hf)

/-- what a successful `setup` leaves untouched and establishes -/
theorem setup_fields (E : LqrEnv K) (st0 st : LqrSt K) (h : E.setupCall st0 = (st, none)) :
    st.setup = true ∧ st.mode = st0.mode ∧ (∃ g, st.gain = some g) ∧ (∃ t, st.tStep = some t) ∧ (LqrFresh E st0 → LqrFresh E st) := by
  unfold LqrEnv.setupCall at h
  dsimp only at h
  repeat' (first | split at h | simp only [Prod.mk.injEq, reduceCtorEq, and_false] at h)
  all_goals first
    | (exfalso; exact h)
    | (simp only [and_true] at h
       subst h
       refine ⟨rfl, rfl, ⟨_, rfl⟩, ⟨_, by assumption⟩, fun hf => ⟨hf.u0, hf.t0, hf.data, hf.xss, hf.uss⟩⟩)

/-- last state set point given in a sequence of calls, 0 if none was given -/
def lastX {nx nu : Nat} (cs : List (LqrCall K nx nu)) : Vec K nx :=
  ((cs.filterMap fun | .setSetpoint (some x) _ => some x | _ => none).getLast?).getD 0

/-- last input set point given, 0 if none was given -/
def lastU {nx nu : Nat} (cs : List (LqrCall K nx nu)) : Vec K nu :=
  ((cs.filterMap fun | .setSetpoint _ (some u) => some u | _ => none).getLast?).getD 0

theorem getLast?_cons_getD {α : Type} (a : α) (l : List α) (d : α) : ((a :: l).getLast?).getD d = (l.getLast?).getD a := by
  cases l with
  | nil => rfl
  | cons b l => simp [List.getLast?_cons]

theorem after_xs {nx nu : Nat} (h : K) (law) (cs : List (LqrCall K nx nu)) : ∀ v : LqrView K nx nu,
    (v.after h law cs).xs = ((cs.filterMap fun | .setSetpoint (some x) _ => some x | _ => none).getLast?).getD v.xs ∧
    (v.after h law cs).us = ((cs.filterMap fun | .setSetpoint _ (some u) => some u | _ => none).getLast?).getD v.us := by
  induction cs with
  | nil => intro v; exact ⟨rfl, rfl⟩
  | cons c cs ih =>
    intro v
    rw [LqrView.after, (ih _).1, (ih _).2]
    cases c with
    | setSetpoint x u =>
      constructor
      · cases x with
        | none => simp [LqrView.step]
        | some x => simp only [LqrView.step, List.filterMap_cons, getLast?_cons_getD, Option.getD_some]
      · cases u with
        | none => simp [LqrView.step]
        | some x => simp only [LqrView.step, List.filterMap_cons, getLast?_cons_getD, Option.getD_some]
    | makeStep x => exact ⟨by simp [LqrView.step], by simp [LqrView.step]⟩
    | setU0 u => exact ⟨by simp [LqrView.step], by simp [LqrView.step]⟩
    | setHorizon N => exact ⟨by simp [LqrView.step], by simp [LqrView.step]⟩
    | resetHistory => exact ⟨by simp [LqrView.step], by simp [LqrView.step]⟩

/-- the control law in standard mode -/
def stdLaw {nx nu : Nat} (G : Matrix (Fin nu) (Fin nx) K) : Vec K nx → Vec K nu → Vec K nu → Vec K nx → Vec K nu :=
  fun xs us _ x => G *ᵥ (x - xs) + us

/-- the control law with input rate penalty: the previous input plus the gain times the deviation of state and previous input -/
def rateLaw {nx nu : Nat} (G : Matrix (Fin nu) (Fin (nx + nu)) K) : Vec K nx → Vec K nu → Vec K nu → Vec K nx → Vec K nu :=
  fun xs us uLast x => uLast + G *ᵥ (Fin.append (x - xs) (uLast - us))

/-- A controller in standard mode that was configured by any calls and set up. -/
structure StdReady (E : LqrEnv K) (cfg : List (LqrOp K)) (h : K) (G : Matrix (Fin E.nu) (Fin E.nx) K) (st : LqrSt K) : Prop where
  nx : 0 < E.nx
  nu : 0 < E.nu
  config : ∀ op ∈ cfg, op.isConfig
  mode : (E.run E.new cfg).mode = .standard
  setup : E.setupCall (E.run E.new cfg) = (st, none)
  gain : st.gain = some (.of G)
  ts : st.tStep = some h

/-- A controller in input-rate-penalty mode that was configured by any calls and set up. -/
structure RateReady (E : LqrEnv K) (cfg : List (LqrOp K)) (h : K) (G : Matrix (Fin E.nu) (Fin (E.nx + E.nu)) K) (st : LqrSt K) : Prop where
  config : ∀ op ∈ cfg, op.isConfig
  mode : (E.run E.new cfg).mode = .rate
  setup : E.setupCall (E.run E.new cfg) = (st, none)
  gain : st.gain = some (.of G)
  ts : st.tStep = some h

theorem rel_init (E : LqrEnv K) (h : K) (g : NpMat K) (md : LqrMode) (st0 st : LqrSt K) (hs : E.setupCall st0 = (st, none)) (hm : st0.mode = md)
    (hf : LqrFresh E st0) (hg : st.gain = some g) (ht : st.tStep = some h) :
    LqrRel E h g md st (LqrView.init E.nx E.nu) ∧ st.xss = none ∧ st.uss = none := by
  obtain ⟨a, b, _, _, f⟩ := setup_fields E st0 st hs
  have := f hf
  refine ⟨⟨a, b.trans hm, hg, ht, this.u0, this.t0, ?_, ?_, ?_, ?_⟩, this.xss, this.uss⟩ <;> rw [this.data] <;> rfl

/-- **C35 (standard mode).**  However an LQR was configured, once it is set up every sequence of `make_step`, `set_setpoint`, `reset_history`,
`u0 = …` calls (arrays of the right shapes) succeeds; `make_step(x)` returns `K(x − xss) + uss` for the set points in force, and the
record holds, row by row, the time, the state given and the input returned by each `make_step` since the last reset. -/
theorem C35_standard (E : LqrEnv K) (cfg : List (LqrOp K)) (h : K) (G : Matrix (Fin E.nu) (Fin E.nx) K) (st : LqrSt K)
    (hr : StdReady E cfg h G st) (cs : List (LqrCall K E.nx E.nu)) :
    E.trace st (cs.map LqrCall.op) = ((LqrView.init E.nx E.nu).outs h (stdLaw G) cs).map (fun o => (none, o.map NpMat.col)) ∧
      (E.run st (cs.map LqrCall.op)).data.rows "_x" = ((LqrView.init E.nx E.nu).after h (stdLaw G) cs).log.map (fun e => List.ofFn e.2.1) ∧
      (E.run st (cs.map LqrCall.op)).data.rows "_u" = ((LqrView.init E.nx E.nu).after h (stdLaw G) cs).log.map (fun e => List.ofFn e.2.2) ∧
      (E.run st (cs.map LqrCall.op)).data.rows "_time" = ((LqrView.init E.nx E.nu).after h (stdLaw G) cs).log.map (fun e => [e.1]) := by
  obtain ⟨hrel, hx, hu⟩ := rel_init E h _ .standard _ st hr.setup hr.mode (fresh_run E cfg _ hr.config (fresh_new E)) hr.gain hr.ts
  obtain ⟨a, b, _⟩ := run_standard E hr.nx hr.nu h G cs st _ hrel (.inl ⟨hx, hu, rfl, rfl⟩)
  exact ⟨a, b.rx, b.ru, b.rt⟩

/-- **C36 (standard mode).**  After any sequence of such calls, `make_step(x)` returns `K(x − xss) + uss` where `xss` and `uss` are the
values given last for them, in whatever calls, and 0 where none was given. -/
theorem C36_standard (E : LqrEnv K) (cfg : List (LqrOp K)) (h : K) (G : Matrix (Fin E.nu) (Fin E.nx) K) (st : LqrSt K)
    (hr : StdReady E cfg h G st) (cs : List (LqrCall K E.nx E.nu)) (x : Vec K E.nx) :
    (E.exec (E.run st (cs.map LqrCall.op)) (.makeStep (.col x))).2 = (none, some (.col (G *ᵥ (x - lastX cs) + lastU cs))) := by
  obtain ⟨hrel, hx, hu⟩ := rel_init E h _ .standard _ st hr.setup hr.mode (fresh_run E cfg _ hr.config (fresh_new E)) hr.gain hr.ts
  obtain ⟨_, b, c⟩ := run_standard E hr.nx hr.nu h G cs st _ hrel (.inl ⟨hx, hu, rfl, rfl⟩)
  have := (step_standard E hr.nx hr.nu h G _ _ b c (.makeStep x)).1
  simp only [LqrCall.op, LqrView.step, Option.map_some] at this
  rw [this, (after_xs _ _ cs _).1, (after_xs _ _ cs _).2]
  rfl

/-- **C35 (input rate penalty), partial**: as `C35_standard`, with the applied input equal to the previous one plus the gain times the
deviation of state and previous input, provided every `set_setpoint` call gives both set points.  Missing: calls with one argument
(`C36_fails_rate_one_argument`, `C36_fails_rate_input_lost`). -/
theorem C35_rate_partial (E : LqrEnv K) (cfg : List (LqrOp K)) (h : K) (G : Matrix (Fin E.nu) (Fin (E.nx + E.nu)) K) (st : LqrSt K)
    (hr : RateReady E cfg h G st) (cs : List (LqrCall K E.nx E.nu))
    (hcs : ∀ x u, LqrCall.setSetpoint x u ∈ cs → x.isSome ∧ u.isSome) :
    E.trace st (cs.map LqrCall.op) = ((LqrView.init E.nx E.nu).outs h (rateLaw G) cs).map (fun o => (none, o.map NpMat.col)) ∧
      (E.run st (cs.map LqrCall.op)).data.rows "_x" = ((LqrView.init E.nx E.nu).after h (rateLaw G) cs).log.map (fun e => List.ofFn e.2.1) ∧
      (E.run st (cs.map LqrCall.op)).data.rows "_u" = ((LqrView.init E.nx E.nu).after h (rateLaw G) cs).log.map (fun e => List.ofFn e.2.2) ∧
      (E.run st (cs.map LqrCall.op)).data.rows "_time" = ((LqrView.init E.nx E.nu).after h (rateLaw G) cs).log.map (fun e => [e.1]) := by
  obtain ⟨hrel, hx, hu⟩ := rel_init E h _ .rate _ st hr.setup hr.mode (fresh_run E cfg _ hr.config (fresh_new E)) hr.gain hr.ts
  have hlaw : rateLaw G = fun xs us uLast x => G *ᵥ (Fin.append x uLast - Fin.append xs us) + uLast := by
    funext xs us ul x
    rw [rateLaw, append_sub, add_comm]
  obtain ⟨a, b, _⟩ := run_rate E h G cs hcs st _ hrel (.inl ⟨hx, hu, rfl, rfl⟩)
  rw [hlaw]
  exact ⟨a, b.rx, b.ru, b.rt⟩

/-- **C36 (input rate penalty), partial**: the set points given last are in force if every call gave both. -/
theorem C36_rate_partial (E : LqrEnv K) (cfg : List (LqrOp K)) (h : K) (G : Matrix (Fin E.nu) (Fin (E.nx + E.nu)) K) (st : LqrSt K)
    (hr : RateReady E cfg h G st) (cs : List (LqrCall K E.nx E.nu))
    (hcs : ∀ x u, LqrCall.setSetpoint x u ∈ cs → x.isSome ∧ u.isSome) (x : Vec K E.nx) :
    ∃ uPrev, (E.run st (cs.map LqrCall.op)).u0 = .col uPrev ∧
      (E.exec (E.run st (cs.map LqrCall.op)) (.makeStep (.col x))).2
        = (none, some (.col (uPrev + G *ᵥ (Fin.append (x - lastX cs) (uPrev - lastU cs))))) := by
  obtain ⟨hrel, hx, hu⟩ := rel_init E h _ .rate _ st hr.setup hr.mode (fresh_run E cfg _ hr.config (fresh_new E)) hr.gain hr.ts
  obtain ⟨_, b, c⟩ := run_rate E h G cs hcs st _ hrel (.inl ⟨hx, hu, rfl, rfl⟩)
  refine ⟨_, b.u0, ?_⟩
  have := (step_rate E h G _ _ b c (.makeStep x) (by simp)).1
  simp only [LqrCall.op, LqrView.step, Option.map_some] at this
  rw [this, (after_xs _ _ cs _).1, (after_xs _ _ cs _).2, append_sub, add_comm]
  rfl

/-! ## what goes wrong in rate mode -/

theorem zip_error (f : K → K → K) (A B : NpMat K) (h : bdim A.r B.r = none) : NpMat.zip f A B = .error "ValueError" := by
  simp [NpMat.zip, h]

/-- **C36 is false in rate mode (1).**  In any controller with input rate penalty, after `set_setpoint(xss, uss)` a call
`set_setpoint(uss = u')` raises an `AssertionError`, and from then on every `make_step` raises: the stored state set point already
contains the input set point and is extended again. -/
theorem C36_fails_rate_one_argument (E : LqrEnv K) (cfg : List (LqrOp K)) (h : K) (G : Matrix (Fin E.nu) (Fin (E.nx + E.nu)) K) (st : LqrSt K)
    (hr : RateReady E cfg h G st) (hn : 0 < E.nx) (hm : 0 < E.nu) (x : Vec K E.nx) (u u' : Vec K E.nu) :
    let st1 := (E.exec st (.setSetpoint (some (.col x)) (some (.col u)))).1
    let r := E.exec st1 (.setSetpoint none (some (.col u')))
    r.2.1 = some "AssertionError" ∧ ∀ x' : Vec K E.nx, (E.exec r.1 (.makeStep (.col x'))).2 = (some "ValueError", none) := by
  intro st1 r
  obtain ⟨hrel, hx, hu⟩ := rel_init E h _ .rate _ st hr.setup hr.mode (fresh_run E cfg _ hr.config (fresh_new E)) hr.gain hr.ts
  obtain ⟨_, b, c⟩ := step_rate E h G st _ hrel (.inl ⟨hx, hu, rfl, rfl⟩) (.setSetpoint (some x) (some u)) (by simp)
  change LqrRel E h (.of G) .rate st1 _ at b
  have hxs : st1.xss = some (.col (Fin.append x u)) := by
    rcases c with ⟨c1, _⟩ | ⟨c1, _⟩
    · simp [LqrCall.op, LqrEnv.exec, LqrEnv.setSetpoint, hrel.setup, hrel.mode, vstack_col, NpMat.shape] at c1
    · exact c1
  have hr1 : E.setSetpoint st1 none (some (.col u'))
      = ({ st1 with xss := some (.col (Fin.append (Fin.append x u) u')), uss := some (NpMat.zeros E.nu 1) }, some "AssertionError") := by
    simp only [LqrEnv.setSetpoint, b.setup, b.mode, hxs, Option.none_or, Option.some_or, Option.getD_some, vstack_col, NpMat.shape]
    simp
    omega
  refine ⟨by simp only [r, LqrEnv.exec, hr1], fun x' => ?_⟩
  have hlaw : lqrLaw .rate (.of G) (.col (Fin.append (Fin.append x u) u')) (NpMat.zeros E.nu 1) (.col x') (.col (LqrView.init E.nx E.nu : LqrView K E.nx E.nu).uLast) = .error "ValueError" := by
    simp only [lqrLaw, vstack_col, bind, Except.bind]
    rw [NpMat.sub, zip_error]
    simp only [bdim]
    rw [if_neg (by omega), if_neg (by omega), if_neg (by omega)]
  have hu0 : st1.u0 = .col (LqrView.init E.nx E.nu : LqrView K E.nx E.nu).uLast := b.u0
  have : E.makeStep r.1 (.col x') = (r.1, .error "ValueError") := by
    unfold LqrEnv.makeStep
    simp only [r, LqrEnv.exec, hr1, b.setup, b.gain, b.mode, hu0]
    simp [hlaw]
  simp only [LqrEnv.exec] at this ⊢
  rw [this]

/-- **C36 is false in rate mode (2).**  After `set_setpoint(xss, uss)`, a call `set_setpoint(xss')` alone silently replaces the input set
point by 0. -/
theorem C36_fails_rate_input_lost (E : LqrEnv K) (cfg : List (LqrOp K)) (h : K) (G : Matrix (Fin E.nu) (Fin (E.nx + E.nu)) K) (st : LqrSt K)
    (hr : RateReady E cfg h G st) (x x' : Vec K E.nx) (u : Vec K E.nu) (y : Vec K E.nx) :
    let st1 := (E.exec st (.setSetpoint (some (.col x)) (some (.col u)))).1
    let r := E.exec st1 (.setSetpoint (some (.col x')) none)
    r.2.1 = none ∧ (E.exec r.1 (.makeStep (.col y))).2 = (none, some (.col (G *ᵥ (Fin.append (y - x') (0 : Vec K E.nu))))) := by
  intro st1 r
  obtain ⟨hrel, hx, hu⟩ := rel_init E h _ .rate _ st hr.setup hr.mode (fresh_run E cfg _ hr.config (fresh_new E)) hr.gain hr.ts
  obtain ⟨_, b, c⟩ := step_rate E h G st _ hrel (.inl ⟨hx, hu, rfl, rfl⟩) (.setSetpoint (some x) (some u)) (by simp)
  change LqrRel E h (.of G) .rate st1 _ at b
  have hus : st1.uss = some (.col (0 : Vec K E.nu)) := by
    rcases c with ⟨_, c1, _⟩ | ⟨_, c1⟩
    · simp [LqrCall.op, LqrEnv.exec, LqrEnv.setSetpoint, hrel.setup, hrel.mode, vstack_col, NpMat.shape] at c1
    · exact c1
  have hr1 : E.setSetpoint st1 (some (.col x')) none
      = ({ st1 with xss := some (.col (Fin.append x' (0 : Vec K E.nu))), uss := some (.col (0 : Vec K E.nu)) }, none) := by
    simp only [LqrEnv.setSetpoint, b.setup, b.mode, hus, Option.none_or, Option.some_or, Option.getD_some, vstack_col, NpMat.shape]
    simp [zeros_col]
  have hre : r.1 = { st1 with xss := some (.col (Fin.append x' (0 : Vec K E.nu))), uss := some (.col (0 : Vec K E.nu)) } := by
    simp only [r, LqrEnv.exec, hr1]
  refine ⟨by simp only [r, LqrEnv.exec, hr1], ?_⟩
  have hrel2 : LqrRel E h (.of G) .rate r.1 { (LqrView.init E.nx E.nu) with xs := x' } := by
    rw [hre]
    exact ⟨b.setup, b.mode, b.gain, b.ts, b.u0, b.t0, b.fields, b.rx, b.ru, b.rt⟩
  have := (step_rate E h G r.1 _ hrel2 (.inr ⟨by rw [hre]; rfl, by rw [hre]⟩) (.makeStep y) (by simp)).1
  simp only [LqrCall.op, LqrView.step, Option.map_some, LqrView.init, append_sub, sub_zero, add_zero] at this
  exact this

/-- **C35 is false for row vectors.**  `make_step` of a standard-mode controller with at least two states, given the state as a row
(shape `(1, n)`) and a set point, raises only after the state has been written to the record: the record is left with one more state
than inputs. -/
theorem C35_fails_row_vector (E : LqrEnv K) (cfg : List (LqrOp K)) (h : K) (G : Matrix (Fin E.nu) (Fin E.nx) K) (st : LqrSt K)
    (hr : StdReady E cfg h G st) (hn : 2 ≤ E.nx) (xs x : Vec K E.nx) (us : Vec K E.nu) :
    let st1 := (E.exec st (.setSetpoint (some (.col xs)) (some (.col us)))).1
    let r := E.exec st1 (.makeStep (.row x))
    r.2.1 = some "ValueError" ∧ r.1.data.rows "_x" = [List.ofFn x] ∧ r.1.data.rows "_u" = [] := by
  intro st1 r
  obtain ⟨hrel, hx, hu⟩ := rel_init E h _ .standard _ st hr.setup hr.mode (fresh_run E cfg _ hr.config (fresh_new E)) hr.gain hr.ts
  obtain ⟨_, b, c⟩ := step_standard E hr.nx hr.nu h G st _ hrel (.inl ⟨hx, hu, rfl, rfl⟩) (.setSetpoint (some xs) (some us))
  change LqrRel E h (.of G) .standard st1 _ at b
  have hsp : st1.xss = some (.col xs) ∧ st1.uss = some (.col us) := by
    rcases c with ⟨c1, _⟩ | c1
    · simp [LqrCall.op, LqrEnv.exec, LqrEnv.setSetpoint, hrel.setup, hrel.mode, NpMat.shape] at c1
    · exact c1
  -- the law returns an array of shape (nu, nx)
  have hlaw : ∃ M : Matrix (Fin E.nu) (Fin E.nx) K, lqrLaw .standard (.of G) (.col xs) (.col us) (.row x) st1.u0 = .ok (.of M) := by
    have h1 : (NpMat.col xs).size ≠ 0 := by simp [NpMat.size]; omega
    have h2 : (NpMat.col us).size ≠ 0 := by simp [NpMat.size]; have := hr.nu; omega
    have e1 : (NpMat.row x).sub (NpMat.col xs) = .ok (.of (Matrix.of fun (i : Fin E.nx) (j : Fin E.nx) => (NpMat.row x).bget i j - (NpMat.col xs).bget i j)) := by
      unfold NpMat.sub NpMat.zip
      have d1 : bdim (NpMat.row x).r (NpMat.col xs).r = some E.nx := by
        simp only [bdim]; split
        · rename_i hh; rw [← hh]
        · simp
      have d2 : bdim (NpMat.row x).c (NpMat.col xs).c = some E.nx := by
        simp only [bdim]; rw [if_neg (by omega), if_neg (by omega)]; simp
      rw [d1, d2]; rfl
    refine ⟨fun i j => ((NpMat.of (G * (Matrix.of fun i j => (NpMat.row x).bget i j - (NpMat.col xs).bget i j : Matrix (Fin E.nx) (Fin E.nx) K)))).bget i j
      + (NpMat.col us).bget i j, ?_⟩
    simp only [lqrLaw, h1, h2, ne_eq, not_false_eq_true, and_self, if_true, e1, bind, Except.bind, NpMat.mul_of]
    unfold NpMat.add NpMat.zip
    have d1 : bdim E.nu E.nu = some E.nu := by simp [bdim]
    have d2 : bdim E.nx 1 = some E.nx := by
      simp only [bdim]; rw [if_neg (by omega), if_neg (by omega)]; simp
    simp only [d1, d2]
  obtain ⟨M, hM⟩ := hlaw
  have hflat : (NpMat.row x).flat = List.ofFn x := by
    simp [NpMat.flat]
  have hlen : (NpMat.of M).flat.length ≠ E.nu := by
    rw [npmat_flat_length]
    simp only [NpMat.size]
    have := hr.nu
    intro h0
    nlinarith
  have hmk : E.makeStep st1 (.row x) = ({ st1 with data := { st1.data with rows := fun k => if k = "_x" then st1.data.rows k ++ [List.ofFn x] else st1.data.rows k } }, .error "ValueError") := by
    unfold LqrEnv.makeStep
    simp only [b.setup, Bool.not_true, Bool.false_eq_true, if_false, hsp.1, hsp.2, Option.isNone_some, and_self, b.gain, b.mode, hM]
    have hl : List.lookup "_x" (lqrFields E.nx E.nu) = some E.nx := rfl
    have hl2 : List.lookup "_u" (lqrFields E.nx E.nu) = some E.nu := rfl
    simp [LqrEnv.record, LqrSt.log, Data.update, Data.update1, Data.width, b.fields, hl, hl2, hflat, hlen]
    exact ⟨b.mode, b.gain, hsp.1, hsp.2, b.setup⟩
  have hr1 : E.exec st1 (.makeStep (.row x)) = ({ st1 with data := { st1.data with rows := fun k => if k = "_x" then st1.data.rows k ++ [List.ofFn x] else st1.data.rows k } }, some "ValueError", none) := by
    simp only [LqrEnv.exec, hmk]
  simp only [r, hr1]
  refine ⟨trivial, ?_, ?_⟩
  · simp [b.rx, LqrView.step, LqrView.init]
  · simp [b.ru, LqrView.step, LqrView.init]

/-! ## optimality of what `make_step` returns -/

/-- calls that configure a finite-horizon LQR -/
def finiteCfg {n m : Nat} (h : K) (N : Nat) (Q P : Matrix (Fin n) (Fin n) K) (R : Matrix (Fin m) (Fin m) K) : List (LqrOp K) :=
  [.setTStep h, .setHorizon (some (N + 1)), .setObjective (.of Q) (.of R) (some (.of P))]

theorem lqr_run_append (E : LqrEnv K) (a b : List (LqrOp K)) : ∀ st, E.run st (a ++ b) = E.run (E.run st a) b := by
  induction a with
  | nil => intro st; rfl
  | cons o a ih => intro st; exact ih _

theorem stdReady_finite (E : LqrEnv K) (hn : 0 < E.nx) (hm : 0 < E.nu) (h : K) (N : Nat) (Q P : Matrix (Fin E.nx) (Fin E.nx) K)
    (R : Matrix (Fin E.nu) (Fin E.nu) K) (hQ : Psd Q) (hP : Psd P) (hR : Pd R) :
    StdReady E (finiteCfg h N Q P R) h (ricK E.A E.B R (ricSeq E.A E.B Q P R N)) (E.run E.new (finiteCfg h N Q P R ++ [.setup])) := by
  have hst : E.run E.new (finiteCfg h N Q P R) = { E.new with tStep := some h, horizon := some (N + 1), Q := some (.of Q), R := some (.of R), P := some (.of P) } := by
    simp [finiteCfg, LqrEnv.run, LqrEnv.exec, LqrEnv.setObjective, LqrEnv.new, NpMat.shape]
  have hgain := discreteGain_finite E { E.new with tStep := some h, horizon := some (N + 1), Q := some (.of Q), R := some (.of R), P := some (.of P) }
    E.A Q P E.B R hn hm hQ hP hR rfl rfl rfl rfl
  have hsetup : E.setupCall (E.run E.new (finiteCfg h N Q P R)) = ({ (E.run E.new (finiteCfg h N Q P R)) with
      gain := some (.of (ricK E.A E.B R (ricSeq E.A E.B Q P R N))), setup := true }, none) := by
    rw [hst]
    simp only [LqrEnv.setupCall, LqrEnv.new] at hgain ⊢
    rw [hgain]
  have hrun : E.run E.new (finiteCfg h N Q P R ++ [.setup]) = (E.setupCall (E.run E.new (finiteCfg h N Q P R))).1 := by
    rw [lqr_run_append]; rfl
  rw [hrun, hsetup]
  exact ⟨hn, hm, by simp [finiteCfg, LqrOp.isConfig], by rw [hst]; rfl, hsetup, rfl, by rw [hst]⟩

/-- state after configuration with input rate penalty -/
def rateSt0 (E : LqrEnv K) (h : K) (N : Nat) (Q P : Matrix (Fin E.nx) (Fin E.nx) K) (R dR : Matrix (Fin E.nu) (Fin E.nu) K) : LqrSt K :=
  { E.new with tStep := some h, horizon := some (N + 1), Q := some (.of Q), R := some (.of R), P := some (.of P), delR := some (.of dR),
               rated := some (.of E.aRated, .of E.bRated), mode := .rate }

/-- … with augmented weights -/
def rateSt2 (E : LqrEnv K) (h : K) (N : Nat) (Q P : Matrix (Fin E.nx) (Fin E.nx) K) (R dR : Matrix (Fin E.nu) (Fin E.nu) K) : LqrSt K :=
  { rateSt0 E h N Q P R dR with Q := some (.of (blk Q 0 0 R)), P := some (.of (blk P 0 0 R)), R := some (.of dR) }

/-- the gain of the augmented problem -/
noncomputable def rateGain (E : LqrEnv K) (N : Nat) (Q P : Matrix (Fin E.nx) (Fin E.nx) K) (R dR : Matrix (Fin E.nu) (Fin E.nu) K) :
    Matrix (Fin E.nu) (Fin (E.nx + E.nu)) K :=
  ricK (blk E.A E.B 0 1) (vblk E.B 1) dR (ricSeq (blk E.A E.B 0 1) (vblk E.B 1) (blk Q 0 0 R) (blk P 0 0 R) dR N)

/-- calls that configure a finite-horizon LQR with input rate penalty -/
def rateCfg {n m : Nat} (h : K) (N : Nat) (Q P : Matrix (Fin n) (Fin n) K) (R dR : Matrix (Fin m) (Fin m) K) : List (LqrOp K) :=
  finiteCfg h N Q P R ++ [.setRterm (.of dR)]

theorem rateReady_finite (E : LqrEnv K) (hn : 0 < E.nx) (hm : 0 < E.nu) (h : K) (N : Nat) (Q P : Matrix (Fin E.nx) (Fin E.nx) K)
    (R dR : Matrix (Fin E.nu) (Fin E.nu) K) (hQ : Psd Q) (hP : Psd P) (hR : Psd R) (hdR : Pd dR) :
    RateReady E (rateCfg h N Q P R dR) h (rateGain E N Q P R dR) (E.run E.new (rateCfg h N Q P R dR ++ [.setup])) ∧
    E.run E.new (rateCfg h N Q P R dR ++ [.setup]) = { rateSt2 E h N Q P R dR with gain := some (.of (rateGain E N Q P R dR)), setup := true } := by
  have hst : E.run E.new (rateCfg h N Q P R dR) = rateSt0 E h N Q P R dR := by
    simp [rateCfg, rateSt0, finiteCfg, LqrEnv.run, LqrEnv.exec, LqrEnv.setObjective, LqrEnv.setRterm, LqrEnv.new, NpMat.shape]
  have hgain : E.discreteGain (rateSt2 E h N Q P R dR) (.of E.aRated) (.of E.bRated) = .ok (.of (rateGain E N Q P R dR)) :=
    discreteGain_finite E _ (blk E.A E.B 0 1) (blk Q 0 0 R) (blk P 0 0 R) (vblk E.B 1) dR (by omega) hm (blk_psd hQ hR) (blk_psd hP hR) hdR rfl rfl rfl rfl
  have hblk : ∀ M : Matrix (Fin E.nx) (Fin E.nx) K, NpMat.block (.of M) (NpMat.zeros E.nx E.nu) (NpMat.zeros E.nu E.nx) (.of R) = .ok (.of (blk M 0 0 R)) :=
    fun M => NpMat.block_of M 0 0 R
  have hsetup : E.setupCall (E.run E.new (rateCfg h N Q P R dR))
      = ({ rateSt2 E h N Q P R dR with gain := some (.of (rateGain E N Q P R dR)), setup := true }, none) := by
    rw [hst]
    simp only [LqrEnv.setupCall, rateSt0, hblk, Except.map]
    change (match E.discreteGain (rateSt2 E h N Q P R dR) (.of E.aRated) (.of E.bRated) with
      | .ok g => ({ rateSt2 E h N Q P R dR with gain := some g, setup := true }, none)
      | .error e => (rateSt2 E h N Q P R dR, some e)) = _
    rw [hgain]
  have hrun : E.run E.new (rateCfg h N Q P R dR ++ [.setup]) = (E.setupCall (E.run E.new (rateCfg h N Q P R dR))).1 := by
    rw [lqr_run_append]; rfl
  rw [hrun, hsetup]
  exact ⟨⟨by simp [rateCfg, finiteCfg, LqrOp.isConfig], by rw [hst]; rfl, hsetup, rfl, rfl⟩, rfl⟩

/-- **C34 (at the API).**  An LQR with a finite horizon in standard mode: after any history of calls, the input returned by `make_step(x)` is
the first input of every minimiser of the tracking cost from `x` to the set points in force, and there is a minimiser, whenever the set
points are an equilibrium of the system. -/
theorem C34_make_step_optimal (E : LqrEnv K) (hn : 0 < E.nx) (hm : 0 < E.nu) (h : K) (N : Nat) (Q P : Matrix (Fin E.nx) (Fin E.nx) K)
    (R : Matrix (Fin E.nu) (Fin E.nu) K) (hQ : Psd Q) (hP : Psd P) (hR : Pd R) (cs : List (LqrCall K E.nx E.nu)) (x : Vec K E.nx)
    (heq : E.A *ᵥ lastX cs + E.B *ᵥ lastU cs = lastX cs) :
    ∃ u, (E.exec (E.run E.new (finiteCfg h N Q P R ++ [.setup] ++ cs.map LqrCall.op)) (.makeStep (.col x))).2 = (none, some (.col u)) ∧
      (∃ w, Minimises (trackCost E.A E.B Q P R (lastX cs) (lastU cs) (N + 1) x) w) ∧
      ∀ w, Minimises (trackCost E.A E.B Q P R (lastX cs) (lastU cs) (N + 1) x) w → w 0 = u := by
  refine ⟨_, ?_, tracking_optimal E.A Q P E.B R hQ hP hR (lastX cs) (lastU cs) heq x⟩
  rw [lqr_run_append]
  exact C36_standard E _ h _ _ (stdReady_finite E hn hm h N Q P R hQ hP hR) cs x

/-- **C34 (input rate penalty, at the API).**  The same for a controller with input rate penalty and the cost on states, inputs and input
changes; every `set_setpoint` call gives both set points. -/
theorem C34_make_step_optimal_rate (E : LqrEnv K) (hn : 0 < E.nx) (hm : 0 < E.nu) (h : K) (N : Nat) (Q P : Matrix (Fin E.nx) (Fin E.nx) K)
    (R dR : Matrix (Fin E.nu) (Fin E.nu) K) (hQ : Psd Q) (hP : Psd P) (hR : Psd R) (hdR : Pd dR) (cs : List (LqrCall K E.nx E.nu))
    (hcs : ∀ x u, LqrCall.setSetpoint x u ∈ cs → x.isSome ∧ u.isSome) (x : Vec K E.nx)
    (heq : E.A *ᵥ lastX cs + E.B *ᵥ lastU cs = lastX cs) :
    let st := E.run E.new (rateCfg h N Q P R dR ++ [.setup] ++ cs.map LqrCall.op)
    ∃ uPrev u, st.u0 = .col uPrev ∧ (E.exec st (.makeStep (.col x))).2 = (none, some (.col u)) ∧
      (∃ w, Minimises (rateCost E.A E.B Q P R dR (lastX cs) (lastU cs) (N + 1) x uPrev) w) ∧
      ∀ w, Minimises (rateCost E.A E.B Q P R dR (lastX cs) (lastU cs) (N + 1) x uPrev) w → w 0 = u := by
  intro st
  obtain ⟨hready, _⟩ := rateReady_finite E hn hm h N Q P R dR hQ hP hR hdR
  obtain ⟨uPrev, h1, h2⟩ := C36_rate_partial E _ h _ _ hready cs hcs x
  rw [← lqr_run_append] at h1 h2
  refine ⟨uPrev, _, h1, h2, ?_⟩
  obtain ⟨r1, r2⟩ := rate_optimal (N := N) E.A Q P E.B R dR hQ hP hR hdR (lastX cs) (lastU cs) heq x uPrev
  refine ⟨r1, fun w hw => ?_⟩
  rw [r2 w hw, append_sub, add_comm]
  rfl

/-- **C34 (default terminal weight).**  With a finite horizon, `set_objective(Q, R)` is `set_objective(Q, R, P = Q)`. -/
theorem C34_default_terminal_weight (E : LqrEnv K) (st : LqrSt K) (Q R : NpMat K) (h : st.horizon ≠ none) :
    E.exec st (.setObjective Q R none) = E.exec st (.setObjective Q R (some Q)) := by
  cases hh : st.horizon with
  | none => exact absurd hh h
  | some N => simp only [LqrEnv.exec, LqrEnv.setObjective, hh]

/-! ## after setup (C37) -/

/-- **C37 (LQR, objective).**  After `setup`, and whatever calls follow, `set_objective` raises and changes nothing. -/
theorem C37_lqr_objective (E : LqrEnv K) (ops : List (LqrOp K)) (Q R : NpMat K) (P : Option (NpMat K)) :
    ∀ st : LqrSt K, st.setup = true → (E.run st ops).setup = true ∧
      E.exec (E.run st ops) (.setObjective Q R P) = (E.run st ops, some "AssertionError", none) := by
  have hsp : ∀ (st : LqrSt K) (x u), (E.setSetpoint st x u).1.setup = st.setup := by
    intro st x u
    unfold LqrEnv.setSetpoint
    dsimp only
    repeat' split
    all_goals rfl
  have hlog : ∀ (st : LqrSt K) (k : String) (r : List K), (st.log k r).1.setup = st.setup := fun st k r => rfl
  have hrec : ∀ (st : LqrSt K) (x u : NpMat K), (E.record st x u).1.setup = st.setup := by
    intro st x u
    unfold LqrEnv.record
    split
    · rename_i st1 e h1; exact (congrArg (fun p => p.1.setup) h1).symm.trans (hlog _ _ _)
    rename_i st1 h1
    have e1 : st1.setup = st.setup := (congrArg (fun p => p.1.setup) h1).symm.trans (hlog _ _ _)
    split
    · rename_i st2 e h2; exact ((congrArg (fun p => p.1.setup) h2).symm.trans (hlog _ _ _)).trans e1
    rename_i st2 h2
    have e2 : st2.setup = st.setup := ((congrArg (fun p => p.1.setup) h2).symm.trans (hlog _ _ _)).trans e1
    split
    · rename_i st3 e h3; exact ((congrArg (fun p => p.1.setup) h3).symm.trans (hlog _ _ _)).trans e2
    rename_i st3 h3
    have e3 : st3.setup = st.setup := ((congrArg (fun p => p.1.setup) h3).symm.trans (hlog _ _ _)).trans e2
    split
    · exact e3
    dsimp only
    repeat' split
    all_goals exact e3
  have hstep : ∀ (st : LqrSt K) (op : LqrOp K), st.setup = true → (E.exec st op).1.setup = true := by
    intro st op h
    cases op with
    | setHorizon N => exact h
    | setTStep t => exact h
    | setObjective Q R P => simp [LqrEnv.exec, LqrEnv.setObjective, h]
    | setRterm d => exact h
    | setup =>
      simp only [LqrEnv.exec, LqrEnv.setupCall]
      repeat' split
      all_goals first | exact h | rfl
    | setSetpoint x u => exact (hsp st x u).trans h
    | makeStep x =>
      have : (E.makeStep st x).1.setup = true := by
        unfold LqrEnv.makeStep
        simp only [h, Bool.not_true, Bool.false_eq_true, if_false]
        have h1 : (if st.xss.isNone ∧ st.uss.isNone then E.setSetpoint st none none else (st, none)).1.setup = true := by
          split
          · exact (hsp _ _ _).trans h
          · exact h
        generalize (if st.xss.isNone ∧ st.uss.isNone then E.setSetpoint st none none else (st, none)) = q at h1
        obtain ⟨st1, err⟩ := q
        dsimp only at h1 ⊢
        repeat' split
        all_goals first | exact h1 | exact (hrec _ _ _).trans h1
      simp only [LqrEnv.exec]
      split <;> rename_i hq <;> rw [hq] at this <;> exact this
    | setU0 u => simp only [LqrEnv.exec]; split <;> exact h
    | resetHistory => exact h
  induction ops with
  | nil =>
    intro st h
    exact ⟨h, by simp [LqrEnv.run, LqrEnv.exec, LqrEnv.setObjective, h]⟩
  | cons op ops ih => intro st h; exact ih _ (hstep st op h)

/-- **C37 is false for the input rate penalty of the LQR**: on every controller set up in standard mode, `set_rterm` is accepted after `setup`,
and the next `make_step` raises. -/
theorem C37_fails_lqr_set_rterm (E : LqrEnv K) (cfg : List (LqrOp K)) (h : K) (G : Matrix (Fin E.nu) (Fin E.nx) K) (st : LqrSt K)
    (hr : StdReady E cfg h G st) (dR : NpMat K) (x : Vec K E.nx) :
    (E.exec st (.setRterm dR)).2.1 = none ∧ (E.exec (E.exec st (.setRterm dR)).1 (.makeStep (.col x))).2 = (some "ValueError", none) := by
  obtain ⟨hrel, hx, hu⟩ := rel_init E h _ .standard _ st hr.setup hr.mode (fresh_run E cfg _ hr.config (fresh_new E)) hr.gain hr.ts
  refine ⟨rfl, ?_⟩
  have hmul : ∀ v : Vec K (E.nx + E.nu), (NpMat.of G).mul (.col v) = .error "ValueError" := by
    intro v
    have := hr.nu
    exact dif_neg (by show ¬ E.nx = E.nx + E.nu; omega)
  set st1 := (E.exec st (.setRterm dR)).1 with hst1
  have h1 : E.setSetpoint st1 none none = ({ st1 with xss := some (.col (Fin.append (0 : Vec K E.nx) (0 : Vec K E.nu))), uss := some (.col (0 : Vec K E.nu)) }, none) := by
    have e1 : st1.xss = none := hx
    have e2 : st1.uss = none := hu
    have e3 : st1.mode = .rate := rfl
    have e4 : st1.setup = true := hrel.setup
    unfold LqrEnv.setSetpoint
    simp only [e1, e2, e3, e4, Bool.not_true, Bool.false_eq_true, if_false, Option.or_none, Option.getD_none]
    rw [zeros_col, zeros_col, vstack_col]
    simp [NpMat.shape]
  have hm : E.makeStep st1 (.col x) = ({ st1 with xss := some (.col (Fin.append (0 : Vec K E.nx) (0 : Vec K E.nu))), uss := some (.col (0 : Vec K E.nu)) }, .error "ValueError") := by
    have e4 : st1.setup = true := hrel.setup
    have e1 : st1.xss = none := hx
    have e2 : st1.uss = none := hu
    have e5 : st1.gain = some (.of G) := hrel.gain
    have e6 : st1.u0 = .col (LqrView.init E.nx E.nu).uLast := hrel.u0
    have e3 : st1.mode = .rate := rfl
    unfold LqrEnv.makeStep
    simp only [e4, Bool.not_true, Bool.false_eq_true, if_false, e1, e2, Option.isNone_none, and_self, if_true, h1, e5, e3, e6, lqrLaw]
    rw [vstack_col]
    simp only [bind, Except.bind]
    rw [sub_col]
    simp only [hmul]
  simp only [LqrEnv.exec, hm]

/-! ## setup twice (C40) -/

/-- **C40 (LQR, standard mode).**  Calling `setup` again changes nothing. -/
theorem C40_lqr_standard (E : LqrEnv K) (st st' : LqrSt K) (hm : st.mode = .standard) (h : E.setupCall st = (st', none)) :
    E.setupCall st' = (st', none) := by
  unfold LqrEnv.setupCall at h ⊢
  rw [hm] at h
  cases ht : st.tStep with
  | none => simp [ht] at h
  | some t =>
    simp only [ht] at h
    cases hg : E.discreteGain st (.of E.A) (.of E.B) with
    | error e => simp [hg] at h
    | ok g =>
      simp only [hg, Prod.mk.injEq, and_true] at h
      subst h
      have : E.discreteGain { st with gain := some g, setup := true } (.of E.A) (.of E.B) = .ok g := hg
      simp only [ht, hm] at this ⊢
      rw [this]

/-- **C40 is false for an LQR with input rate penalty**: calling `setup` a second time raises, because the weights are augmented again, and
leaves the controller with the twice augmented weights. -/
theorem C40_fails_lqr_rate (E : LqrEnv K) (hn : 0 < E.nx) (hm : 0 < E.nu) (h : K) (N : Nat) (Q P : Matrix (Fin E.nx) (Fin E.nx) K)
    (R dR : Matrix (Fin E.nu) (Fin E.nu) K) (hQ : Psd Q) (hP : Psd P) (hR : Psd R) (hdR : Pd dR) :
    let r := E.exec (E.run E.new (rateCfg h N Q P R dR ++ [.setup])) .setup
    r.2.1 = some "ValueError" ∧ r.1.Q.map NpMat.shape = some (E.nx + E.nu + E.nu, E.nx + E.nu + E.nu) := by
  intro r
  obtain ⟨_, hst⟩ := rateReady_finite E hn hm h N Q P R dR hQ hP hR hdR
  set st := E.run E.new (rateCfg h N Q P R dR ++ [.setup])
  have hblk : ∀ M : Matrix (Fin (E.nx + E.nu)) (Fin (E.nx + E.nu)) K,
      NpMat.block (.of M) (NpMat.zeros (E.nx + E.nu) E.nu) (NpMat.zeros E.nu (E.nx + E.nu)) (.of dR) = .ok (.of (blk M 0 0 dR)) :=
    fun M => NpMat.block_of M 0 0 dR
  have hmul : ∀ M : Matrix (Fin (E.nx + E.nu + E.nu)) (Fin (E.nx + E.nu + E.nu)) K, (NpMat.of E.bRated).T.mul (.of M) = .error "ValueError" := by
    intro M
    unfold NpMat.mul
    exact dif_neg (by simp only [NpMat.T]; omega)
  have hs1 : (NpMat.of (blk (blk Q 0 0 R) 0 0 dR)).size ≠ 0 := by simp only [NpMat.size]; positivity
  have hs3 : (NpMat.of (blk (blk P 0 0 R) 0 0 dR)).size ≠ 0 := by simp only [NpMat.size]; positivity
  have hs2 : (NpMat.of dR).size ≠ 0 := by simp only [NpMat.size]; positivity
  have hgain : ∀ st' : LqrSt K, st'.Q = some (.of (blk (blk Q 0 0 R) 0 0 dR)) → st'.R = some (.of dR) → st'.P = some (.of (blk (blk P 0 0 R) 0 0 dR)) →
      st'.horizon = some (N + 1) → E.discreteGain st' (.of E.aRated) (.of E.bRated) = .error "ValueError" := by
    intro st' h1 h2 h3 h4
    simp only [LqrEnv.discreteGain, h1, h2, h3, h4, hs1, hs2, hs3, ne_eq, not_false_eq_true, and_self, if_true, gainLoop, riccatiPass, hmul, bind, Except.bind]
  have hset : E.setupCall st = ({ st with Q := some (.of (blk (blk Q 0 0 R) 0 0 dR)), P := some (.of (blk (blk P 0 0 R) 0 0 dR)), R := some (.of dR) }, some "ValueError") := by
    have hg := hgain { st with Q := some (.of (blk (blk Q 0 0 R) 0 0 dR)), P := some (.of (blk (blk P 0 0 R) 0 0 dR)), R := some (.of dR) } rfl rfl rfl
      (by rw [hst]; rfl)
    unfold LqrEnv.setupCall
    have e1 : st.tStep = some h := by rw [hst]; rfl
    have e2 : st.mode = .rate := by rw [hst]; rfl
    have e3 : st.Q = some (.of (blk Q 0 0 R)) := by rw [hst]; rfl
    have e4 : st.R = some (.of dR) := by rw [hst]; rfl
    have e5 : st.P = some (.of (blk P 0 0 R)) := by rw [hst]; rfl
    have e6 : st.rated = some (.of E.aRated, .of E.bRated) := by rw [hst]; rfl
    have e7 : st.horizon = some (N + 1) := by rw [hst]; rfl
    have e8 : st.delR = some (.of dR) := by rw [hst]; rfl
    simp only [e1, e2, e3, e4, e5, e6, e7, e8, hblk, Except.map] at hg ⊢
    rw [hg]
  have hr : r = ((E.setupCall st).1, (E.setupCall st).2, none) := rfl
  rw [hr, hset]
  exact ⟨rfl, rfl⟩

/-! ## concrete cases -/

/-- the double integrator -/
def exLqr : LqrEnv ℚ := ⟨2, 1, !![1, 1; 0, 1], !![0; 1], fun _ _ _ _ => .error "LinAlgError"⟩

theorem one_pd {n : Nat} : Pd (1 : Matrix (Fin n) (Fin n) ℚ) := by
  refine ⟨transpose_one, fun x hx => ?_⟩
  have : qf (1 : Matrix (Fin n) (Fin n) ℚ) x = ∑ i, x i * x i := by simp [qf, dotProduct]
  rw [this]
  obtain ⟨i, hi⟩ := Function.ne_iff.1 hx
  exact Finset.sum_pos' (fun j _ => mul_self_nonneg _) ⟨i, Finset.mem_univ _, mul_self_pos.2 hi⟩

/-- a history that changes the state set point to an equilibrium -/
def exCalls : List (LqrCall ℚ 2 1) := [.makeStep ![3, 1], .setSetpoint (some ![4, 0]) none, .makeStep ![1, 1], .resetHistory]

/-- The hypotheses of the theorems hold for the double integrator with unit weights, and the returned input is the first one of the
minimisers. -/
example : ∃ u, (exLqr.exec (exLqr.run exLqr.new (finiteCfg (n := 2) (m := 1) (1/2 : ℚ) 4 1 1 1 ++ [.setup] ++ exCalls.map LqrCall.op))
    (.makeStep (.col ![(2 : ℚ), 0]))).2 = (none, some (.col u)) ∧
    ∀ w, Minimises (trackCost exLqr.A exLqr.B 1 1 1 ![4, 0] 0 5 ![2, 0]) w → w 0 = u := by
  obtain ⟨u, h1, _, h3⟩ := C34_make_step_optimal exLqr (by decide) (by decide) (1/2) 4 1 1 1 one_pd.psd one_pd.psd one_pd exCalls ![2, 0]
    (by
      change (!![1, 1; 0, 1] : Matrix (Fin 2) (Fin 2) ℚ) *ᵥ (![4, 0] : Vec ℚ 2) + (!![0; 1] : Matrix (Fin 2) (Fin 1) ℚ) *ᵥ (0 : Vec ℚ 1) = (![4, 0] : Vec ℚ 2)
      funext i
      fin_cases i <;> simp)
  exact ⟨u, h1, h3⟩

/-- a controller with input rate penalty is reachable, so the theorems on rate mode are not vacuous -/
example : ∃ st, RateReady exLqr (rateCfg (n := 2) (m := 1) (1/2 : ℚ) 4 1 1 1 1) (1/2) (rateGain exLqr 4 1 1 1 1) st :=
  ⟨_, (rateReady_finite exLqr (by decide) (by decide) (1/2) 4 1 1 1 1 one_pd.psd one_pd.psd one_pd.psd one_pd).1⟩

/-- the one-state system `x⁺ = x + u` with a horizon of one step and unit weights has the gain `−1/2` -/
example : gainLoop (K := ℚ) (.of !![1]) (.of !![1]) (.of !![1]) (.of !![1]) 1 (.of !![1]) none = .ok (.of !![-1/2]) := by
  have hG : ricG !![(1 : ℚ)] !![1] !![1] = !![2] := by
    ext i j; fin_cases i; fin_cases j; norm_num [ricG, Matrix.mul_apply]
  have hd : (ricG !![(1 : ℚ)] !![1] !![1]).det ≠ 0 := by rw [hG]; simp
  have hp := riccatiPass_of !![(1 : ℚ)] !![1] !![1] !![1] !![1] hd
  simp only [gainLoop, hp, bind, Except.bind]
  congr 2
  ext i j; fin_cases i; fin_cases j
  simp [ricK, hG, Matrix.inv_def, Ring.inverse_eq_inv', Matrix.mul_apply]
  try norm_num

end DoMpc
