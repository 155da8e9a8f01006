import Verif.Props.Lqr
import Verif.Lemmas.Data
import Mathlib.Tactic.FinCases

/-! # LQR at run time: C35 (control law and record), C36 (set points), and optimality of what `make_step` returns (C34) -/
set_option linter.unusedSectionVars false
namespace DoMpc
open Matrix Spec
variable {K : Type} [Field K] [LinearOrder K] [IsStrictOrderedRing K]

/-! ## columns -/

theorem mul_col {a n : Nat} (G : Matrix (Fin a) (Fin n) K) (v : Vec K n) :
    (NpMat.of G).mul (NpMat.col v) = .ok (NpMat.col (G *ᵥ v)) :=
  NpMat.mul_of G (Matrix.of fun i (_ : Fin 1) => v i)

theorem add_col {n : Nat} (v w : Vec K n) : (NpMat.col v).add (NpMat.col w) = .ok (NpMat.col (v + w)) :=
  NpMat.add_of (Matrix.of fun i (_ : Fin 1) => v i) (Matrix.of fun i (_ : Fin 1) => w i)

theorem sub_col {n : Nat} (v w : Vec K n) : (NpMat.col v).sub (NpMat.col w) = .ok (NpMat.col (v - w)) :=
  NpMat.sub_of (Matrix.of fun i (_ : Fin 1) => v i) (Matrix.of fun i (_ : Fin 1) => w i)

theorem vstack_col {a b : Nat} (v : Vec K a) (w : Vec K b) :
    (NpMat.col v).vstack (NpMat.col w) = .ok (NpMat.col (Fin.append v w)) := by
  refine (NpMat.vstack_of (Matrix.of fun i (_ : Fin 1) => v i) (Matrix.of fun i (_ : Fin 1) => w i)).trans ?_
  refine congrArg (fun M => Except.ok (NpMat.of M)) ?_
  funext i j
  refine Fin.addCases (fun i => ?_) (fun i => ?_) i <;> simp [vblk]

theorem zeros_col (n : Nat) : (NpMat.zeros n 1 : NpMat K) = NpMat.col (0 : Vec K n) := rfl

theorem flat_col {n : Nat} (v : Vec K n) : (NpMat.col v).flat = List.ofFn v := by
  unfold NpMat.flat
  show (List.ofFn fun i : Fin n => List.ofFn fun _ : Fin 1 => v i).flatten = List.ofFn v
  have : (List.ofFn fun i : Fin n => List.ofFn fun _ : Fin 1 => v i) = (List.ofFn v).map fun a => [a] := by
    rw [List.map_ofFn]
    congr 1
  rw [this]
  generalize List.ofFn v = l
  induction l with
  | nil => rfl
  | cons a l ih => simp [ih]

theorem npmat_flat_length (A : NpMat K) : A.flat.length = A.size := by
  simp [NpMat.flat, NpMat.size, List.length_flatten, List.map_ofFn, Function.comp_def]

theorem control_standard {n m : Nat} (hn : 0 < n) (hm : 0 < m) (G : Matrix (Fin m) (Fin n) K) (xs x : Vec K n) (us up : Vec K m) :
    lqrLaw .standard (.of G) (.col xs) (.col us) (.col x) (.col up) = .ok (.col (G *ᵥ (x - xs) + us)) := by
  have h1 : (NpMat.col xs).size ≠ 0 := by simp [NpMat.size]; omega
  have h2 : (NpMat.col us).size ≠ 0 := by simp [NpMat.size]; omega
  simp only [lqrLaw, h1, h2, ne_eq, not_false_eq_true, and_self, if_true, sub_col, mul_col, add_col, bind, Except.bind]

theorem control_rate {n m : Nat} (G : Matrix (Fin m) (Fin (n + m)) K) (xs x : Vec K n) (us up : Vec K m) :
    lqrLaw .rate (.of G) (.col (Fin.append xs us)) (.col (0 : Vec K m)) (.col x) (.col up)
      = .ok (.col (G *ᵥ (Fin.append x up - Fin.append xs us) + up)) := by
  simp only [lqrLaw, vstack_col, sub_col, mul_col, add_col, bind, Except.bind, add_zero]

/-- `record` succeeds for columns of the right length -/
theorem record_ok (E : LqrEnv K) (st : LqrSt K) (h : K) (x : Vec K E.nx) (u : Vec K E.nu) (hh : st.tStep = some h)
    (hf : st.data.fields = lqrFields E.nx E.nu) :
    ∃ D, E.record st (.col x) (.col u) = ({ st with data := D, t0 := st.t0 + h, x0 := .col x, u0 := .col u }, .ok (.col u)) ∧
      D.fields = lqrFields E.nx E.nu ∧ D.rows "_x" = st.data.rows "_x" ++ [List.ofFn x] ∧
      D.rows "_u" = st.data.rows "_u" ++ [List.ofFn u] ∧ D.rows "_time" = st.data.rows "_time" ++ [[st.t0]] := by
  have hl : List.lookup "_x" (lqrFields E.nx E.nu) = some E.nx := rfl
  have hl2 : List.lookup "_u" (lqrFields E.nx E.nu) = some E.nu := rfl
  have hl3 : List.lookup "_time" (lqrFields E.nx E.nu) = some 1 := rfl
  refine ⟨{ fields := st.data.fields, queries := st.data.queries, rows := fun k =>
      if k = "_time" then (if k = "_u" then (if k = "_x" then st.data.rows k ++ [List.ofFn x] else st.data.rows k) ++ [List.ofFn u]
        else (if k = "_x" then st.data.rows k ++ [List.ofFn x] else st.data.rows k)) ++ [[st.t0]]
      else (if k = "_u" then (if k = "_x" then st.data.rows k ++ [List.ofFn x] else st.data.rows k) ++ [List.ofFn u]
        else (if k = "_x" then st.data.rows k ++ [List.ofFn x] else st.data.rows k)) }, ?_, hf, ?_, ?_, ?_⟩
  · simp [LqrEnv.record, LqrSt.log, Data.update, Data.update1, Data.width, hf, hl, hl2, hl3, flat_col, NpMat.shape, hh]
  · simp
  · simp
  · simp

/-- the run-time calls with arrays of the right shapes -/
inductive LqrCall (K : Type) (nx nu : Nat) where
  | setSetpoint (xss : Option (Vec K nx)) (uss : Option (Vec K nu))
  | makeStep (x : Vec K nx)
  | setU0 (u : Vec K nu)
  | setHorizon (N : Option Nat)
  | resetHistory

/-- the call with its arrays as columns -/
def LqrCall.op {nx nu : Nat} : LqrCall K nx nu → LqrOp K
  | .setSetpoint x u => .setSetpoint (x.map NpMat.col) (u.map NpMat.col)
  | .makeStep x => .makeStep (.col x)
  | .setU0 u => .setU0 (.col u)
  | .setHorizon N => .setHorizon N
  | .resetHistory => .resetHistory

/-- What the user has asked for and sees: the set points (0 unless given), the input applied last, the time, and the record since the
last `reset_history`. -/
structure LqrView (K : Type) (nx nu : Nat) where
  xs : Vec K nx
  us : Vec K nu
  uLast : Vec K nu
  t : K
  log : List (K × Vec K nx × Vec K nu)

/-- nothing given, nothing applied yet -/
def LqrView.init (nx nu : Nat) : LqrView K nx nu := ⟨0, 0, 0, 0, []⟩

/-- The specified behaviour: `set_setpoint` replaces what is given and keeps the rest; `make_step` returns `law` of the set points, the
last input and the state, and appends time, state and input to the record. -/
def LqrView.step {nx nu : Nat} (h : K) (law : Vec K nx → Vec K nu → Vec K nu → Vec K nx → Vec K nu) (v : LqrView K nx nu) :
    LqrCall K nx nu → LqrView K nx nu × Option (Vec K nu)
  | .setSetpoint x u => ({ v with xs := x.getD v.xs, us := u.getD v.us }, none)
  | .makeStep x =>
    let u := law v.xs v.us v.uLast x
    ({ v with uLast := u, t := v.t + h, log := v.log ++ [(v.t, x, u)] }, some u)
  | .setU0 u => ({ v with uLast := u }, none)
  | .setHorizon _ => (v, none)
  | .resetHistory => ({ v with t := 0, log := [] }, none)

/-- the specified results of a sequence of calls -/
def LqrView.outs {nx nu : Nat} (h : K) (law : Vec K nx → Vec K nu → Vec K nu → Vec K nx → Vec K nu) (v : LqrView K nx nu) :
    List (LqrCall K nx nu) → List (Option (Vec K nu))
  | [] => []
  | c :: rest => (v.step h law c).2 :: ((v.step h law c).1.outs h law rest)

/-- the specified state after a sequence of calls -/
def LqrView.after {nx nu : Nat} (h : K) (law : Vec K nx → Vec K nu → Vec K nu → Vec K nx → Vec K nu) (v : LqrView K nx nu) :
    List (LqrCall K nx nu) → LqrView K nx nu
  | [] => v
  | c :: rest => (v.step h law c).1.after h law rest

/-- the parts of the object's state that do not depend on the mode agree with the view -/
structure LqrRel (E : LqrEnv K) (h : K) (g : NpMat K) (md : LqrMode) (st : LqrSt K) (v : LqrView K E.nx E.nu) : Prop where
  setup : st.setup = true
  mode : st.mode = md
  gain : st.gain = some g
  ts : st.tStep = some h
  u0 : st.u0 = .col v.uLast
  t0 : st.t0 = v.t
  fields : st.data.fields = lqrFields E.nx E.nu
  rx : st.data.rows "_x" = v.log.map fun e => List.ofFn e.2.1
  ru : st.data.rows "_u" = v.log.map fun e => List.ofFn e.2.2
  rt : st.data.rows "_time" = v.log.map fun e => [e.1]

/-- set points in standard mode: both attributes missing and nothing given, or both columns -/
def spStd (E : LqrEnv K) (st : LqrSt K) (v : LqrView K E.nx E.nu) : Prop :=
  (st.xss = none ∧ st.uss = none ∧ v.xs = 0 ∧ v.us = 0) ∨ (st.xss = some (.col v.xs) ∧ st.uss = some (.col v.us))

/-- set points in rate mode -/
def spRate (E : LqrEnv K) (st : LqrSt K) (v : LqrView K E.nx E.nu) : Prop :=
  (st.xss = none ∧ st.uss = none ∧ v.xs = 0 ∧ v.us = 0) ∨ (st.xss = some (.col (Fin.append v.xs v.us)) ∧ st.uss = some (.col (0 : Vec K E.nu)))

theorem step_record (E : LqrEnv K) (h : K) (g : NpMat K) (md : LqrMode) (st : LqrSt K) (v : LqrView K E.nx E.nu)
    (hr : LqrRel E h g md st v) (x : Vec K E.nx) (u : Vec K E.nu) :
    ∃ st', E.record st (.col x) (.col u) = (st', .ok (.col u)) ∧ st'.xss = st.xss ∧ st'.uss = st.uss ∧
      LqrRel E h g md st' { v with uLast := u, t := v.t + h, log := v.log ++ [(v.t, x, u)] } := by
  obtain ⟨D, hD, hf, hx, hu, ht⟩ := record_ok E st h x u hr.ts hr.fields
  refine ⟨_, hD, rfl, rfl, ⟨hr.setup, hr.mode, hr.gain, hr.ts, rfl, ?_, hf, ?_, ?_, ?_⟩⟩
  · simp [hr.t0]
  · simp [hx, hr.rx]
  · simp [hu, hr.ru]
  · simp [ht, hr.rt, hr.t0]

/-- other calls than set points and steps -/
theorem step_other (E : LqrEnv K) (h : K) (g : NpMat K) (md : LqrMode) (law) (st : LqrSt K) (v : LqrView K E.nx E.nu)
    (hr : LqrRel E h g md st v) (c : LqrCall K E.nx E.nu) (hc : (∃ u, c = .setU0 u) ∨ (∃ N, c = .setHorizon N) ∨ c = .resetHistory) :
    (E.exec st c.op).2 = (none, none) ∧ (v.step h law c).2 = none ∧ (E.exec st c.op).1.xss = st.xss ∧ (E.exec st c.op).1.uss = st.uss ∧
      (v.step h law c).1.xs = v.xs ∧ (v.step h law c).1.us = v.us ∧ LqrRel E h g md (E.exec st c.op).1 (v.step h law c).1 := by
  rcases hc with ⟨u, rfl⟩ | ⟨N, rfl⟩ | rfl
  · simp only [LqrCall.op, LqrEnv.exec, NpMat.shape, if_true, LqrView.step, true_and]
    exact ⟨hr.setup, hr.mode, hr.gain, hr.ts, rfl, hr.t0, hr.fields, hr.rx, hr.ru, hr.rt⟩
  · simp only [LqrCall.op, LqrEnv.exec, LqrView.step, true_and]
    exact ⟨hr.setup, hr.mode, hr.gain, hr.ts, hr.u0, hr.t0, hr.fields, hr.rx, hr.ru, hr.rt⟩
  · simp only [LqrCall.op, LqrEnv.exec, LqrView.step, true_and]
    refine ⟨hr.setup, hr.mode, hr.gain, hr.ts, hr.u0, rfl, hr.fields, ?_, ?_, ?_⟩ <;>
      simp [Data.initStorage, Data.width, hr.fields, lqrFields, List.lookup]

theorem step_standard (E : LqrEnv K) (hn : 0 < E.nx) (hm : 0 < E.nu) (h : K) (G : Matrix (Fin E.nu) (Fin E.nx) K) (st : LqrSt K)
    (v : LqrView K E.nx E.nu) (hr : LqrRel E h (.of G) .standard st v) (hs : spStd E st v) (c : LqrCall K E.nx E.nu) :
    let law := fun xs us (_ : Vec K E.nu) x => G *ᵥ (x - xs) + us
    (E.exec st c.op).2 = (none, ((v.step h law c).2).map NpMat.col) ∧ LqrRel E h (.of G) .standard (E.exec st c.op).1 (v.step h law c).1 ∧
      spStd E (E.exec st c.op).1 (v.step h law c).1 := by
  intro law
  have hset : ∀ (x : Option (Vec K E.nx)) (u : Option (Vec K E.nu)), E.setSetpoint st (x.map NpMat.col) (u.map NpMat.col)
      = ({ st with xss := some (.col (x.getD v.xs)), uss := some (.col (u.getD v.us)) }, none) := by
    intro x u
    have hx : ((x.map NpMat.col).or st.xss).getD (NpMat.zeros E.nx 1) = .col (x.getD v.xs) := by
      cases x with
      | some x => rfl
      | none =>
        rcases hs with ⟨a, b, c, d⟩ | ⟨a, b⟩
        · simp [a, c]; rfl
        · simp [a]
    have hu : ((u.map NpMat.col).or st.uss).getD (NpMat.zeros E.nu 1) = .col (u.getD v.us) := by
      cases u with
      | some x => rfl
      | none =>
        rcases hs with ⟨a, b, c, d⟩ | ⟨a, b⟩
        · simp [b, d]; rfl
        · simp [b]
    simp only [LqrEnv.setSetpoint, hr.setup, hr.mode, hx, hu, NpMat.shape]
    simp
  cases c with
  | setU0 u =>
    obtain ⟨h1, h2, h3, h4, h5, h6, h7⟩ := step_other E h (.of G) .standard law st v hr (.setU0 u) (.inl ⟨u, rfl⟩)
    refine ⟨by rw [h1, h2]; rfl, h7, ?_⟩
    simpa only [spStd, h3, h4, h5, h6] using hs
  | setHorizon N =>
    obtain ⟨h1, h2, h3, h4, h5, h6, h7⟩ := step_other E h (.of G) .standard law st v hr (.setHorizon N) (.inr (.inl ⟨N, rfl⟩))
    refine ⟨by rw [h1, h2]; rfl, h7, ?_⟩
    simpa only [spStd, h3, h4, h5, h6] using hs
  | resetHistory =>
    obtain ⟨h1, h2, h3, h4, h5, h6, h7⟩ := step_other E h (.of G) .standard law st v hr .resetHistory (.inr (.inr rfl))
    refine ⟨by rw [h1, h2]; rfl, h7, ?_⟩
    simpa only [spStd, h3, h4, h5, h6] using hs
  | setSetpoint x u =>
    simp only [LqrCall.op, LqrEnv.exec, hset, LqrView.step, Option.map_none, true_and]
    exact ⟨⟨hr.setup, hr.mode, hr.gain, hr.ts, hr.u0, hr.t0, hr.fields, hr.rx, hr.ru, hr.rt⟩, .inr ⟨rfl, rfl⟩⟩
  | makeStep x =>
    -- the set points used
    have hsp : ∃ st1, (if st.xss.isNone = true ∧ st.uss.isNone = true then E.setSetpoint st none none else (st, none)) = (st1, none) ∧
        LqrRel E h (.of G) .standard st1 v ∧ st1.xss = some (.col v.xs) ∧ st1.uss = some (.col v.us) := by
      rcases hs with ⟨a, b, c, d⟩ | ⟨a, b⟩
      · refine ⟨{ st with xss := some (.col v.xs), uss := some (.col v.us) }, ?_,
          ⟨hr.setup, hr.mode, hr.gain, hr.ts, hr.u0, hr.t0, hr.fields, hr.rx, hr.ru, hr.rt⟩, rfl, rfl⟩
        rw [if_pos (by simp [a, b])]
        exact hset none none
      · exact ⟨st, by rw [if_neg (by simp [a])], hr, a, b⟩
    obtain ⟨st1, e1, hr1, hx, hu⟩ := hsp
    obtain ⟨st2, e2, e3, e4, hr2⟩ := step_record E h (.of G) .standard st1 v hr1 x (law v.xs v.us v.uLast x)
    have : E.makeStep st (.col x) = (st2, .ok (.col (law v.xs v.us v.uLast x))) := by
      unfold LqrEnv.makeStep
      simp only [hr.setup, Bool.not_true, Bool.false_eq_true, if_false, e1, hr1.gain, hx, hu, hr1.mode, hr1.u0]
      rw [control_standard hn hm]
      exact e2
    simp only [LqrCall.op, LqrEnv.exec, this, LqrView.step, Option.map_some, true_and]
    exact ⟨hr2, .inr ⟨by rw [e3, hx], by rw [e4, hu]⟩⟩

theorem step_rate (E : LqrEnv K) (h : K) (G : Matrix (Fin E.nu) (Fin (E.nx + E.nu)) K) (st : LqrSt K)
    (v : LqrView K E.nx E.nu) (hr : LqrRel E h (.of G) .rate st v) (hs : spRate E st v) (c : LqrCall K E.nx E.nu)
    (hc : ∀ x u, c = .setSetpoint x u → x.isSome ∧ u.isSome) :
    let law := fun xs us uLast x => G *ᵥ (Fin.append x uLast - Fin.append xs us) + uLast
    (E.exec st c.op).2 = (none, ((v.step h law c).2).map NpMat.col) ∧ LqrRel E h (.of G) .rate (E.exec st c.op).1 (v.step h law c).1 ∧
      spRate E (E.exec st c.op).1 (v.step h law c).1 := by
  intro law
  cases c with
  | setU0 u =>
    obtain ⟨h1, h2, h3, h4, h5, h6, h7⟩ := step_other E h (.of G) .rate law st v hr (.setU0 u) (.inl ⟨u, rfl⟩)
    refine ⟨by rw [h1, h2]; rfl, h7, ?_⟩
    simpa only [spRate, h3, h4, h5, h6] using hs
  | setHorizon N =>
    obtain ⟨h1, h2, h3, h4, h5, h6, h7⟩ := step_other E h (.of G) .rate law st v hr (.setHorizon N) (.inr (.inl ⟨N, rfl⟩))
    refine ⟨by rw [h1, h2]; rfl, h7, ?_⟩
    simpa only [spRate, h3, h4, h5, h6] using hs
  | resetHistory =>
    obtain ⟨h1, h2, h3, h4, h5, h6, h7⟩ := step_other E h (.of G) .rate law st v hr .resetHistory (.inr (.inr rfl))
    refine ⟨by rw [h1, h2]; rfl, h7, ?_⟩
    simpa only [spRate, h3, h4, h5, h6] using hs
  | setSetpoint x u =>
    obtain ⟨hx, hu⟩ := hc x u rfl
    obtain ⟨x, rfl⟩ := Option.isSome_iff_exists.1 hx
    obtain ⟨u, rfl⟩ := Option.isSome_iff_exists.1 hu
    have : E.setSetpoint st (some (.col x)) (some (.col u))
        = ({ st with xss := some (.col (Fin.append x u)), uss := some (.col (0 : Vec K E.nu)) }, none) := by
      simp only [LqrEnv.setSetpoint, hr.setup, hr.mode, Option.some_or, Option.getD_some, vstack_col]
      simp [NpMat.shape, zeros_col]
    simp only [LqrCall.op, LqrEnv.exec, Option.map_some, this, LqrView.step, Option.map_none, true_and]
    exact ⟨⟨hr.setup, hr.mode, hr.gain, hr.ts, hr.u0, hr.t0, hr.fields, hr.rx, hr.ru, hr.rt⟩, .inr ⟨rfl, rfl⟩⟩
  | makeStep x =>
    have hsp : ∃ st1, (if st.xss.isNone = true ∧ st.uss.isNone = true then E.setSetpoint st none none else (st, none)) = (st1, none) ∧
        LqrRel E h (.of G) .rate st1 v ∧ st1.xss = some (.col (Fin.append v.xs v.us)) ∧ st1.uss = some (.col (0 : Vec K E.nu)) := by
      rcases hs with ⟨a, b, c, d⟩ | ⟨a, b⟩
      · refine ⟨{ st with xss := some (.col (Fin.append v.xs v.us)), uss := some (.col (0 : Vec K E.nu)) }, ?_,
          ⟨hr.setup, hr.mode, hr.gain, hr.ts, hr.u0, hr.t0, hr.fields, hr.rx, hr.ru, hr.rt⟩, rfl, rfl⟩
        rw [if_pos (by simp [a, b])]
        simp only [LqrEnv.setSetpoint, hr.setup, hr.mode, a, b, c, d, Option.or_none, Option.getD_none, zeros_col, vstack_col]
        simp [NpMat.shape]
      · exact ⟨st, by rw [if_neg (by simp [a])], hr, a, b⟩
    obtain ⟨st1, e1, hr1, hx, hu⟩ := hsp
    obtain ⟨st2, e2, e3, e4, hr2⟩ := step_record E h (.of G) .rate st1 v hr1 x (law v.xs v.us v.uLast x)
    have : E.makeStep st (.col x) = (st2, .ok (.col (law v.xs v.us v.uLast x))) := by
      unfold LqrEnv.makeStep
      simp only [hr.setup, Bool.not_true, Bool.false_eq_true, if_false, e1, hr1.gain, hx, hu, hr1.mode, hr1.u0]
      rw [control_rate]
      exact e2
    simp only [LqrCall.op, LqrEnv.exec, this, LqrView.step, Option.map_some, true_and]
    exact ⟨hr2, .inr ⟨by rw [e3, hx], by rw [e4, hu]⟩⟩

theorem run_standard (E : LqrEnv K) (hn : 0 < E.nx) (hm : 0 < E.nu) (h : K) (G : Matrix (Fin E.nu) (Fin E.nx) K) (cs : List (LqrCall K E.nx E.nu)) :
    let law := fun xs us (_ : Vec K E.nu) x => G *ᵥ (x - xs) + us
    ∀ (st : LqrSt K) (v : LqrView K E.nx E.nu), LqrRel E h (.of G) .standard st v → spStd E st v →
      E.trace st (cs.map LqrCall.op) = (v.outs h law cs).map (fun o => (none, o.map NpMat.col)) ∧
        LqrRel E h (.of G) .standard (E.run st (cs.map LqrCall.op)) (v.after h law cs) ∧ spStd E (E.run st (cs.map LqrCall.op)) (v.after h law cs) := by
  intro law
  induction cs with
  | nil => intro st v hr hs; exact ⟨rfl, hr, hs⟩
  | cons c cs ih =>
    intro st v hr hs
    obtain ⟨a, b, d⟩ := step_standard E hn hm h G st v hr hs c
    obtain ⟨e, f, g⟩ := ih _ _ b d
    refine ⟨?_, f, g⟩
    simp only [List.map_cons, LqrEnv.trace, LqrView.outs, e, a]
    rfl

theorem run_rate (E : LqrEnv K) (h : K) (G : Matrix (Fin E.nu) (Fin (E.nx + E.nu)) K) (cs : List (LqrCall K E.nx E.nu))
    (hcs : ∀ x u, LqrCall.setSetpoint x u ∈ cs → x.isSome ∧ u.isSome) :
    let law := fun xs us uLast x => G *ᵥ (Fin.append x uLast - Fin.append xs us) + uLast
    ∀ (st : LqrSt K) (v : LqrView K E.nx E.nu), LqrRel E h (.of G) .rate st v → spRate E st v →
      E.trace st (cs.map LqrCall.op) = (v.outs h law cs).map (fun o => (none, o.map NpMat.col)) ∧
        LqrRel E h (.of G) .rate (E.run st (cs.map LqrCall.op)) (v.after h law cs) ∧ spRate E (E.run st (cs.map LqrCall.op)) (v.after h law cs) := by
  intro law
  induction cs with
  | nil => intro st v hr hs; exact ⟨rfl, hr, hs⟩
  | cons c cs ih =>
    intro st v hr hs
    obtain ⟨a, b, d⟩ := step_rate E h G st v hr hs c (fun x u hc => hcs x u (hc ▸ List.mem_cons_self))
    obtain ⟨e, f, g⟩ := ih (fun x u hm => hcs x u (List.mem_cons_of_mem _ hm)) _ _ b d
    refine ⟨?_, f, g⟩
    simp only [List.map_cons, LqrEnv.trace, LqrView.outs, e, a]
    rfl

end DoMpc
