import Verif.Props.LqrInf
import Verif.Props.ClosedLoop
import Mathlib.Analysis.Normed.Module.FiniteDimension
import Mathlib.Topology.Algebra.InfiniteSum.Real

/-! # Property C87: the closed loop of an LQR and a simulator of its model -/
set_option linter.unusedSectionVars false
namespace DoMpc
open Matrix Spec
variable {K : Type} [Field K] [LinearOrder K] [IsStrictOrderedRing K] {d : Dims}

/-- State of the user's loop: controller, simulator, current state as an array. -/
structure LqrLoop (K : Type) (d : Dims) where
  lqr : LqrSt K
  sim : SimSt K d
  x : NpMat K

/-- One iteration of `u = lqr.make_step(x); x = simulator.make_step(u)`; `none` if one of the calls raises.  The simulator refuses inputs
which are not a column (`/repo/do_mpc/simulator.py:643-651`); it returns a column. -/
def LqrLoop.step (E : LqrEnv K) (ES : SimEnv K d) (l : LqrLoop K d) : Option (LqrLoop K d) :=
  match E.makeStep l.lqr l.x with
  | (_, .error _) => none
  | (q, .ok u) =>
    if u.c = 1 then
      match ES.makeStep l.sim { u := some u.flat } with
      | (_, .error _) => none
      | (s, .ok y) => some ⟨q, s, .col y⟩
    else none

/-- a number of iterations -/
def LqrLoop.iterate (E : LqrEnv K) (ES : SimEnv K d) (l : LqrLoop K d) : Nat → Option (LqrLoop K d)
  | 0 => some l
  | n + 1 => (l.iterate E ES n).bind (LqrLoop.step E ES)

/-- The LQR of a discrete linear model with the matrices `A` and `B`. -/
abbrev lqrFor (d : Dims) (A : Matrix (Fin d.nx) (Fin d.nx) K) (B : Matrix (Fin d.nx) (Fin d.nu) K)
    (dare : NpMat K → NpMat K → NpMat K → NpMat K → Except String (NpMat K)) : LqrEnv K := ⟨d.nx, d.nu, A, B, dare⟩

/-- The simulator of the discrete linear model `x⁺ = A x + B u`. -/
structure LinearPlant (ES : SimEnv K d) (A : Matrix (Fin d.nx) (Fin d.nx) K) (B : Matrix (Fin d.nx) (Fin d.nu) K) : Prop where
  discrete : ∃ root, ES.plant = .discrete root
  rhs : ∀ x u z tv p, ES.model.rhs x u z tv p 0 = A *ᵥ x + B *ᵥ u
  measured : StateMeasured ES.model

/-- **What the user sees**: every number `n` of iterations succeeds, and they append the states `X 0, …, X (n-1)`, the inputs `U 0, …` and
the times to both logs; the plant is then in `X n`. -/
def LqrLoop.Shows (E : LqrEnv K) (ES : SimEnv K d) (l : LqrLoop K d) (X : Nat → Vec K d.nx) (U : Nat → Vec K d.nu) : Prop :=
  ∀ n, ∃ l', l.iterate E ES n = some l' ∧ l'.sim.x0 = X n ∧ l'.x = .col (X n) ∧
    (∀ D D', (D, D') = (l.sim.data, l'.sim.data) ∨ (D, D') = (l.lqr.data, l'.lqr.data) →
      D'.rows "_x" = D.rows "_x" ++ (List.range n).map (fun k => List.ofFn (X k)) ∧
      D'.rows "_u" = D.rows "_u" ++ (List.range n).map (fun k => List.ofFn (U k))) ∧
    l'.sim.data.rows "_time" = l.sim.data.rows "_time" ++ (List.range n).map (fun (k : Nat) => [l.sim.t0 + (k : K) * ES.tStep])

theorem col_of_ofFn {a b : Nat} (v : Vec K a) (w : Vec K b) (h : List.ofFn v = List.ofFn w) : NpMat.col v = NpMat.col w := by
  have hl : a = b := by simpa using congrArg List.length h
  subst hl
  rw [List.ofFn_inj.mp h]

theorem sim_accepts (A : Matrix (Fin d.nx) (Fin d.nx) K) (B : Matrix (Fin d.nx) (Fin d.nu) K) (E : LqrEnv K) (ES : SimEnv K d)
    (hp : LinearPlant ES A B) (l : LqrLoop K d) (hs : l.sim.setup = true) (hf : l.sim.data.fields = simFields d) (q : LqrSt K) (u : Vec K d.nu)
    (hq : E.makeStep l.lqr l.x = (q, .ok (.col u))) :
    ∃ s, l.step E ES = some ⟨q, s, .col s.x0⟩ ∧ s.setup = true ∧ s.data.fields = simFields d ∧ s.x0 = A *ᵥ l.sim.x0 + B *ᵥ u ∧
      s.t0 = l.sim.t0 + ES.tStep ∧ s.data.rows "_x" = l.sim.data.rows "_x" ++ [List.ofFn l.sim.x0] ∧
      s.data.rows "_u" = l.sim.data.rows "_u" ++ [List.ofFn u] ∧ s.data.rows "_time" = l.sim.data.rows "_time" ++ [[l.sim.t0]] := by
  obtain ⟨y, hy⟩ := (C15_succeeds_iff ES l.sim hf { u := some (List.ofFn u) }).1 ⟨hs, by simp, by simp, by simp⟩
  obtain ⟨-, hy', hup, hst⟩ := simStep_ok ES l.sim _ y hy
  cases hS : ES.makeStep l.sim { u := some (List.ofFn u) } with
  | mk s' e =>
    rw [hS] at hy hst
    simp only at hy hst
    subst hy
    have hr := fun k => C17_update_appends _ _ hup k
    have hd := congrArg SimSt.data hst
    have hx := congrArg SimSt.x0 hst
    dsimp only at hd hx
    obtain ⟨root, hroot⟩ := hp.discrete
    have hsim : ∀ z tv p, (ES.simulate l.sim.x0 z u tv p 0).1 = A *ᵥ l.sim.x0 + B *ᵥ u := by
      intro z tv p
      simp only [SimEnv.simulate, hroot]
      exact hp.rhs _ _ _ _ _
    simp only [argument_ofFn, argument_none] at hx hd hy' hr
    refine ⟨s', ?_, by rw [hst], ?_, ?_, by rw [hst], ?_, ?_, ?_⟩
    · unfold LqrLoop.step
      rw [hq]
      have hS' : ES.makeStep l.sim { u := some (NpMat.col u).flat } = (s', .ok y) := by rw [flat_col]; exact hS
      have hcol : NpMat.col y = NpMat.col s'.x0 := by
        apply col_of_ofFn
        rw [hy', hx]
        exact hp.measured _ _ _ _ _
      simp only [if_true, hS', hcol]
    · rw [hd, Data.update_fields]; exact hf
    · rw [hx]; exact hsim _ _ _
    · rw [hd, hr]; simp [Spec.given, PyVal.vec]
    · rw [hd, hr]; simp [Spec.given, PyVal.vec]
    · rw [hd, hr]; simp [Spec.given, PyVal.vec]

/-- states and previous inputs of the plant under a control law -/
def lqrSeq (A : Matrix (Fin d.nx) (Fin d.nx) K) (B : Matrix (Fin d.nx) (Fin d.nu) K) (law : Vec K d.nu → Vec K d.nx → Vec K d.nu)
    (x0 : Vec K d.nx) (uPrev : Vec K d.nu) : Nat → Vec K d.nx × Vec K d.nu
  | 0 => (x0, uPrev)
  | k + 1 =>
    let s := lqrSeq A B law x0 uPrev k
    (A *ᵥ s.1 + B *ᵥ law s.2 s.1, law s.2 s.1)

theorem shows_of (A : Matrix (Fin d.nx) (Fin d.nx) K) (B : Matrix (Fin d.nx) (Fin d.nu) K) (dare) (ES : SimEnv K d)
    (hp : LinearPlant ES A B) (h : K) (g : NpMat K) (md : LqrMode) (law : Vec K d.nx → Vec K d.nu → Vec K d.nu → Vec K d.nx → Vec K d.nu)
    (Rel : LqrSt K → LqrView K d.nx d.nu → Prop)
    (hrel : ∀ st v, Rel st v → LqrRel (lqrFor d A B dare) h g md st v)
    (hstep : ∀ st v x, Rel st v → ∃ st', (lqrFor d A B dare).makeStep st (.col x) = (st', .ok (.col (law v.xs v.us v.uLast x))) ∧
      Rel st' (v.step h law (.makeStep x)).1)
    (l : LqrLoop K d) (v : LqrView K d.nx d.nu) (hv : Rel l.lqr v) (hs : l.sim.setup = true) (hf : l.sim.data.fields = simFields d)
    (hx : l.x = .col l.sim.x0) :
    let S := lqrSeq A B (law v.xs v.us) l.sim.x0 v.uLast
    l.Shows (lqrFor d A B dare) ES (fun k => (S k).1) (fun k => (S (k + 1)).2) := by
  intro S n
  have main : ∃ l' v', l.iterate (lqrFor d A B dare) ES n = some l' ∧ l'.sim.x0 = (S n).1 ∧ l'.x = .col (S n).1 ∧ Rel l'.lqr v' ∧ v'.xs = v.xs ∧
      v'.us = v.us ∧ v'.uLast = (S n).2 ∧ l'.sim.setup = true ∧ l'.sim.data.fields = simFields d ∧ l'.sim.t0 = l.sim.t0 + (n : K) * ES.tStep ∧
      l'.sim.data.rows "_x" = l.sim.data.rows "_x" ++ (List.range n).map (fun k => List.ofFn (S k).1) ∧
      l'.sim.data.rows "_u" = l.sim.data.rows "_u" ++ (List.range n).map (fun k => List.ofFn (S (k + 1)).2) ∧
      l'.sim.data.rows "_time" = l.sim.data.rows "_time" ++ (List.range n).map (fun (k : Nat) => [l.sim.t0 + (k : K) * ES.tStep]) ∧
      v'.log.map (fun e => List.ofFn e.2.1) = v.log.map (fun e => List.ofFn e.2.1) ++ (List.range n).map (fun k => List.ofFn (S k).1) ∧
      v'.log.map (fun e => List.ofFn e.2.2) = v.log.map (fun e => List.ofFn e.2.2) ++ (List.range n).map (fun k => List.ofFn (S (k + 1)).2) := by
    induction n with
    | zero => exact ⟨l, v, rfl, rfl, hx, hv, rfl, rfl, rfl, hs, hf, by simp, by simp, by simp, by simp, by simp, by simp⟩
    | succ n ih =>
      obtain ⟨l1, v1, i1, i2, i3, i4, i5, i6, i7, i8, i9, i10, i11, i12, i13, i14, i15⟩ := ih
      obtain ⟨q, hq, hq2⟩ := hstep l1.lqr v1 (S n).1 i4
      rw [← i3] at hq
      obtain ⟨s, s1, s2, s3, s4, s5, s6, s7, s8⟩ := sim_accepts A B (lqrFor d A B dare) ES hp l1 i8 i9 q _ hq
      have hu : law v1.xs v1.us v1.uLast (S n).1 = (S (n + 1)).2 := by rw [i5, i6, i7]; rfl
      have hx1 : s.x0 = (S (n + 1)).1 := by rw [s4, hu, i2]; rfl
      rw [hu] at s7
      refine ⟨⟨q, s, .col s.x0⟩, _, ?_, hx1, by rw [← hx1], hq2, i5, i6, hu, s2, s3, ?_, ?_, ?_, ?_, ?_, ?_⟩
      · simp only [LqrLoop.iterate, i1, Option.bind_some, s1]
      · simp only [s5, i10]; push_cast; ring
      · rw [s6, i11, i2, List.range_succ]; simp
      · rw [s7, i12, List.range_succ]; simp
      · rw [s8, i13, i10, List.range_succ]; simp
      · simp only [LqrView.step, List.map_append, i14, List.range_succ]; simp
      · simp only [LqrView.step, List.map_append, i15, List.range_succ, hu]; simp
  obtain ⟨l', v', i1, i2, i3, i4, i5, i6, i7, i8, i9, i10, i11, i12, i13, i14, i15⟩ := main
  refine ⟨l', i1, i2, i3, ?_, i13⟩
  rintro D D' (hD | hD)
  · obtain ⟨rfl, rfl⟩ := Prod.mk.injEq .. ▸ hD
    exact ⟨i11, i12⟩
  · obtain ⟨rfl, rfl⟩ := Prod.mk.injEq .. ▸ hD
    have a := hrel _ _ hv
    have b := hrel _ _ i4
    exact ⟨by rw [a.rx, b.rx, i14], by rw [a.ru, b.ru, i15]⟩

/-! ## configuration with an infinite horizon -/

/-- calls that configure an infinite-horizon LQR -/
def infiniteCfg {n m : Nat} (h : K) (Q : Matrix (Fin n) (Fin n) K) (R : Matrix (Fin m) (Fin m) K) : List (LqrOp K) :=
  [.setTStep h, .setHorizon none, .setObjective (.of Q) (.of R) none]

/-- calls that configure an infinite-horizon LQR with input rate penalty -/
def infiniteRateCfg {n m : Nat} (h : K) (Q : Matrix (Fin n) (Fin n) K) (R dR : Matrix (Fin m) (Fin m) K) : List (LqrOp K) :=
  infiniteCfg h Q R ++ [.setRterm (.of dR)]

section
variable {n m : Nat}

theorem discreteGain_infinite (E : LqrEnv K) (st : LqrSt K) (A Q Pi : Matrix (Fin n) (Fin n) K) (B : Matrix (Fin n) (Fin m) K)
    (R : Matrix (Fin m) (Fin m) K) (hn : 0 < n) (hm : 0 < m) (hR : Pd R)
    (h1 : st.Q = some (.of Q)) (h2 : st.R = some (.of R)) (h4 : st.horizon = none)
    (hd : E.dare (.of A) (.of B) (.of Q) (.of R) = .ok (.of Pi)) (hPi : Psd Pi) :
    E.discreteGain st (.of A) (.of B) = .ok (.of (ricK A B R Pi)) := by
  have hG := ricG_pd B Pi R hR hPi
  have hs1 : n * n ≠ 0 := by positivity
  have hs2 : m * m ≠ 0 := by positivity
  have hi : (NpMat.of (Bᵀ * Pi * B + R)).inv = .ok (NpMat.of (ricG B R Pi)⁻¹) := NpMat.inv_of _ hG.det_ne
  simp only [LqrEnv.discreteGain, h1, h2, h4, NpMat.size, ne_eq, hs1, hs2, not_false_eq_true, and_self, if_true, hd, bind, Except.bind, areGain,
      NpMat.T_of, NpMat.mul_of, NpMat.add_of, NpMat.neg_of, hi]
  rfl

/-- along the feedback the value decreases by the stage cost -/
theorem dare_step {A Q Pi : Matrix (Fin n) (Fin n) K} {B : Matrix (Fin n) (Fin m) K} {R : Matrix (Fin m) (Fin m) K} (hR : Pd R)
    (hPi : SolvesDare A B Q R Pi) (e : Vec K n) :
    qf Q e + qf R (ricK A B R Pi *ᵥ e) + qf Pi (A *ᵥ e + B *ᵥ (ricK A B R Pi *ᵥ e)) = qf Pi e := by
  have hG := ricG_pd B Pi R hR hPi.psd
  have hfix : ricP A B Q R Pi = Pi := by
    conv_rhs => rw [hPi.eq]
    rw [ricP, ricG, add_comm R]
  have := complete_square A B Q Pi R hPi.psd.1 hG.1 hG.det_ne e (ricK A B R Pi *ᵥ e)
  rwa [hfix, sub_self, qf_zero, add_zero] at this

theorem dare_sum {A Q Pi : Matrix (Fin n) (Fin n) K} {B : Matrix (Fin n) (Fin m) K} {R : Matrix (Fin m) (Fin m) K} (hR : Pd R)
    (hPi : SolvesDare A B Q R Pi) (e : Nat → Vec K n) (he : ∀ k, e (k + 1) = A *ᵥ e k + B *ᵥ (ricK A B R Pi *ᵥ e k)) (N : Nat) :
    ∑ k ∈ Finset.range N, (qf Q (e k) + qf R (ricK A B R Pi *ᵥ e k)) + qf Pi (e N) = qf Pi (e 0) := by
  induction N with
  | zero => simp
  | succ N ih =>
    rw [Finset.sum_range_succ, he]
    have := dare_step hR hPi (e N)
    linarith

theorem stdReady_infinite (E : LqrEnv K) (hn : 0 < E.nx) (hm : 0 < E.nu) (h : K) (Q Pi : Matrix (Fin E.nx) (Fin E.nx) K)
    (R : Matrix (Fin E.nu) (Fin E.nu) K) (hR : Pd R) (hd : E.dare (.of E.A) (.of E.B) (.of Q) (.of R) = .ok (.of Pi)) (hPi : Psd Pi) :
    StdReady E (infiniteCfg h Q R) h (ricK E.A E.B R Pi) (E.run E.new (infiniteCfg h Q R ++ [.setup])) := by
  have hst : E.run E.new (infiniteCfg h Q R) = { E.new with tStep := some h, horizon := none, Q := some (.of Q), R := some (.of R), P := none } := by
    simp [infiniteCfg, LqrEnv.run, LqrEnv.exec, LqrEnv.setObjective, LqrEnv.new, NpMat.shape]
  have hgain := discreteGain_infinite E { E.new with tStep := some h, horizon := none, Q := some (.of Q), R := some (.of R), P := none }
    E.A Q Pi E.B R hn hm hR rfl rfl rfl hd hPi
  have hsetup : E.setupCall (E.run E.new (infiniteCfg h Q R)) = ({ (E.run E.new (infiniteCfg h Q R)) with
      gain := some (.of (ricK E.A E.B R Pi)), setup := true }, none) := by
    rw [hst]
    simp only [LqrEnv.setupCall, LqrEnv.new] at hgain ⊢
    rw [hgain]
  have hrun : E.run E.new (infiniteCfg h Q R ++ [.setup]) = (E.setupCall (E.run E.new (infiniteCfg h Q R))).1 := by
    rw [lqr_run_append]; rfl
  rw [hrun, hsetup]
  exact ⟨hn, hm, by simp [infiniteCfg, LqrOp.isConfig], by rw [hst]; rfl, hsetup, rfl, by rw [hst]⟩

theorem rateReady_infinite (E : LqrEnv K) (hn : 0 < E.nx) (hm : 0 < E.nu) (h : K) (Q : Matrix (Fin E.nx) (Fin E.nx) K)
    (R dR : Matrix (Fin E.nu) (Fin E.nu) K) (hdR : Pd dR) (Pi : Matrix (Fin (E.nx + E.nu)) (Fin (E.nx + E.nu)) K)
    (hd : E.dare (.of E.aRated) (.of E.bRated) (.of (blk Q 0 0 R)) (.of dR) = .ok (.of Pi)) (hPi : Psd Pi) :
    RateReady E (infiniteRateCfg h Q R dR) h (ricK (blk E.A E.B 0 1) (vblk E.B 1) dR Pi) (E.run E.new (infiniteRateCfg h Q R dR ++ [.setup])) := by
  set st0 : LqrSt K := { E.new with tStep := some h, horizon := none, Q := some (.of Q), R := some (.of R), P := none, delR := some (.of dR), rated := some (.of E.aRated, .of E.bRated), mode := .rate } with hst0
  set st2 : LqrSt K := { st0 with Q := some (.of (blk Q 0 0 R)), R := some (.of dR) } with hst2
  have hst : E.run E.new (infiniteRateCfg h Q R dR) = st0 := by
    simp [infiniteRateCfg, infiniteCfg, hst0, LqrEnv.run, LqrEnv.exec, LqrEnv.setObjective, LqrEnv.setRterm, LqrEnv.new, NpMat.shape]
  have hgain : E.discreteGain st2 (.of E.aRated) (.of E.bRated) = .ok (.of (ricK (blk E.A E.B 0 1) (vblk E.B 1) dR Pi)) :=
    discreteGain_infinite E st2 (blk E.A E.B 0 1) (blk Q 0 0 R) Pi (vblk E.B 1) dR (by omega) hm hdR rfl rfl rfl hd hPi
  have hblk : NpMat.block (.of Q) (NpMat.zeros E.nx E.nu) (NpMat.zeros E.nu E.nx) (.of R) = .ok (.of (blk Q 0 0 R)) := NpMat.block_of Q 0 0 R
  have hsetup : E.setupCall (E.run E.new (infiniteRateCfg h Q R dR))
      = ({ st2 with gain := some (.of (ricK (blk E.A E.B 0 1) (vblk E.B 1) dR Pi)), setup := true }, none) := by
    rw [hst]
    simp only [LqrEnv.setupCall, hst0, hblk]
    change (match E.discreteGain st2 (.of E.aRated) (.of E.bRated) with
      | .ok g => ({ st2 with gain := some g, setup := true }, none)
      | .error e => (st2, some e)) = _
    rw [hgain]
  have hrun : E.run E.new (infiniteRateCfg h Q R dR ++ [.setup]) = (E.setupCall (E.run E.new (infiniteRateCfg h Q R dR))).1 := by
    rw [lqr_run_append]; rfl
  rw [hrun, hsetup]
  exact ⟨by simp [infiniteRateCfg, infiniteCfg, LqrOp.isConfig], by rw [hst], hsetup, rfl, rfl⟩

/-! ## convergence -/

theorem pd_lower (Q : Matrix (Fin n) (Fin n) ℝ) (hQ : Pd Q) : ∃ a > 0, ∀ x : Vec ℝ n, a * ‖x‖ ^ 2 ≤ qf Q x := by
  have hc : Continuous fun x : Fin n → ℝ => qf Q x := by
    unfold qf dotProduct mulVec dotProduct
    fun_prop
  have hsc : ∀ (t : ℝ) (x : Vec ℝ n), qf Q (t • x) = t ^ 2 * qf Q x := by
    intro t x
    simp only [qf, mulVec_smul, smul_dotProduct, dotProduct_smul, smul_eq_mul]
    ring
  have key : ∃ a > 0, ∀ x : Fin n → ℝ, ‖x‖ = 1 → a ≤ qf Q x := by
    by_cases hne : (Metric.sphere (0 : Fin n → ℝ) 1).Nonempty
    · obtain ⟨x, hx, hmin⟩ := (isCompact_sphere (0 : Fin n → ℝ) 1).exists_isMinOn hne hc.continuousOn
      have hx1 : ‖x‖ = 1 := by simpa using hx
      refine ⟨qf Q x, hQ.2 x ?_, fun y hy => hmin (by simpa using hy)⟩
      rintro rfl
      simp at hx1
    · exact ⟨1, one_pos, fun x hx => absurd ⟨x, by simpa using hx⟩ hne⟩
  obtain ⟨a, ha, hk⟩ := key
  refine ⟨a, ha, fun x => ?_⟩
  by_cases h0 : x = 0
  · subst h0; rw [qf_zero]; simp
  · have hx : 0 < ‖x‖ := norm_pos_iff.mpr h0
    have h1 := hk (‖x‖⁻¹ • x) (by rw [norm_smul, norm_inv, norm_norm, inv_mul_cancel₀ hx.ne'])
    rw [hsc] at h1
    have : a * ‖x‖ ^ 2 ≤ (‖x‖⁻¹ ^ 2 * qf Q x) * ‖x‖ ^ 2 := mul_le_mul_of_nonneg_right h1 (by positivity)
    have h2 : (‖x‖⁻¹ ^ 2 * qf Q x) * ‖x‖ ^ 2 = qf Q x := by field_simp
    linarith

theorem tendsto_of_sum_le (Q : Matrix (Fin n) (Fin n) ℝ) (hQ : Pd Q) (e : Nat → Vec ℝ n) (c : ℝ)
    (h : ∀ N, ∑ k ∈ Finset.range N, qf Q (e k) ≤ c) : Filter.Tendsto e Filter.atTop (nhds 0) := by
  have hs : Summable fun k => qf Q (e k) := summable_of_sum_range_le (fun k => hQ.psd.2 _) h
  have ht := hs.tendsto_atTop_zero
  obtain ⟨a, ha, hl⟩ := pd_lower Q hQ
  have h2 : Filter.Tendsto (fun k => ‖e k‖ ^ 2) Filter.atTop (nhds 0) := by
    refine squeeze_zero (fun k => by positivity) (fun k => ?_) (by simpa using ht.const_mul a⁻¹)
    have := hl (e k)
    rw [inv_mul_eq_div, le_div_iff₀ ha]
    linarith
  rw [tendsto_zero_iff_norm_tendsto_zero]
  have h3 := (Real.continuous_sqrt.tendsto 0).comp h2
  simp only [Real.sqrt_zero] at h3
  refine h3.congr fun k => ?_
  simp [Real.sqrt_sq (norm_nonneg _)]

end

/-! ## the loop -/

/-- `[[A, B], [0, I]]`: the system whose state is the state and the previous input (`/repo/do_mpc/controller/_lqr.py:191-200`) -/
abbrev augA {n m : Nat} (A : Matrix (Fin n) (Fin n) K) (B : Matrix (Fin n) (Fin m) K) : Matrix (Fin (n + m)) (Fin (n + m)) K := blk A B 0 1
/-- `[[B], [I]]` -/
abbrev augB {n m : Nat} (B : Matrix (Fin n) (Fin m) K) : Matrix (Fin (n + m)) (Fin m) K := vblk B 1
/-- `[[Q, 0], [0, R]]` (`_lqr.py:207-214`) -/
abbrev augQ {n m : Nat} (Q : Matrix (Fin n) (Fin n) K) (R : Matrix (Fin m) (Fin m) K) : Matrix (Fin (n + m)) (Fin (n + m)) K := blk Q 0 0 R

theorem exec_makeStep_ok (E : LqrEnv K) (st : LqrSt K) (x u : NpMat K) (h : (E.exec st (.makeStep x)).2 = (none, some u)) :
    E.makeStep st x = ((E.exec st (.makeStep x)).1, .ok u) := by
  simp only [LqrEnv.exec] at h ⊢
  rcases hE : E.makeStep st x with ⟨st', o⟩
  rw [hE] at h
  cases o with
  | ok w => simp_all
  | error e => simp at h

/-- The loop is started: the simulator is set up, and the first call of `make_step` gets its state. -/
structure LqrLoop.Started (l : LqrLoop K d) : Prop where
  setup : l.sim.setup = true
  fields : l.sim.data.fields = simFields d
  x : l.x = .col l.sim.x0

section
variable (A : Matrix (Fin d.nx) (Fin d.nx) K) (B : Matrix (Fin d.nx) (Fin d.nu) K)
  (dare : NpMat K → NpMat K → NpMat K → NpMat K → Except String (NpMat K))

/-- **C87 (control law in closed loop, standard mode).**  However the LQR was configured and whatever was called since its setup: the
loop with a simulator of the model runs for ever, and the logged states and inputs are those of the plant under `u = K(x − xss) + uss`. -/
theorem C87_standard_law (ES : SimEnv K d) (hp : LinearPlant ES A B) (cfg : List (LqrOp K)) (h : K) (G : Matrix (Fin d.nu) (Fin d.nx) K)
    (st : LqrSt K) (hr : StdReady (lqrFor d A B dare) cfg h G st) (cs : List (LqrCall K d.nx d.nu)) (l : LqrLoop K d)
    (hl : l.lqr = (lqrFor d A B dare).run st (cs.map LqrCall.op)) (hs : l.Started) :
    ∃ X U, l.Shows (lqrFor d A B dare) ES X U ∧ X 0 = l.sim.x0 ∧ (∀ k, X (k + 1) = A *ᵥ X k + B *ᵥ U k) ∧
      ∀ k, U k = G *ᵥ (X k - lastX cs) + lastU cs := by
  obtain ⟨hrel, hx, hu⟩ := rel_init (lqrFor d A B dare) h _ .standard _ st hr.setup hr.mode
    (fresh_run (lqrFor d A B dare) cfg _ hr.config (fresh_new _)) hr.gain hr.ts
  obtain ⟨-, b, c⟩ := run_standard (lqrFor d A B dare) hr.nx hr.nu h G cs st _ hrel (.inl ⟨hx, hu, rfl, rfl⟩)
  obtain ⟨ax, au⟩ := after_xs h (fun xs us (_ : Vec K d.nu) x => G *ᵥ (x - xs) + us) cs (LqrView.init d.nx d.nu)
  have hsh := shows_of A B dare ES hp h (.of G) .standard (fun xs us (_ : Vec K d.nu) x => G *ᵥ (x - xs) + us)
    (fun st v => LqrRel (lqrFor d A B dare) h (.of G) .standard st v ∧ spStd (lqrFor d A B dare) st v) (fun _ _ h => h.1)
    (fun st v x hv => by
      obtain ⟨a, b, c⟩ := step_standard (lqrFor d A B dare) hr.nx hr.nu h G st v hv.1 hv.2 (.makeStep x)
      exact ⟨_, exec_makeStep_ok _ _ _ _ a, b, c⟩)
    l _ (by rw [hl]; exact ⟨b, c⟩) hs.setup hs.fields hs.x
  refine ⟨_, _, hsh, rfl, fun k => rfl, fun k => ?_⟩
  simp only [lqrSeq]
  rw [ax, au]
  rfl

/-- **C87 (control law in closed loop, input rate penalty).**  `W k` is the input applied before step `k`. -/
theorem C87_rate_law (ES : SimEnv K d) (hp : LinearPlant ES A B) (cfg : List (LqrOp K)) (h : K) (G : Matrix (Fin d.nu) (Fin (d.nx + d.nu)) K)
    (st : LqrSt K) (hr : RateReady (lqrFor d A B dare) cfg h G st) (cs : List (LqrCall K d.nx d.nu))
    (hcs : ∀ x u, LqrCall.setSetpoint x u ∈ cs → x.isSome ∧ u.isSome) (l : LqrLoop K d)
    (hl : l.lqr = (lqrFor d A B dare).run st (cs.map LqrCall.op)) (hs : l.Started) :
    ∃ X U, ∃ W : Nat → Vec K d.nu, l.Shows (lqrFor d A B dare) ES X U ∧ X 0 = l.sim.x0 ∧ l.lqr.u0 = .col (W 0) ∧ (∀ k, W (k + 1) = U k) ∧
      (∀ k, X (k + 1) = A *ᵥ X k + B *ᵥ U k) ∧ ∀ k, U k = W k + G *ᵥ Fin.append (X k - lastX cs) (W k - lastU cs) := by
  obtain ⟨hrel, hx, hu⟩ := rel_init (lqrFor d A B dare) h _ .rate _ st hr.setup hr.mode
    (fresh_run (lqrFor d A B dare) cfg _ hr.config (fresh_new _)) hr.gain hr.ts
  obtain ⟨-, b, c⟩ := run_rate (lqrFor d A B dare) h G cs hcs st _ hrel (.inl ⟨hx, hu, rfl, rfl⟩)
  obtain ⟨ax, au⟩ := after_xs h (fun xs us uLast x => G *ᵥ (Fin.append x uLast - Fin.append xs us) + uLast) cs (LqrView.init d.nx d.nu)
  have hsh := shows_of A B dare ES hp h (.of G) .rate (fun xs us uLast x => G *ᵥ (Fin.append x uLast - Fin.append xs us) + uLast)
    (fun st v => LqrRel (lqrFor d A B dare) h (.of G) .rate st v ∧ spRate (lqrFor d A B dare) st v) (fun _ _ h => h.1)
    (fun st v x hv => by
      obtain ⟨a, b, c⟩ := step_rate (lqrFor d A B dare) h G st v hv.1 hv.2 (.makeStep x) (by simp)
      exact ⟨_, exec_makeStep_ok _ _ _ _ a, b, c⟩)
    l _ (by rw [hl]; exact ⟨b, c⟩) hs.setup hs.fields hs.x
  refine ⟨_, _, fun k => (lqrSeq A B _ l.sim.x0 _ k).2, hsh, rfl, ?_, fun k => rfl, fun k => rfl, fun k => ?_⟩
  · rw [hl]; exact b.u0
  · simp only [lqrSeq]
    rw [ax, au, append_sub, add_comm]
    rfl

/-- **C87 (cost, standard mode).**  An LQR with infinite horizon, a positive semidefinite solution `Pi` of the Riccati equation returned by SciPy, set points
that are an equilibrium: in the loop with a simulator of the model, what was paid in the first `N` steps plus `(x_N − xss)ᵀ Pi (x_N − xss)` is
always `(x_0 − xss)ᵀ Pi (x_0 − xss)`.  So the total is never more than this value, the value never increases, and over enough steps any other
inputs `V` which make the value tend to 0 have cost at least as much, up to any `ε`. -/
theorem C87_standard_cost (ES : SimEnv K d) (hp : LinearPlant ES A B) (hn : 0 < d.nx) (hm : 0 < d.nu) (h : K)
    (Q Pi : Matrix (Fin d.nx) (Fin d.nx) K) (R : Matrix (Fin d.nu) (Fin d.nu) K) (hQ : Psd Q) (hR : Pd R)
    (hd : dare (.of A) (.of B) (.of Q) (.of R) = .ok (.of Pi)) (hPi : SolvesDare A B Q R Pi)
    (cs : List (LqrCall K d.nx d.nu)) (heq : A *ᵥ lastX cs + B *ᵥ lastU cs = lastX cs) (l : LqrLoop K d)
    (hl : l.lqr = (lqrFor d A B dare).run (lqrFor d A B dare).new (infiniteCfg h Q R ++ [.setup] ++ cs.map LqrCall.op)) (hs : l.Started) :
    ∃ X U, l.Shows (lqrFor d A B dare) ES X U ∧ X 0 = l.sim.x0 ∧
      (∀ N, ∑ k ∈ Finset.range N, (qf Q (X k - lastX cs) + qf R (U k - lastU cs)) + qf Pi (X N - lastX cs) = qf Pi (l.sim.x0 - lastX cs)) ∧
      (∀ N, qf Pi (X (N + 1) - lastX cs) ≤ qf Pi (X N - lastX cs)) ∧
      ∀ V : Nat → Vec K d.nu, (∀ ε > 0, ∃ N0, ∀ N ≥ N0, qf Pi (traj A B l.sim.x0 V N - lastX cs) < ε) → ∀ ε > 0, ∃ N0, ∀ N ≥ N0,
        ∑ k ∈ Finset.range N, (qf Q (X k - lastX cs) + qf R (U k - lastU cs)) <
          ∑ k ∈ Finset.range N, (qf Q (traj A B l.sim.x0 V k - lastX cs) + qf R (V k - lastU cs)) + ε := by
  rw [lqr_run_append] at hl
  obtain ⟨X, U, h1, h2, h3, h4⟩ := C87_standard_law A B dare ES hp _ h _ _
    (stdReady_infinite (lqrFor d A B dare) hn hm h Q Pi R hR hd hPi.psd) cs l hl hs
  have he : ∀ k, X (k + 1) - lastX cs = A *ᵥ (X k - lastX cs) + B *ᵥ (ricK A B R Pi *ᵥ (X k - lastX cs)) := by
    intro k
    rw [h3, h4, mulVec_add]
    nth_rw 2 [← heq]
    rw [mulVec_sub A]
    abel
  have hU : ∀ k, U k - lastU cs = ricK A B R Pi *ᵥ (X k - lastX cs) := fun k => by rw [h4]; abel
  have hsum : ∀ N, ∑ k ∈ Finset.range N, (qf Q (X k - lastX cs) + qf R (U k - lastU cs)) + qf Pi (X N - lastX cs) = qf Pi (l.sim.x0 - lastX cs) := by
    intro N
    rw [← h2, ← dare_sum hR hPi (fun k => X k - lastX cs) he N]
    simp only [hU]
  refine ⟨X, U, h1, h2, hsum, fun N => ?_, fun V hV ε hε => ?_⟩
  · have a := hsum N
    have b := hsum (N + 1)
    rw [Finset.sum_range_succ] at b
    have c1 := hQ.2 (X N - lastX cs)
    have c2 := hR.psd.2 (U N - lastU cs)
    linarith
  · obtain ⟨G, -, hG⟩ := C57_infinite_horizon (lqrFor d A B dare)
      { (lqrFor d A B dare).new with Q := some (.of Q), R := some (.of R) } A Q Pi B R hn hm hQ hR rfl rfl rfl hd hPi
    obtain ⟨N0, hN⟩ := (hG (l.sim.x0 - lastX cs)).2 (fun j => V j - lastU cs)
      (fun ε hε => by
        obtain ⟨N0, hN⟩ := hV ε hε
        exact ⟨N0, fun N h => by rw [← traj_dev A B _ _ heq]; exact hN N h⟩) ε hε
    refine ⟨N0, fun N h => ?_⟩
    have a := hN N h
    simp only [stageSum, ← traj_dev A B _ _ heq] at a
    have b := hsum N
    have c := hPi.psd.2 (X N - lastX cs)
    linarith

/-- **C87 (cost, input rate penalty).**  The same with the cost on states, previous inputs `W k` and input changes; every `set_setpoint` call
gave both set points. -/
theorem C87_rate_cost (ES : SimEnv K d) (hp : LinearPlant ES A B) (hn : 0 < d.nx) (hm : 0 < d.nu) (h : K)
    (Q : Matrix (Fin d.nx) (Fin d.nx) K) (R dR : Matrix (Fin d.nu) (Fin d.nu) K) (hdR : Pd dR)
    (Pi : Matrix (Fin (d.nx + d.nu)) (Fin (d.nx + d.nu)) K)
    (hd : dare (.of (augA A B)) (.of (augB B)) (.of (augQ Q R)) (.of dR) = .ok (.of Pi)) (hPi : SolvesDare (augA A B) (augB B) (augQ Q R) dR Pi)
    (cs : List (LqrCall K d.nx d.nu)) (hcs : ∀ x u, LqrCall.setSetpoint x u ∈ cs → x.isSome ∧ u.isSome)
    (heq : A *ᵥ lastX cs + B *ᵥ lastU cs = lastX cs) (l : LqrLoop K d)
    (hl : l.lqr = (lqrFor d A B dare).run (lqrFor d A B dare).new (infiniteRateCfg h Q R dR ++ [.setup] ++ cs.map LqrCall.op)) (hs : l.Started) :
    ∃ X U, ∃ W : Nat → Vec K d.nu, l.Shows (lqrFor d A B dare) ES X U ∧ X 0 = l.sim.x0 ∧ l.lqr.u0 = .col (W 0) ∧ (∀ k, W (k + 1) = U k) ∧
      ∀ N, ∑ k ∈ Finset.range N, (qf Q (X k - lastX cs) + qf R (W k - lastU cs) + qf dR (U k - W k))
          + qf Pi (Fin.append (X N - lastX cs) (W N - lastU cs)) = qf Pi (Fin.append (l.sim.x0 - lastX cs) (W 0 - lastU cs)) := by
  rw [lqr_run_append] at hl
  obtain ⟨X, U, W, h1, h2, hW0, hW, h3, h4⟩ := C87_rate_law A B dare ES hp _ h _ _
    (rateReady_infinite (lqrFor d A B dare) hn hm h Q R dR hdR Pi hd hPi.psd) cs hcs l hl hs
  refine ⟨X, U, W, h1, h2, hW0, hW, fun N => ?_⟩
  have he : ∀ k, Fin.append (X (k + 1) - lastX cs) (W (k + 1) - lastU cs) = blk A B 0 1 *ᵥ Fin.append (X k - lastX cs) (W k - lastU cs)
      + vblk B 1 *ᵥ (ricK (blk A B 0 1) (vblk B 1) dR Pi *ᵥ Fin.append (X k - lastX cs) (W k - lastU cs)) := by
    intro k
    rw [blk_mulVec, vblk_mulVec, append_add, hW, h3]
    have hG : ricK (blk A B 0 1) (vblk B 1) dR Pi *ᵥ Fin.append (X k - lastX cs) (W k - lastU cs) = U k - W k := by
      rw [h4]; abel
    rw [hG]
    congr 1
    · nth_rw 1 [← heq]
      rw [mulVec_sub A, mulVec_sub B, mulVec_sub B]
      abel
    · simp
  have hU : ∀ k, U k - W k = ricK (blk A B 0 1) (vblk B 1) dR Pi *ᵥ Fin.append (X k - lastX cs) (W k - lastU cs) := fun k => by rw [h4]; abel
  rw [← h2, ← dare_sum hdR hPi (fun k => Fin.append (X k - lastX cs) (W k - lastU cs)) he N]
  simp only [hU, qf_blk]

end

/-- **C87 (convergence, standard mode).**  With a positive definite weight on the states, the logged states converge to the state set point and the
logged inputs to the input set point, from every initial state. -/
theorem C87_standard_converges (A : Matrix (Fin d.nx) (Fin d.nx) ℝ) (B : Matrix (Fin d.nx) (Fin d.nu) ℝ) (dare) (ES : SimEnv ℝ d)
    (hp : LinearPlant ES A B) (hn : 0 < d.nx) (hm : 0 < d.nu) (h : ℝ)
    (Q Pi : Matrix (Fin d.nx) (Fin d.nx) ℝ) (R : Matrix (Fin d.nu) (Fin d.nu) ℝ) (hQ : Pd Q) (hR : Pd R)
    (hd : dare (.of A) (.of B) (.of Q) (.of R) = .ok (.of Pi)) (hPi : SolvesDare A B Q R Pi)
    (cs : List (LqrCall ℝ d.nx d.nu)) (heq : A *ᵥ lastX cs + B *ᵥ lastU cs = lastX cs) (l : LqrLoop ℝ d)
    (hl : l.lqr = (lqrFor d A B dare).run (lqrFor d A B dare).new (infiniteCfg h Q R ++ [.setup] ++ cs.map LqrCall.op)) (hs : l.Started) :
    ∃ X U, l.Shows (lqrFor d A B dare) ES X U ∧ Filter.Tendsto X Filter.atTop (nhds (lastX cs)) ∧ Filter.Tendsto U Filter.atTop (nhds (lastU cs)) := by
  obtain ⟨X, U, h1, -, h3, -⟩ := C87_standard_cost A B dare ES hp hn hm h Q Pi R hQ.psd hR hd hPi cs heq l hl hs
  refine ⟨X, U, h1, ?_, ?_⟩
  · have := tendsto_of_sum_le Q hQ (fun k => X k - lastX cs) (qf Pi (l.sim.x0 - lastX cs)) (fun N => by
      have a := h3 N
      have b := hPi.psd.2 (X N - lastX cs)
      have c : 0 ≤ ∑ k ∈ Finset.range N, qf R (U k - lastU cs) := Finset.sum_nonneg fun k _ => hR.psd.2 _
      rw [Finset.sum_add_distrib] at a
      linarith)
    simpa using this.add_const (lastX cs)
  · have := tendsto_of_sum_le R hR (fun k => U k - lastU cs) (qf Pi (l.sim.x0 - lastX cs)) (fun N => by
      have a := h3 N
      have b := hPi.psd.2 (X N - lastX cs)
      have c : 0 ≤ ∑ k ∈ Finset.range N, qf Q (X k - lastX cs) := Finset.sum_nonneg fun k _ => hQ.psd.2 _
      rw [Finset.sum_add_distrib] at a
      linarith)
    simpa using this.add_const (lastU cs)

/-- **C87 (convergence, input rate penalty).** -/
theorem C87_rate_converges (A : Matrix (Fin d.nx) (Fin d.nx) ℝ) (B : Matrix (Fin d.nx) (Fin d.nu) ℝ) (dare) (ES : SimEnv ℝ d)
    (hp : LinearPlant ES A B) (hn : 0 < d.nx) (hm : 0 < d.nu) (h : ℝ)
    (Q : Matrix (Fin d.nx) (Fin d.nx) ℝ) (R dR : Matrix (Fin d.nu) (Fin d.nu) ℝ) (hQ : Pd Q) (hR : Pd R) (hdR : Pd dR)
    (Pi : Matrix (Fin (d.nx + d.nu)) (Fin (d.nx + d.nu)) ℝ)
    (hd : dare (.of (augA A B)) (.of (augB B)) (.of (augQ Q R)) (.of dR) = .ok (.of Pi)) (hPi : SolvesDare (augA A B) (augB B) (augQ Q R) dR Pi)
    (cs : List (LqrCall ℝ d.nx d.nu)) (hcs : ∀ x u, LqrCall.setSetpoint x u ∈ cs → x.isSome ∧ u.isSome)
    (heq : A *ᵥ lastX cs + B *ᵥ lastU cs = lastX cs) (l : LqrLoop ℝ d)
    (hl : l.lqr = (lqrFor d A B dare).run (lqrFor d A B dare).new (infiniteRateCfg h Q R dR ++ [.setup] ++ cs.map LqrCall.op)) (hs : l.Started) :
    ∃ X U, l.Shows (lqrFor d A B dare) ES X U ∧ Filter.Tendsto X Filter.atTop (nhds (lastX cs)) ∧ Filter.Tendsto U Filter.atTop (nhds (lastU cs)) := by
  obtain ⟨X, U, W, h1, -, -, hW, h3⟩ := C87_rate_cost A B dare ES hp hn hm h Q R dR hdR Pi hd hPi cs hcs heq l hl hs
  have hle : ∀ N, ∑ k ∈ Finset.range N, qf Q (X k - lastX cs) ≤ qf Pi (Fin.append (l.sim.x0 - lastX cs) (W 0 - lastU cs)) ∧
      ∑ k ∈ Finset.range N, qf R (W k - lastU cs) ≤ qf Pi (Fin.append (l.sim.x0 - lastX cs) (W 0 - lastU cs)) := by
    intro N
    have a := h3 N
    have b := hPi.psd.2 (Fin.append (X N - lastX cs) (W N - lastU cs))
    have c1 : 0 ≤ ∑ k ∈ Finset.range N, qf Q (X k - lastX cs) := Finset.sum_nonneg fun k _ => hQ.psd.2 _
    have c2 : 0 ≤ ∑ k ∈ Finset.range N, qf R (W k - lastU cs) := Finset.sum_nonneg fun k _ => hR.psd.2 _
    have c3 : 0 ≤ ∑ k ∈ Finset.range N, qf dR (U k - W k) := Finset.sum_nonneg fun k _ => hdR.psd.2 _
    rw [Finset.sum_add_distrib, Finset.sum_add_distrib] at a
    constructor <;> linarith
  refine ⟨X, U, h1, ?_, ?_⟩
  · have := tendsto_of_sum_le Q hQ (fun k => X k - lastX cs) _ (fun N => (hle N).1)
    simpa using this.add_const (lastX cs)
  · have := tendsto_of_sum_le R hR (fun k => W k - lastU cs) _ (fun N => (hle N).2)
    have hw : Filter.Tendsto W Filter.atTop (nhds (lastU cs)) := by simpa using this.add_const (lastU cs)
    have := hw.comp (Filter.tendsto_add_atTop_nat 1)
    exact this.congr fun k => hW k

/-! ## example, and finite horizons -/
namespace LqrLoopEx

/-- one state, one input, the state is measured -/
abbrev dims : Dims := { nx := 1, nu := 1, nz := 0, ntv := 0, np := 0, ny := 1, naux := 0 }
/-- `x⁺ = 2x + u` -/
def model : DaeModel ℝ dims where
  rhs := fun x u _ _ _ _ => !![2] *ᵥ x + !![1] *ᵥ u
  alg := fun _ _ z _ _ _ => z
  meas := fun x _ _ _ _ _ => x
  aux := fun _ _ _ _ _ i => i.elim0
/-- its simulator -/
def sim : SimEnv ℝ dims where
  model := model
  plant := .discrete fun z _ _ _ _ _ => z
  tStep := 1
  tvpFun := fun _ i => i.elim0
  pFun := fun _ i => i.elim0

theorem plant : LinearPlant sim !![2] !![1] := ⟨⟨_, rfl⟩, fun _ _ _ _ _ => rfl, fun _ _ _ _ _ => rfl⟩

theorem pd_single (a : ℝ) (ha : 0 < a) : Pd (!![a] : Matrix (Fin 1) (Fin 1) ℝ) := by
  refine ⟨by ext i j; fin_cases i; fin_cases j; rfl, fun x hx => ?_⟩
  have h0 : x 0 ≠ 0 := fun h => hx (by funext i; fin_cases i; exact h)
  simp only [qf, dotProduct, mulVec, Fin.sum_univ_one]
  simp
  have : 0 < x 0 * x 0 := mul_self_pos.mpr h0
  have h2 := mul_pos ha this
  nlinarith

/-- `Q = 4`, `R = 5` have `Pi = 20`: `20 = 4 + 4·20 − (2·20)²/(5 + 20)`. -/
theorem dare : SolvesDare (K := ℝ) (n := 1) (m := 1) !![2] !![1] !![4] !![5] !![20] := by
  refine ⟨(pd_single _ (by norm_num)).psd, ?_⟩
  have : ((!![5] : Matrix (Fin 1) (Fin 1) ℝ) + !![1]ᵀ * !![20] * !![1]) = !![25] := by
    ext i j; fin_cases i; fin_cases j; norm_num [Matrix.mul_apply]
  rw [this]
  ext i j; fin_cases i; fin_cases j
  simp [Matrix.inv_def, Ring.inverse_eq_inv', Matrix.mul_apply]
  norm_num

/-- SciPy's solver, at the arguments of the example -/
noncomputable def scipy : NpMat ℝ → NpMat ℝ → NpMat ℝ → NpMat ℝ → Except String (NpMat ℝ) := fun _ _ _ _ => .ok (.of (!![20] : Matrix (Fin 1) (Fin 1) ℝ))

/-- The state is to be kept at 3, which needs the input −3; it starts at 10. -/
noncomputable def loop : LqrLoop ℝ dims where
  lqr := (lqrFor dims !![2] !![1] scipy).run (lqrFor dims !![2] !![1] scipy).new
    (infiniteCfg 1 (!![4] : Matrix (Fin 1) (Fin 1) ℝ) (!![5] : Matrix (Fin 1) (Fin 1) ℝ) ++ [.setup] ++
      [LqrCall.setSetpoint (some fun _ : Fin 1 => 3) (some fun _ : Fin 1 => -3)].map LqrCall.op)
  sim := SimSt.fresh (fun _ => 10) (fun i => i.elim0)
  x := .col (fun _ : Fin 1 => 10)

/-- The loop converges to 3. -/
example : ∃ X U, loop.Shows (lqrFor dims !![2] !![1] scipy) sim X U ∧ Filter.Tendsto X Filter.atTop (nhds fun _ => 3) ∧
    Filter.Tendsto U Filter.atTop (nhds fun _ => -3) :=
  C87_standard_converges !![2] !![1] scipy sim plant (by decide) (by decide) 1 !![4] !![20] !![5] (pd_single _ (by norm_num))
    (pd_single _ (by norm_num)) rfl dare [.setSetpoint (some fun _ => 3) (some fun _ => -3)]
    (by funext i; fin_cases i; simp [lastX, lastU, mulVec, dotProduct]; norm_num) loop rfl ⟨rfl, rfl, rfl⟩

theorem one_entry (i j : Fin 1) : (1 : Matrix (Fin 1) (Fin 1) ℝ) i j = 1 := by rw [Subsingleton.elim i j, Matrix.one_apply_eq]

/-- With input rate penalty: `x⁺ = u`, `Q = R = 1/2`, `ΔR = 2` have `Pi = diag(1/2, 3/2)`. -/
theorem dareRate : SolvesDare (K := ℝ) (augA (0 : Matrix (Fin 1) (Fin 1) ℝ) (1 : Matrix (Fin 1) (Fin 1) ℝ)) (augB (1 : Matrix (Fin 1) (Fin 1) ℝ))
    (augQ (!![1/2] : Matrix (Fin 1) (Fin 1) ℝ) (!![1/2] : Matrix (Fin 1) (Fin 1) ℝ)) (!![2] : Matrix (Fin 1) (Fin 1) ℝ)
    (blk (!![1/2] : Matrix (Fin 1) (Fin 1) ℝ) 0 0 (!![3/2] : Matrix (Fin 1) (Fin 1) ℝ)) := by
  refine ⟨blk_psd (pd_single _ (by norm_num)).psd (pd_single _ (by norm_num)).psd, ?_⟩
  have : ((!![2] : Matrix (Fin 1) (Fin 1) ℝ) + (augB (1 : Matrix (Fin 1) (Fin 1) ℝ))ᵀ *
      blk (!![1/2] : Matrix (Fin 1) (Fin 1) ℝ) 0 0 (!![3/2] : Matrix (Fin 1) (Fin 1) ℝ) * augB (1 : Matrix (Fin 1) (Fin 1) ℝ)) = !![4] := by
    ext i j; fin_cases i; fin_cases j
    simp [Matrix.mul_apply, Fin.sum_univ_succ, blk, vblk, Fin.addCases, one_entry]
    norm_num
  rw [this]
  ext i j
  fin_cases i <;> fin_cases j <;>
    simp [Matrix.inv_def, Ring.inverse_eq_inv', Matrix.mul_apply, Fin.sum_univ_succ, blk, vblk, Fin.addCases, one_entry] <;> norm_num

/-- **Finite horizons give no such guarantee**: with `n_horizon = 1`, `Q = P = 1` and `R = 3` for `x⁺ = 2x + u`, the closed loop started at 1
is `(3/2)^k` in step `k`. -/
theorem C87_finite_horizon_may_diverge (dare) (l : LqrLoop ℝ dims) (hl : l.lqr = (lqrFor dims !![2] !![1] dare).run (lqrFor dims !![2] !![1] dare).new
      (finiteCfg 1 0 (!![1] : Matrix (Fin 1) (Fin 1) ℝ) (!![1] : Matrix (Fin 1) (Fin 1) ℝ) (!![3] : Matrix (Fin 1) (Fin 1) ℝ) ++ [.setup]))
    (hs : l.Started) (h1 : l.sim.x0 = fun _ => 1) :
    ∃ U, l.Shows (lqrFor dims !![2] !![1] dare) sim (fun k _ => (3 / 2) ^ k) U := by
  obtain ⟨X, U, h, h0, hX, hU⟩ := C87_standard_law !![2] !![1] dare sim plant _ 1 _ _
    (stdReady_finite (lqrFor dims !![2] !![1] dare) Nat.one_pos Nat.one_pos 1 0 (!![1] : Matrix (Fin 1) (Fin 1) ℝ) (!![1] : Matrix (Fin 1) (Fin 1) ℝ)
      (!![3] : Matrix (Fin 1) (Fin 1) ℝ) (pd_single _ one_pos).psd (pd_single _ one_pos).psd (pd_single _ (by norm_num))) [] l hl hs
  have hg : ricG (!![1] : Matrix (Fin 1) (Fin 1) ℝ) (!![3] : Matrix (Fin 1) (Fin 1) ℝ) (!![1] : Matrix (Fin 1) (Fin 1) ℝ) = !![4] := by
    ext i j; fin_cases i; fin_cases j; norm_num [ricG, Matrix.mul_apply]
  have hk : ricK (!![2] : Matrix (Fin 1) (Fin 1) ℝ) (!![1] : Matrix (Fin 1) (Fin 1) ℝ) (!![3] : Matrix (Fin 1) (Fin 1) ℝ) (!![1] : Matrix (Fin 1) (Fin 1) ℝ) = !![-1/2] := by
    rw [ricK, hg]
    ext i j; fin_cases i; fin_cases j
    simp [Matrix.inv_def, Ring.inverse_eq_inv', Matrix.mul_apply]
    norm_num
  have hXk : ∀ k, X k = fun _ => (3 / 2 : ℝ) ^ k := by
    intro k
    induction k with
    | zero => rw [h0, h1]; simp
    | succ k ih =>
      rw [hX, hU]
      have : ricK (lqrFor dims !![2] !![1] dare).A (lqrFor dims !![2] !![1] dare).B (!![3] : Matrix (Fin 1) (Fin 1) ℝ)
          (ricSeq (lqrFor dims !![2] !![1] dare).A (lqrFor dims !![2] !![1] dare).B (!![1] : Matrix (Fin 1) (Fin 1) ℝ) (!![1] : Matrix (Fin 1) (Fin 1) ℝ)
            (!![3] : Matrix (Fin 1) (Fin 1) ℝ) 0) = !![-1/2] := hk
      rw [this, ih]
      funext i
      fin_cases i
      simp [lastX, lastU, mulVec, dotProduct]
      ring
  exact ⟨U, by rw [show (fun (k : Nat) (_ : Fin 1) => (3 / 2 : ℝ) ^ k) = X from funext fun k => (hXk k).symm]; exact h⟩

end LqrLoopEx

end DoMpc
