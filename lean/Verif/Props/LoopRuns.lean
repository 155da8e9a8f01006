import Verif.Props.Guarantees

/-! # Property C79: the closed loop never stops by itself -/
set_option linter.unusedSectionVars false
namespace DoMpc
variable {K : Type} [Field K] [LinearOrder K] {d : Dims}

/-- Controller and simulator are set up, their logs have the columns which `setup` made, the estimate has the size of the state. -/
structure Loop.Ready (EM : MpcEnv K d) (l : Loop K d) : Prop where
  mpc : l.mpc.setup = true
  mpcLog : ∃ n, l.mpc.data.fields = EM.fields n
  sim : l.sim.setup = true
  simLog : l.sim.data.fields = simFields d
  size : l.x.length = d.nx

/-- The statistics that are to be stored are numbers. -/
def NumericStats (EM : MpcEnv K d) (r : SolverResult K d EM.nLagr) : Prop := ∀ s ∈ r.stats, s.1 ∈ EM.storeStats → ∃ v, s.2 = .arr [v]

/-- One iteration from a ready loop raises iff a statistic to be stored is not a number; if it does not raise, the loop is ready again. -/
theorem step_ready {EM : MpcEnv K d} {ES : SimEnv K d} (hst : ∀ s ∈ EM.storeStats, s ∈ validStats) (hm : StateMeasured ES.model)
    (S : SolverArgs K d → SolverResult K d EM.nLagr) {l : Loop K d} (hl : l.Ready EM) :
    (NumericStats EM (S (l.asked EM)) → ∃ l', l.step EM ES S = some l' ∧ l'.Ready EM) ∧
    (¬ NumericStats EM (S (l.asked EM)) → l.step EM ES S = none) := by
  obtain ⟨n, hD⟩ := hl.mpcLog
  have hasked : (⟨l.mpc.optX, ⟨fun i => l.x.get (i.cast hl.size.symm), EM.tvpFun l.mpc.t0, EM.pFun l.mpc.t0, l.mpc.u0⟩,
      if l.mpc.initialRun then some (l.mpc.lamG, l.mpc.lamX) else none⟩ : SolverArgs K d) = l.asked EM := by
    have hx : (fun i : Fin d.nx => l.x.get (i.cast hl.size.symm)) = fun i : Fin d.nx => l.x.getD i 0 := by
      funext i
      have : (i : Nat) < l.x.length := by rw [hl.size]; exact i.2
      simp [List.getD_eq_getElem?_getD, List.getElem?_eq_getElem this]
    unfold Loop.asked
    rw [hx]
  have hiff := C54_make_step_succeeds_iff EM hst S l.mpc n hD hl.mpc l.x hl.size
  rw [hasked] at hiff
  constructor
  · intro hnum
    obtain ⟨u, hu⟩ := hiff.mpr hnum
    obtain ⟨y, hy⟩ := (C15_succeeds_iff ES l.sim hl.simLog { u := some (List.ofFn u) }).1
      ⟨hl.sim, by simp, by simp, by simp⟩
    obtain ⟨hl', hset, -, hup, hst'⟩ := makeStep_ok EM S l.mpc l.x u hu
    obtain ⟨-, hy', hup2, hst2'⟩ := simStep_ok ES l.sim _ y hy
    refine ⟨⟨(EM.makeStep S l.mpc l.x).1, (ES.makeStep l.sim { u := some (List.ofFn u) }).1, stateFeedback (List.ofFn y)⟩, ?_, ?_⟩
    · unfold Loop.step
      cases hM : EM.makeStep S l.mpc l.x with
      | mk m' e =>
        rw [hM] at hu
        simp only at hu
        subst hu
        cases hS : ES.makeStep l.sim { u := some (List.ofFn u) } with
        | mk s' e2 =>
          rw [hS] at hy
          simp only at hy
          subst hy
          simp [hS]
    · refine ⟨by rw [hst'], ⟨n, ?_⟩, by rw [hst2'], ?_, ?_⟩
      · rw [hst']; simp only; rw [Data.update_fields]; exact hD
      · rw [hst2']; simp only; rw [Data.update_fields]; exact hl.simLog
      · simp only [stateFeedback]
        rw [hy']
        simp only [argument_none]
        rw [hm]
        simp
  · intro hnum
    unfold Loop.step
    cases hM : EM.makeStep S l.mpc l.x with
    | mk m' e =>
      cases e with
      | error e => rfl
      | ok u => exact absurd (hiff.mp ⟨u, by rw [hM]⟩) hnum

/-- **C79**: the closed loop of `mpc.make_step`, `simulator.make_step` and state feedback never stops by itself.  Whatever the solver does – converged or not –
every iteration succeeds, any number of them, unless a solver statistic that is to be stored is not a number. -/
theorem C79_loop_runs (EM : MpcEnv K d) (ES : SimEnv K d) (hst : ∀ s ∈ EM.storeStats, s ∈ validStats) (hm : StateMeasured ES.model)
    (Ss : List (SolverArgs K d → SolverResult K d EM.nLagr)) (hS : ∀ S ∈ Ss, ∀ a, NumericStats EM (S a)) (l : Loop K d) (hl : l.Ready EM) :
    ∃ l', Loop.iterate EM ES Ss l = some l' ∧ l'.Ready EM := by
  induction Ss generalizing l with
  | nil => exact ⟨l, rfl, hl⟩
  | cons S Ss ih =>
    obtain ⟨l1, h1, hl1⟩ := (step_ready hst hm S hl).1 (hS S (by simp) _)
    obtain ⟨l', h2, hl'⟩ := ih (fun S' h => hS S' (by simp [h])) l1 hl1
    exact ⟨l', by simp [Loop.iterate, h1, h2], hl'⟩

/-- **C79** (when it does stop): from a ready loop, the iterations stop iff one of them is reached in which the solver reports something else than a number under a
name that is to be stored. -/
theorem C79_loop_stops_iff (EM : MpcEnv K d) (ES : SimEnv K d) (hst : ∀ s ∈ EM.storeStats, s ∈ validStats) (hm : StateMeasured ES.model)
    (Ss : List (SolverArgs K d → SolverResult K d EM.nLagr)) (l : Loop K d) (hl : l.Ready EM) :
    Loop.iterate EM ES Ss l = none ↔
      ∃ i, ∃ hi : i < Ss.length, ∃ li, Loop.iterate EM ES (Ss.take i) l = some li ∧ ¬ NumericStats EM (Ss[i] (li.asked EM)) := by
  induction Ss generalizing l with
  | nil => simp [Loop.iterate]
  | cons S Ss ih =>
    by_cases hnum : NumericStats EM (S (l.asked EM))
    · obtain ⟨l1, h1, hl1⟩ := (step_ready hst hm S hl).1 hnum
      have : Loop.iterate EM ES (S :: Ss) l = Loop.iterate EM ES Ss l1 := by simp [Loop.iterate, h1]
      rw [this, ih l1 hl1]
      constructor
      · rintro ⟨i, hi, li, h2, h3⟩
        exact ⟨i + 1, by simpa using hi, li, by simp [Loop.iterate, h1, h2], by simpa using h3⟩
      · rintro ⟨i, hi, li, h2, h3⟩
        cases i with
        | zero =>
          simp only [List.take_zero, Loop.iterate, Option.some.injEq] at h2
          subst h2
          exact absurd hnum h3
        | succ i =>
          simp only [List.take_succ_cons, Loop.iterate, h1, Option.bind_some] at h2
          exact ⟨i, by simpa using hi, li, h2, by simpa using h3⟩
    · have : Loop.iterate EM ES (S :: Ss) l = none := by simp [Loop.iterate, (step_ready hst hm S hl).2 hnum]
      rw [this]
      simp only [true_iff]
      exact ⟨0, by simp, l, by simp [Loop.iterate], by simpa using hnum⟩

/-- After `setup`, with an initial state of the right size, the loop is ready. -/
theorem fresh_ready (EM : MpcEnv K d) (n : Nat) (x0 : Vec K d.nx) (u0 : Vec K d.nu) (z0 z1 : Vec K d.nz) (x : List K) (h : x.length = d.nx) :
    Loop.Ready EM ⟨EM.fresh n x0 u0 z0, SimSt.fresh x0 z1, x⟩ := ⟨rfl, ⟨n, rfl⟩, rfl, rfl, h⟩

/-- Non-vacuity: a hundred iterations of the example loop of C16. -/
example : ∃ l', Loop.iterate clMpc clSim (List.replicate 100 clSolver) ⟨clMpc.fresh 0 (fun _ => 8) (fun _ => 0) (fun i => i.elim0),
    SimSt.fresh (fun _ => 8) (fun i => i.elim0), [8]⟩ = some l' ∧ l'.Ready clMpc :=
  C79_loop_runs clMpc clSim (by simp [clMpc]) (fun _ _ _ _ _ => rfl) _
    (by
      intro S hS a s hs
      rw [List.eq_of_mem_replicate hS] at hs
      simp [clSolver] at hs) _
    (fresh_ready _ _ _ _ _ _ _ rfl)

end DoMpc
