import Verif.Props.LoopRuns
import Verif.Props.OutputFeedback

/-! # Property C81: the estimator and the output feedback loop never stop by themselves -/
set_option linter.unusedSectionVars false
namespace DoMpc
variable {K : Type} [Field K] [LinearOrder K] {d : Dims} {ne ns : Nat}

theorem mhe_width_standard (E : MheEnv K d ne ns) (nE : Nat) (D : Data K) (hD : D.fields = E.fields nE) :
    D.width "_x" = some d.nx ∧ D.width "_y" = some d.ny ∧ D.width "_u" = some d.nu ∧ D.width "_z" = some d.nz ∧ D.width "_tvp" = some d.ntv ∧
    D.width "_p" = some d.np ∧ D.width "_time" = some 1 ∧ D.width "_aux" = some d.naux ∧ D.width "opt_p_num" = some E.nOptP ∧
    (E.storeFull = true → D.width "_opt_x_num" = some E.nOptX ∧ D.width "_opt_aux_num" = some E.nOptAux) ∧
    (E.storeLam = true → D.width "_lam_g_num" = some E.nLagr) ∧
    (∀ s ∈ E.storeStats, s ∈ validStats → D.width s = some 1) := by
  have hval : ∀ s ∈ validStats, ∀ k ∈ ["_time", "_x", "_y", "_u", "_z", "_tvp", "_p", "_aux", "_eps", "opt_p_num", "_opt_x_num",
      "_opt_aux_num", "_lam_g_num"], (s == k) = false := by decide
  unfold Data.width
  rw [hD]
  unfold MheEnv.fields
  refine ⟨rfl, rfl, rfl, rfl, rfl, rfl, rfl, rfl, rfl, ?_, ?_, ?_⟩
  · intro h; rw [if_pos h]; exact ⟨rfl, rfl⟩
  · intro h
    rw [if_pos h]
    cases E.storeFull <;> rfl
  · intro s hs hv
    have h := hval s hv
    have hlk : (E.storeStats.map fun s => (s, 1)).lookup s = some 1 := by
      generalize E.storeStats = l at hs
      induction l with
      | nil => simp at hs
      | cons a t ih =>
        rw [List.map_cons, List.lookup_cons]
        by_cases hsa : s = a
        · subst hsa; simp
        · have : (s == a) = false := by simpa using hsa
          rw [this]
          exact ih (by simpa [hsa] using hs)
    simp only [List.mem_cons, List.not_mem_nil, or_false, forall_eq_or_imp, forall_eq] at h
    obtain ⟨h1, h2, h3, h4, h5, h6, h7, h8, h9, h10, h11, h12, h13⟩ := h
    cases E.storeFull <;> cases E.storeLam <;>
      simp [List.lookup_cons, h1, h2, h3, h4, h5, h6, h7, h8, h9, h10, h11, h12, h13, hlk]

/-- The statistics that are to be stored are numbers. -/
def MheEnv.NumericStats (E : MheEnv K d ne ns) (r : MheResult K d ne E.nLagr) : Prop := ∀ s ∈ r.stats, s.1 ∈ E.storeStats → ∃ v, s.2 = .arr [v]

/-- **C81** (the estimator, exact condition): on a set-up estimator whose log has the columns created by `setup`, `make_step` succeeds iff the measurement has
the right size and every statistic to be stored that the solver reports is a number; whether the solver converged does not matter. -/
theorem C81_make_step_succeeds_iff (E : MheEnv K d ne ns) (hst : ∀ s ∈ E.storeStats, s ∈ validStats)
    (S : MheArgs K d ne ns → MheResult K d ne E.nLagr) (st : MheSt K d ne ns) (nE : Nat) (hD : st.data.fields = E.fields nE)
    (hset : st.setup = true) (y0 : List K) :
    (∃ x, (E.makeStep S st y0).2 = .ok x) ↔ y0.length = d.ny ∧ E.NumericStats (S (E.args st y0)) := by
  have hwy := (mhe_width_standard E nE st.data hD).2.1
  constructor
  · rintro ⟨x, hx⟩
    have hl := (E.makeStep_setup S st y0 x hx).2
    refine ⟨hl, ?_⟩
    obtain ⟨hup, -⟩ := E.makeStep_ok S st y0 x hwy hx
    rw [C17_update_ok_iff] at hup
    intro s hs hmem
    have hne : E.storeStats ≠ [] := by intro e; rw [e] at hmem; simp at hmem
    obtain ⟨row, hr, hw⟩ := hup s (by
      unfold MheEnv.record
      apply List.mem_append_right
      rw [if_pos hne]
      exact List.mem_filter.mpr ⟨hs, by simpa using hmem⟩)
    have hw' : st.data.width s.1 = some row.length := hw
    rw [(mhe_width_standard E nE st.data hD).2.2.2.2.2.2.2.2.2.2.2 _ hmem (hst _ hmem)] at hw'
    simp only [Option.some.injEq] at hw'
    obtain ⟨v, rfl⟩ := List.length_eq_one_iff.mp hw'.symm
    exact ⟨v, hr⟩
  · rintro ⟨hl, h⟩
    have hacc := E.makeStep_accepted S st y0 hset hl hwy
    have hnone : (({ st.data with rows := fun k => if k = "_y" then st.data.rows k ++ [y0] else st.data.rows k } : Data K).update
        (E.record st.t0 st.x0 st.pEst0 (E.args st y0).p (S (E.args st y0)))).2 = none := by
      obtain ⟨w1, -, w2, w3, w4, w5, w6, w7, w8, w9, w10, w11⟩ := mhe_width_standard E nE
        ({ st.data with rows := fun k => if k = "_y" then st.data.rows k ++ [y0] else st.data.rows k } : Data K) hD
      rw [C17_update_ok_iff]
      unfold MheEnv.record
      intro a ha
      rcases List.mem_append.mp ha with ha | ha
      · rcases List.mem_append.mp ha with ha | ha
        · rcases List.mem_append.mp ha with ha | ha
          · simp only [List.mem_cons, List.not_mem_nil, or_false] at ha
            rcases ha with rfl | rfl | rfl | rfl | rfl | rfl | rfl | rfl
            all_goals exact ⟨_, rfl, by simp [w1, w2, w3, w4, w5, w6, w7, w8]⟩
          · split at ha
            · rename_i hf
              simp only [List.mem_cons, List.not_mem_nil, or_false] at ha
              rcases ha with rfl | rfl
              all_goals exact ⟨_, rfl, by simp [w9 hf]⟩
            · simp at ha
        · split at ha
          · rename_i hf
            simp only [List.mem_cons, List.not_mem_nil, or_false] at ha
            subst ha
            exact ⟨_, rfl, by simp [w10 hf]⟩
          · simp at ha
      · split at ha
        · obtain ⟨hs, hmem⟩ := List.mem_filter.mp ha
          have hmem : a.1 ∈ E.storeStats := by simpa using hmem
          obtain ⟨v, hv⟩ := h a hs hmem
          exact ⟨[v], hv, by rw [w11 _ hmem (hst _ hmem)]; rfl⟩
        · simp at ha
    rw [hacc]
    dsimp only
    rw [hnone]
    exact ⟨_, rfl⟩

/-- A successful call keeps estimator and log as they are needed for the next one. -/
theorem MheEnv.makeStep_keeps (E : MheEnv K d ne ns) (S : MheArgs K d ne ns → MheResult K d ne E.nLagr) (st : MheSt K d ne ns) (nE : Nat)
    (hD : st.data.fields = E.fields nE) (hset : st.setup = true) (y0 : List K) :
    (E.makeStep S st y0).1.setup = true ∧ (E.makeStep S st y0).1.data.fields = E.fields nE := by
  have hwy := (mhe_width_standard E nE st.data hD).2.1
  refine ⟨?_, by rw [E.makeStep_fields S st y0 hwy, hD]⟩
  by_cases hl : y0.length = d.ny
  · rw [E.makeStep_accepted S st y0 hset hl hwy]
    dsimp only
    split <;> exact hset
  · unfold MheEnv.makeStep
    rw [if_neg (by simp [hset]), if_pos (by simpa using hl)]
    exact hset

/-- **C81** (the estimator, any number of calls): every call with a measurement of the right size succeeds, whatever the solver does. -/
theorem C81_estimator_runs (E : MheEnv K d ne ns) (hst : ∀ s ∈ E.storeStats, s ∈ validStats) (st : MheSt K d ne ns) (nE : Nat)
    (hD : st.data.fields = E.fields nE) (hset : st.setup = true) (calls : List (MheCall K d ne ns E.nLagr))
    (hc : ∀ c ∈ calls, c.y0.length = d.ny ∧ ∀ a, E.NumericStats (c.S a)) : ∃ xs : List (Vec K d.nx), E.outputs st calls = xs.map .ok := by
  induction calls generalizing st with
  | nil => exact ⟨[], rfl⟩
  | cons c cs ih =>
    obtain ⟨hl, hn⟩ := hc c (by simp)
    obtain ⟨x, hx⟩ := (C81_make_step_succeeds_iff E hst c.S st nE hD hset c.y0).mpr ⟨hl, hn _⟩
    obtain ⟨k1, k2⟩ := E.makeStep_keeps c.S st nE hD hset c.y0
    obtain ⟨xs, hxs⟩ := ih _ k2 k1 fun c' h => hc c' (by simp [h])
    exact ⟨x :: xs, by simp [MheEnv.outputs, hx, hxs]⟩

variable {EM : MpcEnv K d} {ES : SimEnv K d} {EE : MheEnv K d ne ns}

/-- Controller, simulator and estimator are set up, their logs have the columns which `setup` made, the estimate has the size of the state. -/
structure OutLoop.Ready (EM : MpcEnv K d) (EE : MheEnv K d ne ns) (l : OutLoop K d ne ns) : Prop where
  mpc : l.mpc.setup = true
  mpcLog : ∃ n, l.mpc.data.fields = EM.fields n
  sim : l.sim.setup = true
  simLog : l.sim.data.fields = simFields d
  mhe : l.mhe.setup = true
  mheLog : ∃ n, l.mhe.data.fields = EE.fields n
  size : l.x.length = d.nx

/-- One iteration. -/
theorem outloop_step_ready (hst : ∀ s ∈ EM.storeStats, s ∈ validStats) (hse : ∀ s ∈ EE.storeStats, s ∈ validStats) (S : Solvers EM EE)
    (hM : ∀ a, NumericStats EM (S.mpc a)) (hE : ∀ a, EE.NumericStats (S.mhe a)) {l : OutLoop K d ne ns} (hl : l.Ready EM EE) :
    ∃ l', OutLoop.step EM ES EE S l = some l' ∧ l'.Ready EM EE := by
  obtain ⟨n, hD⟩ := hl.mpcLog
  obtain ⟨u, hu⟩ := (C54_make_step_succeeds_iff EM hst S.mpc l.mpc n hD hl.mpc l.x hl.size).mpr (hM _)
  obtain ⟨y, hy⟩ := (C15_succeeds_iff ES l.sim hl.simLog { u := some (List.ofFn u) }).1 ⟨hl.sim, by simp, by simp, by simp⟩
  obtain ⟨m, hDe⟩ := hl.mheLog
  obtain ⟨x, hx⟩ := (C81_make_step_succeeds_iff EE hse S.mhe l.mhe m hDe hl.mhe (List.ofFn y)).mpr ⟨by simp, hE _⟩
  obtain ⟨_, _, _, _, hst'⟩ := makeStep_ok EM S.mpc l.mpc l.x u hu
  obtain ⟨-, -, -, hst2'⟩ := simStep_ok ES l.sim _ y hy
  obtain ⟨k1, k2⟩ := EE.makeStep_keeps S.mhe l.mhe m hDe hl.mhe (List.ofFn y)
  refine ⟨⟨(EM.makeStep S.mpc l.mpc l.x).1, (ES.makeStep l.sim { u := some (List.ofFn u) }).1, (EE.makeStep S.mhe l.mhe (List.ofFn y)).1, List.ofFn x⟩, ?_, ?_⟩
  · unfold OutLoop.step
    cases hM : EM.makeStep S.mpc l.mpc l.x with
    | mk m' e =>
      rw [hM] at hu
      simp only at hu
      subst hu
      cases hS : ES.makeStep l.sim { u := some (List.ofFn u) } with
      | mk s' e2 =>
        rw [hS] at hy
        simp only at hy
        subst hy
        cases hEs : EE.makeStep S.mhe l.mhe (List.ofFn y) with
        | mk e' e3 =>
          rw [hEs] at hx
          simp only at hx
          subst hx
          simp [hS, hEs]
  · refine ⟨by rw [hst'], ⟨n, ?_⟩, by rw [hst2'], ?_, k1, ⟨m, k2⟩, by simp⟩
    · rw [hst']; simp only; rw [Data.update_fields]; exact hD
    · rw [hst2']; simp only; rw [Data.update_fields]; exact hl.simLog

/-- **C81** (output feedback loop): the loop of `mpc.make_step`, `simulator.make_step` and `mhe.make_step` never stops by itself, whatever the two
solvers do, unless a statistic that is to be stored is not a number. -/
theorem C81_output_feedback_runs (hst : ∀ s ∈ EM.storeStats, s ∈ validStats) (hse : ∀ s ∈ EE.storeStats, s ∈ validStats) (Ss : List (Solvers EM EE))
    (hS : ∀ S ∈ Ss, (∀ a, NumericStats EM (S.mpc a)) ∧ ∀ a, EE.NumericStats (S.mhe a)) (l : OutLoop K d ne ns) (hl : l.Ready EM EE) :
    ∃ l', OutLoop.iterate EM ES EE Ss l = some l' ∧ l'.Ready EM EE := by
  induction Ss generalizing l with
  | nil => exact ⟨l, rfl, hl⟩
  | cons S Ss ih =>
    obtain ⟨l1, h1, hl1⟩ := outloop_step_ready (ES := ES) hst hse S (hS S (by simp)).1 (hS S (by simp)).2 hl
    obtain ⟨l', h2, hl'⟩ := ih (fun S' h => hS S' (by simp [h])) l1 hl1
    exact ⟨l', by simp [OutLoop.iterate, h1, h2], hl'⟩

/-- Non-vacuity: the example of C75 runs a hundred iterations. -/
example : ∃ l', OutLoop.iterate OutEx.mpc OutEx.sim MheOptEx.E (List.replicate 100 OutEx.both) OutEx.start = some l' := by
  obtain ⟨l', h, -⟩ := C81_output_feedback_runs (EM := OutEx.mpc) (ES := OutEx.sim) (EE := MheOptEx.E) (by simp [OutEx.mpc]) (by simp) (List.replicate 100 OutEx.both)
    (by
      intro S hS
      rw [List.eq_of_mem_replicate hS]
      exact ⟨fun a s hs => absurd hs List.not_mem_nil, fun a s hs => absurd hs List.not_mem_nil⟩) OutEx.start
    ⟨rfl, ⟨0, rfl⟩, rfl, rfl, rfl, ⟨0, by rw [OutEx.start]; exact Data.update_fields _ _⟩, rfl⟩
  exact ⟨l', h⟩

/-- Non-vacuity of the condition on the statistics: a statistic that is a string makes the estimator's call fail, and the measurement stays in the log. -/
example : let E : MheEnv ℚ MheOptEx.dd 1 0 := { MheOptEx.E with storeStats := ["return_status"] }
    let st := E.fresh 0 (fun _ => 0) (fun _ => 0) Fin.elim0 (fun _ => 1)
    let S := fun a => { MheOptEx.S a with stats := [("return_status", .other)] }
    (E.makeStep S st [3, 1]).2.toOption.isNone ∧ (E.makeStep S st [3, 1]).1.data.rows "_y" = [[3, 1]] := by
  decide +kernel

end DoMpc
