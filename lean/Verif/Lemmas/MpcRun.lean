import Verif.Model.MpcRun
import Verif.Props.Data
import Mathlib.Tactic.Ring

set_option linter.unusedSectionVars false
namespace DoMpc
variable {K : Type} [Field K] [LinearOrder K] {d : Dims}

theorem given_cons (k k' : String) (row : List K) (t : List (String × PyVal K)) :
    Spec.given ((k', .arr row) :: t) k = (if k' = k then [row] else []) ++ Spec.given t k := by
  unfold Spec.given
  by_cases h : k' = k <;> simp [h]

theorem given_append (a b : List (String × PyVal K)) (k : String) : Spec.given (a ++ b) k = Spec.given a k ++ Spec.given b k := by
  unfold Spec.given; simp

/-- statistics that may be stored (`/repo/do_mpc/optimizer.py:470-477`) -/
def validStats : List String :=
  ["iter_count", "iterations", "n_call_S", "n_call_callback_fun", "n_call_nlp_f", "n_call_nlp_g", "n_call_nlp_grad",
   "n_call_nlp_grad_f", "n_call_nlp_hess_l", "n_call_nlp_jac_g", "return_status", "success", "t_proc_S", "t_proc_callback_fun",
   "t_proc_nlp_f", "t_proc_nlp_g", "t_proc_nlp_grad", "t_proc_nlp_grad_f", "t_proc_nlp_hess_l", "t_proc_nlp_jac_g", "t_wall_total",
   "t_wall_callback_fun", "t_wall_nlp_f", "t_wall_nlp_g", "t_wall_nlp_grad", "t_wall_nlp_grad_f", "t_wall_nlp_hess_l",
   "t_wall_nlp_jac_g"]

theorem given_stats_nil (l : List (String × PyVal K)) (P : List String) (hP : ∀ s ∈ P, s ∈ validStats) (k : String)
    (hk : k ∉ validStats) : Spec.given (l.filter fun s => s.1 ∈ P) k = [] := by
  unfold Spec.given
  rw [List.filterMap_eq_nil_iff]
  rintro ⟨k', v⟩ ha
  have : k' ∈ P := by simpa using (List.mem_filter.mp ha).2
  have hne : k' ≠ k := fun e => hk (e ▸ hP _ this)
  cases v <;> simp [hne]

/-- the rows that one `make_step` records in the main fields -/
theorem record_given (E : MpcEnv K d) (hst : ∀ s ∈ E.storeStats, s ∈ validStats) (t : K) (x0 : Vec K d.nx) (q : OptP K d)
    (r : SolverResult K d E.nLagr) :
    Spec.given (E.record t x0 q r) "_x" = [List.ofFn x0] ∧
    Spec.given (E.record t x0 q r) "_u" = [List.ofFn (E.cfg.uPhys r.x 0 0)] ∧
    Spec.given (E.record t x0 q r) "_z" = [List.ofFn (E.cfg.zPhys r.x 0 0 0)] ∧
    Spec.given (E.record t x0 q r) "_tvp" = [List.ofFn (q.tvp 0)] ∧
    Spec.given (E.record t x0 q r) "_p" = [List.ofFn (q.p 0)] ∧
    Spec.given (E.record t x0 q r) "_time" = [[t]] ∧
    Spec.given (E.record t x0 q r) "_aux" = [List.ofFn (E.cfg.auxAt E.model r.x q 0 0)] ∧
    Spec.given (E.record t x0 q r) "opt_p_num" = [List.ofFn (E.flatP q)] ∧
    Spec.given (E.record t x0 q r) "_opt_x_num" = (if E.storeFull then [List.ofFn (E.flatX (E.unscaled r.x))] else []) ∧
    Spec.given (E.record t x0 q r) "_y" = [] ∧ Spec.given (E.record t x0 q r) "_eps" = [] := by
  have hs : ∀ k, k ∉ validStats → Spec.given (if E.storeStats ≠ [] then r.stats.filter fun s => s.1 ∈ E.storeStats else []) k = [] := by
    intro k hk
    split
    · exact given_stats_nil _ _ hst k hk
    · rfl
  have hl : ∀ k, k ≠ "_lam_g_num" → Spec.given (if E.storeLam then [("_lam_g_num", PyVal.vec r.lamG)] else []) k = [] := by
    intro k hk
    split
    · simp [PyVal.vec, Spec.given, Ne.symm hk]
    · rfl
  have hf : ∀ k, k ≠ "_opt_x_num" → k ≠ "_opt_aux_num" → Spec.given
      (if E.storeFull then [("_opt_x_num", PyVal.vec (E.flatX (E.unscaled r.x))), ("_opt_aux_num", PyVal.vec (E.flatAux r.x q))] else []) k = [] := by
    intro k hk hk'
    split
    · simp [PyVal.vec, Spec.given, Ne.symm hk, Ne.symm hk']
    · rfl
  have hf' : Spec.given
      (if E.storeFull then [("_opt_x_num", PyVal.vec (E.flatX (E.unscaled r.x))), ("_opt_aux_num", PyVal.vec (E.flatAux r.x q))] else [])
      "_opt_x_num" = (if E.storeFull then [List.ofFn (E.flatX (E.unscaled r.x))] else []) := by
    split
    · simp [PyVal.vec, Spec.given]
    · rfl
  unfold MpcEnv.record
  simp only [given_append]
  refine ⟨?_, ?_, ?_, ?_, ?_, ?_, ?_, ?_, ?_, ?_, ?_⟩
  case refine_9 =>
    rw [hf', hl _ (by decide), hs _ (by decide)]
    simp [PyVal.vec, Spec.given]
  all_goals
    rw [hf _ (by decide) (by decide), hl _ (by decide), hs _ (by decide)]
    simp [PyVal.vec, Spec.given]

/-- What a successful `make_step` does. -/
theorem makeStep_ok (E : MpcEnv K d) (S : SolverArgs K d → SolverResult K d E.nLagr) (st : MpcSt K d) (x0 : List K) (u : Vec K d.nu)
    (h : (E.makeStep S st x0).2 = .ok u) :
    ∃ hl : x0.length = d.nx,
      let x : Vec K d.nx := fun i => x0.get (i.cast hl.symm)
      let q : OptP K d := { x0 := x, tvp := E.tvpFun st.t0, p := E.pFun st.t0, uPrev := st.u0 }
      let args : SolverArgs K d := { x0 := st.optX, p := q, lam := if st.initialRun then some (st.lamG, st.lamX) else none }
      let r := S args
      st.setup = true ∧ u = E.cfg.uPhys r.x 0 0 ∧ (st.data.update (E.record st.t0 x q r)).2 = none ∧
      (E.makeStep S st x0).1 =
        { setup := true, t0 := st.t0 + E.tStep, x0 := x, u0 := u, z0 := E.cfg.zPhys r.x 0 0 0, optX := r.x, optP := q
          lamG := List.ofFn r.lamG, lamX := r.lamX, initialRun := true, guessSet := true
          data := (st.data.update (E.record st.t0 x q r)).1 } := by
  unfold MpcEnv.makeStep at h ⊢
  by_cases hs : st.setup
  · simp only [hs, Bool.not_true, Bool.false_eq_true, if_false] at h ⊢
    by_cases hl : x0.length = d.nx
    · refine ⟨hl, ?_⟩
      rw [dif_pos hl] at h ⊢
      simp only [MpcSt.solve, MpcSt.solverArgs] at h ⊢
      split at h
      · simp at h
      · rename_i D heq
        simp only [Except.ok.injEq] at h
        rw [heq]
        subst h
        exact ⟨trivial, rfl, rfl, by simp only⟩
    · rw [dif_neg hl] at h; simp at h
  · simp only [hs, Bool.not_false, if_true] at h; simp at h

end DoMpc
