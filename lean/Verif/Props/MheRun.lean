import Verif.Model.MheRun
import Verif.Spec.Window
import Verif.Lemmas.MpcRun
import Verif.Props.Data

/-! # Properties C21, C23: the estimator at run time -/
set_option linter.unusedSectionVars false
namespace DoMpc
variable {K : Type} [Field K] [LinearOrder K] {d : Dims} {ne ns : Nat}

/-! ### The default measurement function -/

theorem foldl_setAt {α : Type} (f : Nat → Nat) (g : Nat → α) (hf : Function.Injective f) (n : Nat) (T : Nat → α) (k : Nat) :
    ((∃ j < n, f j = k ∧ (List.range n).foldl (fun T j => setAt T (f j) (g j)) T k = g j) ∨
     ((∀ j < n, f j ≠ k) ∧ (List.range n).foldl (fun T j => setAt T (f j) (g j)) T k = T k)) := by
  induction n with
  | zero => right; exact ⟨by simp, rfl⟩
  | succ n ih =>
    rw [List.range_succ, List.foldl_append]
    simp only [List.foldl_cons, List.foldl_nil]
    by_cases h : f n = k
    · left; exact ⟨n, Nat.lt_succ_self n, h, by simp [setAt, h]⟩
    · have hk : ¬ k = f n := fun e => h e.symm
      simp only [setAt, if_neg hk]
      rcases ih with ⟨j, hj, h1, h2⟩ | ⟨h1, h2⟩
      · exact Or.inl ⟨j, Nat.lt_succ_of_lt hj, h1, h2⟩
      · refine Or.inr ⟨fun j hj => ?_, h2⟩
        rcases Nat.lt_succ_iff_lt_or_eq.mp hj with hj | rfl
        · exact h1 j hj
        · exact h

/-- what the default measurement function returns, whatever the template held before -/
theorem defaultYFun_eq (N : Nat) (ys : List (List K)) (hys : ys ≠ []) (T : Nat → Vec K d.ny) (k : Nat) (hk : k < N) :
    defaultYFun N ys T k = rowVec ((Spec.measurementWindow N ys).getD k []) := by
  have hlen : 0 < ys.length := List.length_pos_iff.mpr hys
  unfold defaultYFun Spec.measurementWindow
  dsimp only
  rw [if_neg (by omega)]
  obtain ⟨n, hn⟩ : ∃ n, n = min ys.length N := ⟨_, rfl⟩
  rw [← hn]
  obtain ⟨T1, hT1⟩ : ∃ T1, T1 = (List.range n).foldl (fun T j => setAt T (N - n + j) (rowVec (ys.getD (ys.length - n + j) []))) T := ⟨_, rfl⟩
  rw [← hT1]
  have hwin : (List.drop ((List.replicate (N - ys.length) (ys.headD []) ++ ys).length - N)
      (List.replicate (N - ys.length) (ys.headD []) ++ ys)).getD k [] =
      if k < N - n then ys.getD 0 [] else ys.getD (ys.length - n + (k - (N - n))) [] := by
    rw [List.getD_eq_getElem?_getD, List.getElem?_drop]
    simp only [List.length_append, List.length_replicate]
    by_cases hkn : k < N - n
    · have e1 : N - ys.length + ys.length - N + k < (List.replicate (N - ys.length) (ys.headD [])).length := by
        rw [List.length_replicate]; omega
      have e2 : N - ys.length + ys.length - N + k < N - ys.length := by omega
      rw [if_pos hkn, List.getElem?_append_left e1, List.getElem?_replicate, if_pos e2]
      cases ys with
      | nil => simp at hys
      | cons a t => simp
    · have e1 : (List.replicate (N - ys.length) (ys.headD [])).length ≤ N - ys.length + ys.length - N + k := by
        rw [List.length_replicate]; omega
      have e2 : N - ys.length + ys.length - N + k - (N - ys.length) = ys.length - n + (k - (N - n)) := by omega
      rw [if_neg hkn, List.getElem?_append_right e1, List.length_replicate, List.getD_eq_getElem?_getD, e2]
  have h1 := foldl_setAt (fun j => N - n + j) (fun j => (rowVec (ys.getD (ys.length - n + j) []) : Vec K d.ny))
    (by intro a b h; simp at h; exact h) n T k
  have h2 := foldl_setAt (fun j => j) (fun _ => (rowVec (ys.getD (ys.length - n) []) : Vec K d.ny))
    (by intro a b h; exact h) (N - n) T1 k
  rw [hwin]
  rcases h2 with ⟨j, hj, rfl, h2⟩ | ⟨hno, h2⟩
  · rw [h2, if_pos hj]
    have : ys.length - n = 0 := by clear h1 h2; omega
    rw [this]
  · rw [h2]
    have hge : N - n ≤ k := by
      by_contra hc
      exact hno k (Nat.lt_of_not_le hc) rfl
    rw [if_neg (Nat.not_lt.mpr hge)]
    rcases h1 with ⟨j, hj, h3, h4⟩ | ⟨h3, _⟩
    · have e3 : k - (N - n) = j := by omega
      rw [hT1, h4, e3]
    · have e4 : k - (N - n) < n := by clear h2 h3; omega
      have e5 : N - n + (k - (N - n)) = k := by clear h2 h3; omega
      exact absurd e5 (h3 (k - (N - n)) e4)

/-! ### Calls -/

/-- One call: solver and measurement. -/
structure MheCall (K : Type) (d : Dims) (ne ns n : Nat) where
  S : MheArgs K d ne ns → MheResult K d ne n
  y0 : List K

/-- State after a sequence of calls, and their results. -/
def MheEnv.after (E : MheEnv K d ne ns) (st : MheSt K d ne ns) (calls : List (MheCall K d ne ns E.nLagr)) : MheSt K d ne ns :=
  calls.foldl (fun s c => (E.makeStep c.S s c.y0).1) st
def MheEnv.outputs (E : MheEnv K d ne ns) (st : MheSt K d ne ns) :
    List (MheCall K d ne ns E.nLagr) → List (Except String (Vec K d.nx))
  | [] => []
  | c :: cs => (E.makeStep c.S st c.y0).2 :: E.outputs (E.makeStep c.S st c.y0).1 cs

/-- The problem handed to the solver when `make_step` is called in state `st` with measurement `y0`, the log being `ys` -/
def MheEnv.args (E : MheEnv K d ne ns) (st : MheSt K d ne ns) (y0 : List K) : MheArgs K d ne ns :=
  { x0 := st.optX
    p := { xPrev := E.cfg.xPhys st.optX 1 E.cfg.xLast, pEstPrev := st.pEst0, pSet := E.pFun st.t0, tvp := E.tvpFun st.t0
           yMeas := E.yTraj st.t0 (st.data.rows "_y" ++ [y0]) st.yTmpl }
    lam := if st.initialRun then some (st.lamG, st.lamX) else none }

/-- The arguments of the solver call of every `make_step`. -/
def MheEnv.queries (E : MheEnv K d ne ns) (st : MheSt K d ne ns) : List (MheCall K d ne ns E.nLagr) → List (MheArgs K d ne ns)
  | [] => []
  | c :: cs => E.args st c.y0 :: E.queries (E.makeStep c.S st c.y0).1 cs

theorem update_y (D : Data K) (y0 : List K) (hw : D.width "_y" = some y0.length) :
    D.update [("_y", .arr y0)] = ({ D with rows := fun k => if k = "_y" then D.rows k ++ [y0] else D.rows k }, none) := by
  rw [Data.update_cons_ok D "_y" y0 [] hw]; rfl

theorem MheEnv.record_given (E : MheEnv K d ne ns) (hst : ∀ s ∈ E.storeStats, s ∈ validStats) (t : K) (x0 : Vec K d.nx)
    (p0 : Vec K ne) (q : MheP K d ne ns) (r : MheResult K d ne E.nLagr) :
    Spec.given (E.record t x0 p0 q r) "_x" = [List.ofFn x0] ∧
    Spec.given (E.record t x0 p0 q r) "_u" = [List.ofFn (E.cfg.uPhys r.x (E.cfg.N - 1))] ∧
    Spec.given (E.record t x0 p0 q r) "_z" = [List.ofFn (E.cfg.zPhys r.x (E.cfg.N - 1) E.cfg.zLast)] ∧
    Spec.given (E.record t x0 p0 q r) "_tvp" = [List.ofFn (E.tvpFun t E.cfg.N)] ∧
    Spec.given (E.record t x0 p0 q r) "_p" = [List.ofFn (E.cfg.cat p0 q.pSet)] ∧
    Spec.given (E.record t x0 p0 q r) "_time" = [[t]] ∧
    Spec.given (E.record t x0 p0 q r) "_aux" = [List.ofFn (E.cfg.auxAt r.x q (E.cfg.N - 1))] ∧
    Spec.given (E.record t x0 p0 q r) "opt_p_num" = [List.ofFn (E.flatP q)] ∧
    Spec.given (E.record t x0 p0 q r) "_y" = [] ∧ Spec.given (E.record t x0 p0 q r) "_eps" = [] := by
  have hs : ∀ k, k ∉ validStats → Spec.given (if E.storeStats ≠ [] then r.stats.filter fun s => s.1 ∈ E.storeStats else []) k = [] := by
    intro k hk
    split
    · exact given_stats_nil _ _ hst k hk
    · rfl
  have hl : ∀ k, k ≠ "_lam_g_num" → Spec.given (if E.storeLam then [("_lam_g_num", PyVal.vec r.lamG)] else []) k = [] := by
    intro k hk
    split
    · simp [PyVal.vec, Spec.given, Ne.symm hk]
    · rfl
  have hf : ∀ k, k ≠ "_opt_x_num" → k ≠ "_opt_aux_num" → Spec.given
      (if E.storeFull then [("_opt_x_num", PyVal.vec (E.flatX (E.cfg.unscaled r.x))), ("_opt_aux_num", PyVal.vec (E.flatAux r.x q))] else []) k = [] := by
    intro k hk hk'
    split
    · simp [PyVal.vec, Spec.given, Ne.symm hk, Ne.symm hk']
    · rfl
  unfold MheEnv.record
  simp only [given_append]
  refine ⟨?_, ?_, ?_, ?_, ?_, ?_, ?_, ?_, ?_, ?_⟩
  all_goals
    rw [hf _ (by decide) (by decide), hl _ (by decide), hs _ (by decide)]
    simp [PyVal.vec, Spec.given]

/-- What a `make_step` that passes the checks does: the measurement is logged first, whatever happens later. -/
theorem MheEnv.makeStep_accepted (E : MheEnv K d ne ns) (S : MheArgs K d ne ns → MheResult K d ne E.nLagr) (st : MheSt K d ne ns)
    (y0 : List K) (hset : st.setup = true) (hl : y0.length = d.ny) (hw : st.data.width "_y" = some d.ny) :
    let D1 : Data K := { st.data with rows := fun k => if k = "_y" then st.data.rows k ++ [y0] else st.data.rows k }
    let r := S (E.args st y0)
    let up := D1.update (E.record st.t0 st.x0 st.pEst0 (E.args st y0).p r)
    let st1 : MheSt K d ne ns := { st with guessSet := true, data := up.1, optP := (E.args st y0).p, optX := r.x, lamG := List.ofFn r.lamG
                                           lamX := r.lamX, initialRun := true, yTmpl := (E.args st y0).p.yMeas }
    E.makeStep S st y0 = match up.2 with
      | some e => (st1, .error e)
      | none => ({ st1 with t0 := st.t0 + E.tStep, x0 := E.cfg.xPhys r.x E.cfg.N E.cfg.xLast, pEst0 := E.cfg.pEstPhys r.x
                            u0 := E.cfg.uPhys r.x (E.cfg.N - 1), z0 := E.cfg.zPhys r.x (E.cfg.N - 1) E.cfg.zLast },
                 .ok (E.cfg.xPhys r.x E.cfg.N E.cfg.xLast)) := by
  intro D1 r up st1
  unfold MheEnv.makeStep
  rw [if_neg (by simp [hset]), if_neg (by simp [hl])]
  dsimp only
  rw [update_y st.data y0 (by rw [hw, hl])]
  dsimp only
  simp only [if_true]
  show (match D1.update (E.record st.t0 st.x0 st.pEst0 (E.args st y0).p (S (E.args st y0))) with
    | (D, some e) => _
    | (D, none) => _) = _
  have hup : D1.update (E.record st.t0 st.x0 st.pEst0 (E.args st y0).p (S (E.args st y0))) = up := rfl
  rw [hup]
  rcases hup2 : up with ⟨D, _ | e⟩
  · simp only [st1, hup2]; rfl
  · simp only [st1, hup2]; rfl

theorem MheEnv.makeStep_setup (E : MheEnv K d ne ns) (S : MheArgs K d ne ns → MheResult K d ne E.nLagr) (st : MheSt K d ne ns)
    (y0 : List K) (x : Vec K d.nx) (h : (E.makeStep S st y0).2 = .ok x) : st.setup = true ∧ y0.length = d.ny := by
  unfold MheEnv.makeStep at h
  split at h
  · simp at h
  · rename_i hs
    split at h
    · simp at h
    · rename_i hl
      exact ⟨by simpa using hs, by simpa using hl⟩

/-- What a successful `make_step` does. -/
theorem MheEnv.makeStep_ok (E : MheEnv K d ne ns) (S : MheArgs K d ne ns → MheResult K d ne E.nLagr) (st : MheSt K d ne ns)
    (y0 : List K) (x : Vec K d.nx) (hw : st.data.width "_y" = some d.ny) (h : (E.makeStep S st y0).2 = .ok x) :
    let D1 : Data K := { st.data with rows := fun k => if k = "_y" then st.data.rows k ++ [y0] else st.data.rows k }
    let r := S (E.args st y0)
    let up := D1.update (E.record st.t0 st.x0 st.pEst0 (E.args st y0).p r)
    up.2 = none ∧ x = E.cfg.xPhys r.x E.cfg.N E.cfg.xLast ∧
    (E.makeStep S st y0).1 =
      { st with guessSet := true, data := up.1, optP := (E.args st y0).p, optX := r.x, lamG := List.ofFn r.lamG
                lamX := r.lamX, initialRun := true, yTmpl := (E.args st y0).p.yMeas
                t0 := st.t0 + E.tStep, x0 := x, pEst0 := E.cfg.pEstPhys r.x
                u0 := E.cfg.uPhys r.x (E.cfg.N - 1), z0 := E.cfg.zPhys r.x (E.cfg.N - 1) E.cfg.zLast } := by
  intro D1 r up
  obtain ⟨hset, hl⟩ := E.makeStep_setup S st y0 x h
  have hm := E.makeStep_accepted S st y0 hset hl hw
  dsimp only at hm
  have hup : D1.update (E.record st.t0 st.x0 st.pEst0 (E.args st y0).p (S (E.args st y0))) = up := rfl
  rw [hup] at hm
  rcases hup2 : up with ⟨D, _ | e⟩
  · rw [hup2] at hm
    rw [hm] at h ⊢
    simp only [Except.ok.injEq] at h
    refine ⟨rfl, h.symm, ?_⟩
    simp only [h]; rfl
  · rw [hup2] at hm
    rw [hm] at h
    simp at h

/-- The solver is called with exactly these arguments: `make_step` cannot distinguish solvers that agree on them. -/
theorem mhe_queries_are_the_solver_calls (E : MheEnv K d ne ns) (st : MheSt K d ne ns) (hw : st.data.width "_y" = some d.ny)
    (S S' : MheArgs K d ne ns → MheResult K d ne E.nLagr) (y0 : List K) (h : S' (E.args st y0) = S (E.args st y0)) :
    E.makeStep S' st y0 = E.makeStep S st y0 := by
  by_cases hset : st.setup = true
  · by_cases hl : y0.length = d.ny
    · rw [E.makeStep_accepted S st y0 hset hl hw, E.makeStep_accepted S' st y0 hset hl hw]
      simp only [h]
    · unfold MheEnv.makeStep
      rw [if_neg (by simp [hset]), if_pos (by simpa using hl), if_neg (by simp [hset]), if_pos (by simpa using hl)]
  · unfold MheEnv.makeStep
    rw [if_pos (by simpa using hset), if_pos (by simpa using hset)]

theorem MheEnv.makeStep_fields (E : MheEnv K d ne ns) (S : MheArgs K d ne ns → MheResult K d ne E.nLagr) (st : MheSt K d ne ns)
    (y0 : List K) (hw : st.data.width "_y" = some d.ny) :
    (E.makeStep S st y0).1.data.fields = st.data.fields := by
  by_cases hset : st.setup = true
  · by_cases hl : y0.length = d.ny
    · rw [E.makeStep_accepted S st y0 hset hl hw]
      dsimp only
      split <;> exact Data.update_fields _ _
    · unfold MheEnv.makeStep
      rw [if_neg (by simp [hset]), if_pos (by simpa using hl)]
  · unfold MheEnv.makeStep
    rw [if_pos (by simpa using hset)]

/-- **C23** (log of measurements): every call that passes the argument checks appends its measurement to the log, also if it raises
afterwards; a call that does not changes nothing. -/
theorem C23_measurements_logged (E : MheEnv K d ne ns) (hst : ∀ s ∈ E.storeStats, s ∈ validStats)
    (S : MheArgs K d ne ns → MheResult K d ne E.nLagr) (st : MheSt K d ne ns) (y0 : List K) (hw : st.data.width "_y" = some d.ny) :
    (st.setup = true ∧ y0.length = d.ny → (E.makeStep S st y0).1.data.rows "_y" = st.data.rows "_y" ++ [y0]) ∧
    (¬ (st.setup = true ∧ y0.length = d.ny) → E.makeStep S st y0 = (st, .error "AssertionError")) := by
  constructor
  · rintro ⟨hset, hl⟩
    have hm := E.makeStep_accepted S st y0 hset hl hw
    dsimp only at hm
    set D1 : Data K := { st.data with rows := fun k => if k = "_y" then st.data.rows k ++ [y0] else st.data.rows k } with hD1
    set rec := E.record st.t0 st.x0 st.pEst0 (E.args st y0).p (S (E.args st y0)) with hrec
    have hy : (D1.update rec).1.rows "_y" = D1.rows "_y" := by
      obtain ⟨⟨n, hn⟩, -⟩ := C17_update_append_only D1 rec "_y"
      rw [hn]
      have : Spec.given rec "_y" = [] := (E.record_given hst st.t0 st.x0 st.pEst0 (E.args st y0).p (S (E.args st y0))).2.2.2.2.2.2.2.2.1
      rw [this]; simp
    have hy2 : D1.rows "_y" = st.data.rows "_y" ++ [y0] := by simp [hD1]
    rw [hm]
    split
    · exact hy.trans hy2
    · exact hy.trans hy2
  · intro h
    unfold MheEnv.makeStep
    by_cases hset : st.setup = true
    · have hl : y0.length ≠ d.ny := fun e => h ⟨hset, e⟩
      rw [if_neg (by simp [hset]), if_pos hl]
    · rw [if_pos (by simpa using hset)]

theorem ofFn_rowVec {n : Nat} (row : List K) (h : row.length = n) : List.ofFn (rowVec row : Vec K n) = row := by
  apply List.ext_getElem
  · simp [h]
  · intro i h1 h2
    simp [rowVec, List.getD_eq_getElem?_getD, List.getElem?_eq_getElem h2]

theorem window_length (N : Nat) (ys : List (List K)) : (Spec.measurementWindow N ys).length = N := by
  unfold Spec.measurementWindow
  dsimp only
  rw [List.length_drop, List.length_append, List.length_replicate]
  omega

theorem window_mem (N : Nat) (ys : List (List K)) (hys : ys ≠ []) (y : List K) (h : y ∈ Spec.measurementWindow N ys) : y ∈ ys := by
  unfold Spec.measurementWindow at h
  have := List.mem_of_mem_drop h
  rcases List.mem_append.mp this with h | h
  · rw [List.eq_of_mem_replicate h]
    cases ys with
    | nil => simp at hys
    | cons a t => simp
  · exact h

theorem MheEnv.makeStep_data (E : MheEnv K d ne ns) (hst : ∀ s ∈ E.storeStats, s ∈ validStats)
    (S : MheArgs K d ne ns → MheResult K d ne E.nLagr) (st : MheSt K d ne ns) (y0 : List K) (x : Vec K d.nx)
    (hw : st.data.width "_y" = some d.ny) (h : (E.makeStep S st y0).2 = .ok x) :
    let r := S (E.args st y0)
    let D := (E.makeStep S st y0).1.data
    D.rows "_y" = st.data.rows "_y" ++ [y0] ∧ D.rows "_x" = st.data.rows "_x" ++ [List.ofFn st.x0] ∧
    D.rows "_time" = st.data.rows "_time" ++ [[st.t0]] ∧
    D.rows "_p" = st.data.rows "_p" ++ [List.ofFn (E.cfg.cat st.pEst0 (E.pFun st.t0))] ∧
    D.rows "_tvp" = st.data.rows "_tvp" ++ [List.ofFn (E.tvpFun st.t0 E.cfg.N)] ∧
    D.rows "_u" = st.data.rows "_u" ++ [List.ofFn (E.cfg.uPhys r.x (E.cfg.N - 1))] ∧
    D.width "_y" = some d.ny := by
  intro r D
  obtain ⟨hup, -, hs⟩ := E.makeStep_ok S st y0 x hw h
  obtain ⟨g1, g2, g3, g4, g5, g6, g7, g8, g9, -⟩ := E.record_given hst st.t0 st.x0 st.pEst0 (E.args st y0).p (S (E.args st y0))
  have hD : D = _ := congrArg MheSt.data hs
  dsimp only at hD
  have hr := fun k => C17_update_appends _ _ hup k
  refine ⟨?_, ?_, ?_, ?_, ?_, ?_, ?_⟩
  · rw [hD, hr, g9]; simp
  · rw [hD, hr, g1]; simp
  · rw [hD, hr, g6]; simp
  · rw [hD, hr, g5]; simp; rfl
  · rw [hD, hr, g4]; simp
  · rw [hD, hr, g2]; simp; rfl
  · have := E.makeStep_fields S st y0 hw
    show Data.width _ _ = _
    unfold Data.width
    rw [this]
    exact hw

/-- **C21/C23**: what the solver is given in call `i` of a sequence of successful calls, and what is returned.

* With the default measurement function, the measurements are the last `n_horizon` ones ever passed to this estimator (those already
  in the log `_y` before, and those of the calls up to and including this one), oldest first, the oldest repeated in front while
  there are fewer.
* The prior state is the physical second state of the solution of the previous call, the prior parameter its physical parameter
  (before the first call: those of the stored guess and of `p_est0`).
* Set and time-varying parameters are those of time `t0 + i t_step`; start values are the previous primal and dual solution.
* The returned estimate is the physical last state of the solution. -/
theorem C21_C23_problem (E : MheEnv K d ne ns) (hst : ∀ s ∈ E.storeStats, s ∈ validStats) (st : MheSt K d ne ns)
    (hw : st.data.width "_y" = some d.ny) (hrows : ∀ y ∈ st.data.rows "_y", y.length = d.ny)
    (calls : List (MheCall K d ne ns E.nLagr)) (xs : List (Vec K d.nx)) (hok : E.outputs st calls = xs.map .ok)
    (i : Nat) (hi : i < calls.length) :
    ∃ (a : MheArgs K d ne ns), (E.queries st calls)[i]? = some a ∧
      (E.yFun = none → (List.range E.cfg.N).map (fun k => List.ofFn (a.p.yMeas k)) =
        Spec.measurementWindow E.cfg.N (st.data.rows "_y" ++ (calls.take (i + 1)).map (·.y0))) ∧
      (∀ f, E.yFun = some f → a.p.yMeas = f (st.t0 + i * E.tStep)) ∧
      a.p.tvp = E.tvpFun (st.t0 + i * E.tStep) ∧ a.p.pSet = E.pFun (st.t0 + i * E.tStep) ∧
      (i = 0 → a.p.xPrev = E.cfg.xPhys st.optX 1 E.cfg.xLast ∧ a.p.pEstPrev = st.pEst0 ∧ a.x0 = st.optX ∧
        a.lam = if st.initialRun then some (st.lamG, st.lamX) else none) ∧
      (∀ j (hj : j + 1 = i) b, (E.queries st calls)[j]? = some b →
        a.p.xPrev = E.cfg.xPhys (calls[j].S b).x 1 E.cfg.xLast ∧ a.p.pEstPrev = E.cfg.pEstPhys (calls[j].S b).x ∧
        a.x0 = (calls[j].S b).x ∧ a.lam = some (List.ofFn (calls[j].S b).lamG, (calls[j].S b).lamX)) ∧
      xs[i]? = some (E.cfg.xPhys (calls[i].S a).x E.cfg.N E.cfg.xLast) := by
  induction calls generalizing st xs i with
  | nil => simp at hi
  | cons c cs ih =>
    simp only [MheEnv.outputs] at hok
    cases xs with
    | nil => simp at hok
    | cons x xs =>
      simp only [List.map_cons, List.cons.injEq] at hok
      obtain ⟨h1, h2⟩ := hok
      obtain ⟨hset, hl⟩ := E.makeStep_setup c.S st c.y0 x h1
      obtain ⟨hup, hx, hst'⟩ := E.makeStep_ok c.S st c.y0 x hw h1
      obtain ⟨dy, -, -, -, -, -, dw⟩ := E.makeStep_data hst c.S st c.y0 x hw h1
      have hq0 : (E.queries st (c :: cs))[0]? = some (E.args st c.y0) := by
        simp only [MheEnv.queries, List.getElem?_cons_zero]
      cases i with
      | zero =>
        refine ⟨_, hq0, ?_, ?_, by simp [MheEnv.args], by simp [MheEnv.args], fun _ => ⟨rfl, rfl, rfl, rfl⟩, fun j hj => by omega, ?_⟩
        · intro hy
          have hne : st.data.rows "_y" ++ [c.y0] ≠ [] := by simp
          have hlen : ∀ y ∈ st.data.rows "_y" ++ [c.y0], y.length = d.ny := by
            intro y hy
            rcases List.mem_append.mp hy with h | h
            · exact hrows y h
            · rw [List.mem_singleton.mp h]; exact hl
          simp only [List.take_succ_cons, List.take_zero, List.map_cons, List.map_nil]
          apply List.ext_getElem
          · rw [window_length]; simp
          · intro k hk1 hk2
            have hk : k < E.cfg.N := by simpa using hk1
            simp only [List.getElem_map, List.getElem_range, MheEnv.args, MheEnv.yTraj, hy]
            rw [defaultYFun_eq _ _ hne _ _ hk, List.getD_eq_getElem?_getD, List.getElem?_eq_getElem hk2]
            exact ofFn_rowVec _ (hlen _ (window_mem _ _ hne _ (List.getElem_mem hk2)))
        · intro f hf
          simp [MheEnv.args, MheEnv.yTraj, hf]
        · simp [hx]
      | succ i =>
        have hi' : i < cs.length := by simpa using hi
        have hrows' : ∀ y ∈ (E.makeStep c.S st c.y0).1.data.rows "_y", y.length = d.ny := by
          intro y hy
          rw [dy] at hy
          rcases List.mem_append.mp hy with h | h
          · exact hrows y h
          · rw [List.mem_singleton.mp h]; exact hl
        obtain ⟨a, ha, a1, a1', a2, a3, a4, a5, a6⟩ := ih (E.makeStep c.S st c.y0).1 dw hrows' xs h2 i hi'
        have ht0 : (E.makeStep c.S st c.y0).1.t0 = st.t0 + E.tStep := by rw [hst']
        have htime : (E.makeStep c.S st c.y0).1.t0 + (i : K) * E.tStep = st.t0 + ((i + 1 : Nat) : K) * E.tStep := by
          rw [ht0]; push_cast; ring
        rw [htime] at a1' a2 a3
        have hqs : ∀ j, (E.queries st (c :: cs))[j + 1]? = (E.queries (E.makeStep c.S st c.y0).1 cs)[j]? := by
          intro j; simp [MheEnv.queries]
        refine ⟨a, by rw [hqs]; exact ha, ?_, a1', a2, a3, by intro h; omega, ?_, by simpa using a6⟩
        · intro hy
          rw [a1 hy, dy]
          simp
        · intro j hj b hb
          have hji : j = i := by omega
          subst hji
          cases j with
          | zero =>
            obtain ⟨b1, b2, b3, b4⟩ := a4 rfl
            rw [hq0] at hb
            simp only [Option.some.injEq] at hb
            subst hb
            rw [b1, b2, b3, b4, hst']
            simp
          | succ j =>
            rw [hqs] at hb
            have := a5 j rfl b hb
            simpa using this

/-- **C23** (log): after any sequence of successful calls the log has grown by one row per call: the measurement passed, the time
`t0 + i t_step`, and as state and parameters the estimate *before* the call, i.e. the one returned by the previous call; `x0` and
`p_est0` are the last estimate.  (The time-varying parameter logged is the one for stage `n_horizon`, which the problem never
uses.) -/
theorem C23_log (E : MheEnv K d ne ns) (hst : ∀ s ∈ E.storeStats, s ∈ validStats) (st : MheSt K d ne ns)
    (hw : st.data.width "_y" = some d.ny) (calls : List (MheCall K d ne ns E.nLagr)) (xs : List (Vec K d.nx))
    (hok : E.outputs st calls = xs.map .ok) :
    let st' := E.after st calls
    let times := (List.range calls.length).map fun (i : Nat) => st.t0 + i * E.tStep
    st'.data.rows "_y" = st.data.rows "_y" ++ calls.map (·.y0) ∧
    st'.data.rows "_x" = st.data.rows "_x" ++ ((st.x0 :: xs).dropLast).map List.ofFn ∧
    st'.data.rows "_time" = st.data.rows "_time" ++ times.map (fun t => [t]) ∧
    st'.data.rows "_tvp" = st.data.rows "_tvp" ++ times.map (fun t => List.ofFn (E.tvpFun t E.cfg.N)) ∧
    st'.t0 = st.t0 + calls.length * E.tStep ∧ st'.x0 = xs.getLastD st.x0 := by
  induction calls generalizing st xs with
  | nil =>
    simp only [MheEnv.outputs] at hok
    have : xs = [] := by cases xs <;> simp_all
    subst this
    simp [MheEnv.after]
  | cons c cs ih =>
    simp only [MheEnv.outputs] at hok
    cases xs with
    | nil => simp at hok
    | cons x xs =>
      simp only [List.map_cons, List.cons.injEq] at hok
      obtain ⟨h1, h2⟩ := hok
      obtain ⟨hup, hx, hst'⟩ := E.makeStep_ok c.S st c.y0 x hw h1
      obtain ⟨dy, dx, dt, -, dtv, -, dw⟩ := E.makeStep_data hst c.S st c.y0 x hw h1
      obtain ⟨i1, i2, i3, i4, i5, i6⟩ := ih _ dw xs h2
      have haf : E.after st (c :: cs) = E.after (E.makeStep c.S st c.y0).1 cs := rfl
      simp only [haf]
      have ht0 : (E.makeStep c.S st c.y0).1.t0 = st.t0 + E.tStep := by rw [hst']
      have hx0 : (E.makeStep c.S st c.y0).1.x0 = x := by rw [hst']
      have htimes : (List.range (c :: cs).length).map (fun (i : Nat) => st.t0 + i * E.tStep) =
          st.t0 :: (List.range cs.length).map (fun (i : Nat) => (E.makeStep c.S st c.y0).1.t0 + i * E.tStep) := by
        rw [List.length_cons, List.range_succ_eq_map, List.map_cons, List.map_map]
        congr 1
        · simp
        · apply List.map_congr_left; intro i _
          simp only [Function.comp, ht0]; push_cast; ring
      simp only [htimes]
      refine ⟨?_, ?_, ?_, ?_, ?_, ?_⟩
      · rw [i1, dy]; simp
      · rw [i2, dx, hx0, List.dropLast_cons_of_ne_nil (x := st.x0) (l := x :: xs) (by simp)]; simp
      · rw [i3, dt]; simp
      · rw [i4, dtv]; simp
      · rw [i5, ht0]; push_cast [List.length_cons]; ring
      · rw [i6, hx0, List.getLastD_cons]

/-- `reset_history` clears the measurements, so the next window consists of copies of the next measurement, but keeps the last
solution: the prior of the next call is still the old one. -/
theorem C23_reset_keeps_prior (E : MheEnv K d ne ns) (st : MheSt K d ne ns) (hw : st.data.width "_y" = some d.ny)
    (hy : E.yFun = none) (y0 : List K) (hl : y0.length = d.ny) :
    let a := E.args st.resetHistory y0
    (List.range E.cfg.N).map (fun k => List.ofFn (a.p.yMeas k)) = List.replicate E.cfg.N y0 ∧
    a.p.xPrev = E.cfg.xPhys st.optX 1 E.cfg.xLast ∧ a.p.pEstPrev = st.pEst0 ∧ st.resetHistory.t0 = 0 := by
  intro a
  refine ⟨?_, rfl, rfl, rfl⟩
  have h0 : st.resetHistory.data.rows "_y" = [] := by
    simp [MheSt.resetHistory, Data.initStorage, hw]
  apply List.ext_getElem
  · simp
  · intro k hk1 hk2
    have hk : k < E.cfg.N := by simpa using hk1
    have hwin : Spec.measurementWindow E.cfg.N [y0] = List.replicate E.cfg.N y0 := by
      obtain ⟨n, hn⟩ : ∃ n, E.cfg.N = n + 1 := ⟨E.cfg.N - 1, by omega⟩
      unfold Spec.measurementWindow
      simp [hn, List.replicate_succ']
    simp only [List.getElem_map, List.getElem_range, a, MheEnv.args, MheEnv.yTraj, hy, h0, List.nil_append]
    rw [defaultYFun_eq _ _ (by simp) _ _ hk, hwin]
    simp only [List.getD_eq_getElem?_getD, List.getElem?_replicate, hk, if_true, Option.getD_some, List.getElem_replicate]
    exact ofFn_rowVec _ hl

namespace MheRunExample
abbrev dd : Dims := ⟨1, 0, 0, 0, 0, 1, 1, 1, 0⟩
abbrev E : MheEnv ℚ dd 0 0 where
  cfg := { N := 2
           model := ⟨fun x _ _ _ _ w => x + w, fun _ _ _ _ _ _ => Fin.elim0, fun x _ _ _ _ v => x + v, fun _ _ _ _ _ => Fin.elim0⟩
           ifcn := ⟨0, fun _ _ _ _ _ _ _ => [], fun x _ _ _ _ _ w => x + w⟩
           sel := Fin.elim0, sx := fun _ => 2, su := Fin.elim0, sz := Fin.elim0, sp := Fin.elim0
           xlb := fun _ => .ninf, xub := fun _ => .pinf, ulb := fun _ => .ninf, uub := fun _ => .pinf
           zlb := fun _ => .ninf, zub := fun _ => .pinf, plb := fun _ => .ninf, pub := fun _ => .pinf
           nl := [], stage := fun _ _ _ _ => 0, arrival := fun _ _ _ _ _ => 0 }
  tStep := 1
  tvpFun := fun _ _ => Fin.elim0
  pFun := fun _ => Fin.elim0
  nOptX := 1
  nOptP := 1
  nOptAux := 0
  nLagr := 1
  flatX := fun o => o.x 2 0
  flatP := fun q => q.xPrev
  flatAux := fun _ _ => Fin.elim0
/-- a "solver" that trusts the last measurement -/
def S (a : MheArgs ℚ dd 0 0) : MheResult ℚ dd 0 1 :=
  { x := { a.x0 with x := fun _ _ _ => a.p.yMeas 1 0 / 2 }, lamG := fun _ => 0, lamX := [], stats := [] }
end MheRunExample

open MheRunExample in
/-- Non-vacuity: three successful calls; the third problem gets the last two measurements, the prior is the second state of the
second solution. -/
example :
    let st := E.fresh 0 (fun _ => 0) Fin.elim0 Fin.elim0 Fin.elim0
    let calls : List (MheCall ℚ dd 0 0 E.nLagr) := [⟨S, [3]⟩, ⟨S, [4]⟩, ⟨S, [5]⟩]
    (E.outputs st calls).map (fun r => r.toOption.map List.ofFn) = [some [3], some [4], some [5]] ∧
    (E.queries st calls).map (fun a => (List.ofFn (a.p.yMeas 0), List.ofFn (a.p.yMeas 1), List.ofFn a.p.xPrev)) =
      [([3], [3], [0]), ([3], [4], [3]), ([4], [5], [4])] ∧
    st.data.width "_y" = some dd.ny ∧ (E.after st calls).data.rows "_x" = [[0], [3], [4]] := by
  decide +kernel

end DoMpc
