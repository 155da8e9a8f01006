import Verif.Lemmas.MpcRun
import Mathlib.Algebra.Order.Ring.Rat

/-! # Properties C13, C14, C18 (MPC part), C52, C54: the MPC controller at run time -/
set_option linter.unusedSectionVars false
namespace DoMpc
variable {K : Type} [Field K] [LinearOrder K] {d : Dims}

/-- One call of `make_step`: the measured state and what the solver does in this call. -/
structure Call (K : Type) (d : Dims) (n : Nat) where
  x0 : List K
  S : SolverArgs K d → SolverResult K d n

/-- The controller after a sequence of calls (exceptions are caught by the caller, as in a Python `try`). -/
def MpcEnv.after (E : MpcEnv K d) (st : MpcSt K d) (calls : List (Call K d E.nLagr)) : MpcSt K d :=
  calls.foldl (fun s c => (E.makeStep c.S s c.x0).1) st

/-- The results of the calls. -/
def MpcEnv.outputs (E : MpcEnv K d) (st : MpcSt K d) : List (Call K d E.nLagr) → List (Except String (Vec K d.nu))
  | [] => []
  | c :: cs => (E.makeStep c.S st c.x0).2 :: E.outputs (E.makeStep c.S st c.x0).1 cs

/-- **C13**: after any sequence of successful calls, from any state of a set-up controller, whatever the solver did: the log has
grown by exactly one row per call, in order: the state passed, the input returned, the time `t0 + i t_step`, the time-varying
parameter and the nominal parameter of that time. -/
theorem C13_log (E : MpcEnv K d) (hst : ∀ s ∈ E.storeStats, s ∈ validStats) (st : MpcSt K d) (calls : List (Call K d E.nLagr))
    (us : List (Vec K d.nu)) (hok : E.outputs st calls = us.map .ok) :
    let st' := E.after st calls
    let times := (List.range calls.length).map fun (i : Nat) => st.t0 + i * E.tStep
    st'.data.rows "_x" = st.data.rows "_x" ++ calls.map (·.x0) ∧
    st'.data.rows "_u" = st.data.rows "_u" ++ us.map List.ofFn ∧
    st'.data.rows "_time" = st.data.rows "_time" ++ times.map (fun t => [t]) ∧
    st'.data.rows "_tvp" = st.data.rows "_tvp" ++ times.map (fun t => List.ofFn (E.tvpFun t 0)) ∧
    st'.data.rows "_p" = st.data.rows "_p" ++ times.map (fun t => List.ofFn (E.pFun t 0)) ∧
    st'.t0 = st.t0 + calls.length * E.tStep ∧
    st'.u0 = us.getLastD st.u0 ∧
    (calls ≠ [] → List.ofFn st'.x0 = (calls.map (·.x0)).getLastD []) := by
  induction calls generalizing st us with
  | nil =>
    simp only [MpcEnv.outputs] at hok
    have : us = [] := by cases us <;> simp_all
    subst this
    simp [MpcEnv.after]
  | cons c cs ih =>
    simp only [MpcEnv.outputs] at hok
    cases us with
    | nil => simp at hok
    | cons u us =>
      simp only [List.map_cons, List.cons.injEq] at hok
      obtain ⟨h1, h2⟩ := hok
      obtain ⟨hl, hset, hu, hup, hst'⟩ := makeStep_ok E c.S st c.x0 u h1
      have hrows := fun k => C17_update_appends _ _ hup k
      obtain ⟨g1, g2, g3, g4, g5, g6, -⟩ := record_given E hst st.t0 (fun i => c.x0.get (i.cast hl.symm)) _
        (c.S { x0 := st.optX, p := ⟨_, E.tvpFun st.t0, E.pFun st.t0, st.u0⟩,
               lam := if st.initialRun then some (st.lamG, st.lamX) else none })
      have hx0 : List.ofFn (fun i : Fin d.nx => c.x0.get (i.cast hl.symm)) = c.x0 := by
        apply List.ext_getElem
        · simp [hl]
        · intro i h1 h2; simp
      obtain ⟨i1, i2, i3, i4, i5, i6, i7, i8⟩ := ih _ us h2
      have haf : E.after st (c :: cs) = E.after (E.makeStep c.S st c.x0).1 cs := rfl
      simp only [haf]
      have ht0 : (E.makeStep c.S st c.x0).1.t0 = st.t0 + E.tStep := by rw [hst']
      have hu0 : (E.makeStep c.S st c.x0).1.u0 = u := by rw [hst']
      have hx0' : List.ofFn (E.makeStep c.S st c.x0).1.x0 = c.x0 := by rw [hst']; exact hx0
      have hd := congrArg MpcSt.data hst'
      dsimp only at hd
      have htimes : (List.range (c :: cs).length).map (fun (i : Nat) => st.t0 + i * E.tStep) =
          st.t0 :: (List.range cs.length).map (fun (i : Nat) => (E.makeStep c.S st c.x0).1.t0 + i * E.tStep) := by
        rw [List.length_cons, List.range_succ_eq_map, List.map_cons, List.map_map]
        congr 1
        · simp
        · apply List.map_congr_left; intro i _
          simp only [Function.comp, ht0]; push_cast; ring
      simp only [htimes]
      refine ⟨?_, ?_, ?_, ?_, ?_, ?_, ?_, ?_⟩
      · rw [i1, hd, hrows, g1, hx0]; simp
      · rw [i2, hd, hrows, g2, hu]; simp
      · rw [i3, hd, hrows, g6]; simp
      · rw [i4, hd, hrows, g4]; simp
      · rw [i5, hd, hrows, g5]; simp
      · rw [i6, ht0]; push_cast [List.length_cons]; ring
      · rw [i7, hu0]
        rw [List.getLastD_cons]
      · intro _
        cases cs with
        | nil => simp only [MpcEnv.after, List.foldl_nil]; rw [hx0']; simp
        | cons c' cs' => rw [i8 (by simp)]; simp

/-- **C13** (the stored solution): with `store_full_solution`, a successful call appends to `_opt_x_num` the flattened solution of the solver in physical units: every state,
input and algebraic state multiplied by its scaling, the slack variables as they are; without it, the column does not change. -/
theorem C13_solution_row (E : MpcEnv K d) (hst : ∀ s ∈ E.storeStats, s ∈ validStats) (S : SolverArgs K d → SolverResult K d E.nLagr) (st : MpcSt K d) (x0 : List K)
    (u : Vec K d.nu) (hok : (E.makeStep S st x0).2 = .ok u) :
    ∃ a w, (a.p.uPrev = st.u0 ∧ List.ofFn a.p.x0 = x0) ∧
      (∀ k s i j, w.x k s i j = (S a).x.x k s i j * E.cfg.sx j) ∧ (∀ k s j, w.u k s j = (S a).x.u k s j * E.cfg.su j) ∧
      (∀ k s i j, w.z k s i j = (S a).x.z k s i j * E.cfg.sz j) ∧ w.eps = (S a).x.eps ∧
      (E.makeStep S st x0).1.data.rows "_opt_x_num" = st.data.rows "_opt_x_num" ++ (if E.storeFull then [List.ofFn (E.flatX w)] else []) := by
  obtain ⟨hl, -, -, hup, hst'⟩ := makeStep_ok E S st x0 u hok
  have hx0 : List.ofFn (fun i : Fin d.nx => x0.get (i.cast hl.symm)) = x0 := by
    apply List.ext_getElem
    · simp [hl]
    · intro i h1 h2; simp
  refine ⟨{ x0 := st.optX, p := ⟨fun i => x0.get (i.cast hl.symm), E.tvpFun st.t0, E.pFun st.t0, st.u0⟩, lam := if st.initialRun then some (st.lamG, st.lamX) else none },
    E.unscaled (S _).x, ⟨rfl, hx0⟩, fun _ _ _ _ => rfl, fun _ _ _ => rfl, fun _ _ _ _ => rfl, rfl, ?_⟩
  rw [hst']
  simp only
  rw [C17_update_appends _ _ hup, (record_given E hst _ _ _ _).2.2.2.2.2.2.2.2.1]

/-- The arguments of the solver call of every `make_step`. -/
def MpcEnv.queries (E : MpcEnv K d) (st : MpcSt K d) : List (Call K d E.nLagr) → List (SolverArgs K d)
  | [] => []
  | c :: cs =>
    (if h : c.x0.length = d.nx then
      { x0 := st.optX, p := ⟨fun i => c.x0.get (i.cast h.symm), E.tvpFun st.t0, E.pFun st.t0, st.u0⟩,
        lam := if st.initialRun then some (st.lamG, st.lamX) else none }
     else st.solverArgs) :: E.queries (E.makeStep c.S st c.x0).1 cs

/-- The solver is called with exactly these arguments: `make_step` cannot distinguish solvers that agree on them. -/
theorem queries_are_the_solver_calls (E : MpcEnv K d) (st : MpcSt K d) (c : Call K d E.nLagr)
    (S' : SolverArgs K d → SolverResult K d E.nLagr) (cs : List (Call K d E.nLagr))
    (h : S' ((E.queries st (c :: cs)).head (by simp [MpcEnv.queries])) = c.S ((E.queries st (c :: cs)).head (by simp [MpcEnv.queries]))) :
    E.makeStep S' st c.x0 = E.makeStep c.S st c.x0 := by
  simp only [MpcEnv.queries, List.head_cons] at h
  unfold MpcEnv.makeStep
  split
  · rfl
  · split
    · rename_i hl
      rw [dif_pos hl] at h
      simp only [MpcSt.solve, MpcSt.solverArgs]
      rw [h]
    · rfl

/-- **C13/C14/C12**: what the solver is given in call `i` of a sequence of successful calls, and how the returned input comes from its
answer.  The problem parameters are the state passed in this call, the input returned by the previous call (before the first
call: the controller's `u0`), and the parameters of time `t0 + i t_step`.  The start is the primal and dual solution of the
previous call; the first call uses the stored guess and, if no call was ever made, no multipliers. -/
theorem C14_warm_start (E : MpcEnv K d) (st : MpcSt K d) (calls : List (Call K d E.nLagr)) (us : List (Vec K d.nu))
    (hok : E.outputs st calls = us.map .ok) (i : Nat) (hi : i < calls.length) :
    ∃ (a : SolverArgs K d), (E.queries st calls)[i]? = some a ∧
      List.ofFn a.p.x0 = calls[i].x0 ∧
      a.p.tvp = E.tvpFun (st.t0 + i * E.tStep) ∧ a.p.p = E.pFun (st.t0 + i * E.tStep) ∧
      (i = 0 → a.p.uPrev = st.u0 ∧ a.x0 = st.optX ∧ a.lam = if st.initialRun then some (st.lamG, st.lamX) else none) ∧
      (∀ j (hj : j + 1 = i) b, (E.queries st calls)[j]? = some b →
        us[j]? = some a.p.uPrev ∧ a.x0 = (calls[j].S b).x ∧
        a.lam = some (List.ofFn (calls[j].S b).lamG, (calls[j].S b).lamX)) ∧
      us[i]? = some (E.cfg.uPhys (calls[i].S a).x 0 0) := by
  induction calls generalizing st us i with
  | nil => simp at hi
  | cons c cs ih =>
    simp only [MpcEnv.outputs] at hok
    cases us with
    | nil => simp at hok
    | cons u us =>
      simp only [List.map_cons, List.cons.injEq] at hok
      obtain ⟨h1, h2⟩ := hok
      obtain ⟨hl, hset, hu, hup, hst'⟩ := makeStep_ok E c.S st c.x0 u h1
      have hx0 : List.ofFn (fun i : Fin d.nx => c.x0.get (i.cast hl.symm)) = c.x0 := by
        apply List.ext_getElem
        · simp [hl]
        · intro i h1 h2; simp
      have hq0 : (E.queries st (c :: cs))[0]? = some
          { x0 := st.optX, p := ⟨fun i => c.x0.get (i.cast hl.symm), E.tvpFun st.t0, E.pFun st.t0, st.u0⟩,
            lam := if st.initialRun then some (st.lamG, st.lamX) else none } := by
        simp only [MpcEnv.queries, dif_pos hl, List.getElem?_cons_zero]
      cases i with
      | zero =>
        refine ⟨_, hq0, hx0, by simp, by simp, fun _ => ⟨rfl, rfl, rfl⟩, fun j hj => by omega, ?_⟩
        simp [hu]
      | succ i =>
        have hi' : i < cs.length := by simpa using hi
        obtain ⟨a, ha, a1, a2, a3, a4, a5, a6⟩ := ih (E.makeStep c.S st c.x0).1 us h2 i hi'
        have ht0 : (E.makeStep c.S st c.x0).1.t0 = st.t0 + E.tStep := by rw [hst']
        have htime : (E.makeStep c.S st c.x0).1.t0 + (i : K) * E.tStep = st.t0 + ((i + 1 : Nat) : K) * E.tStep := by
          rw [ht0]; push_cast; ring
        rw [htime] at a2 a3
        have hqs : ∀ j, (E.queries st (c :: cs))[j + 1]? = (E.queries (E.makeStep c.S st c.x0).1 cs)[j]? := by
          intro j; simp [MpcEnv.queries]
        refine ⟨a, by rw [hqs]; exact ha, by simpa using a1, a2, a3, by intro h; omega, ?_, by simpa using a6⟩
        intro j hj b hb
        have hji : j = i := by omega
        subst hji
        cases j with
        | zero =>
          obtain ⟨b1, b2, b3⟩ := a4 rfl
          rw [hq0] at hb
          simp only [Option.some.injEq] at hb
          subst hb
          rw [b1, b2, b3, hst']
          simp
        | succ j =>
          rw [hqs] at hb
          have := a5 j rfl b hb
          simpa using this

/-- **C13** errors: a call before `setup` or with a state of the wrong size is refused and changes nothing. -/
theorem C13_refused (E : MpcEnv K d) (S : SolverArgs K d → SolverResult K d E.nLagr) (st : MpcSt K d) (x0 : List K)
    (h : st.setup = false ∨ x0.length ≠ d.nx) : E.makeStep S st x0 = (st, .error "AssertionError") := by
  unfold MpcEnv.makeStep
  by_cases hs : st.setup
  · simp only [hs, Bool.not_true, Bool.false_eq_true, if_false]
    rw [dif_neg (by rcases h with h | h; · simp [hs] at h
                    · exact h)]
  · simp [hs]

theorem width_standard (E : MpcEnv K d) (nE : Nat) (D : Data K) (hD : D.fields = E.fields nE) :
    D.width "_x" = some d.nx ∧ D.width "_u" = some d.nu ∧ D.width "_z" = some d.nz ∧ D.width "_tvp" = some d.ntv ∧
    D.width "_p" = some d.np ∧ D.width "_time" = some 1 ∧ D.width "_aux" = some d.naux ∧ D.width "opt_p_num" = some E.nOptP ∧
    (E.storeFull = true → D.width "_opt_x_num" = some E.nOptX ∧ D.width "_opt_aux_num" = some E.nOptAux) ∧
    (E.storeLam = true → D.width "_lam_g_num" = some E.nLagr) ∧
    (∀ s ∈ E.storeStats, s ∈ validStats → D.width s = some 1) := by
  have hval : ∀ s ∈ validStats, ∀ k ∈ ["_time", "_x", "_y", "_u", "_z", "_tvp", "_p", "_aux", "_eps", "opt_p_num", "_opt_x_num",
      "_opt_aux_num", "_lam_g_num"], (s == k) = false := by decide
  unfold Data.width
  rw [hD]
  unfold MpcEnv.fields
  refine ⟨rfl, rfl, rfl, rfl, rfl, rfl, rfl, rfl, ?_, ?_, ?_⟩
  · intro h; rw [if_pos h]; exact ⟨rfl, rfl⟩
  · intro h
    rw [if_pos h]
    cases E.storeFull <;> rfl
  · intro s hs hv
    have h := hval s hv
    have hlk : (E.storeStats.map fun s => (s, 1)).lookup s = some 1 := by
      generalize E.storeStats = l at hs
      induction l with
      | nil => simp at hs
      | cons a t ih =>
        rw [List.map_cons, List.lookup_cons]
        by_cases hsa : s = a
        · subst hsa; simp
        · have : (s == a) = false := by simpa using hsa
          rw [this]
          exact ih (by simpa [hsa] using hs)
    simp only [List.mem_cons, List.not_mem_nil, or_false, forall_eq_or_imp, forall_eq] at h
    obtain ⟨h1, h2, h3, h4, h5, h6, h7, h8, h9, h10, h11, h12, h13⟩ := h
    cases E.storeFull <;> cases E.storeLam <;>
      simp [List.lookup_cons, h1, h2, h3, h4, h5, h6, h7, h8, h9, h10, h11, h12, h13, hlk]

/-- **C54** (exact condition): on a set-up controller whose log has the fields created by `setup`, `make_step` with a state of the right
size succeeds iff every statistic to be stored that the solver reports is a number. -/
theorem C54_make_step_succeeds_iff (E : MpcEnv K d) (hst : ∀ s ∈ E.storeStats, s ∈ validStats)
    (S : SolverArgs K d → SolverResult K d E.nLagr) (st : MpcSt K d) (nE : Nat) (hD : st.data.fields = E.fields nE)
    (hset : st.setup = true) (x0 : List K) (hl : x0.length = d.nx) :
    (∃ u, (E.makeStep S st x0).2 = .ok u) ↔
      ∀ s ∈ (S { x0 := st.optX, p := ⟨fun i => x0.get (i.cast hl.symm), E.tvpFun st.t0, E.pFun st.t0, st.u0⟩,
                 lam := if st.initialRun then some (st.lamG, st.lamX) else none }).stats,
        s.1 ∈ E.storeStats → ∃ v, s.2 = .arr [v] := by
  obtain ⟨w1, w2, w3, w4, w5, w6, w7, w8, w9, w10, w11⟩ := width_standard E nE st.data hD
  unfold MpcEnv.makeStep
  simp only [hset, Bool.not_true, Bool.false_eq_true, if_false, dif_pos hl, MpcSt.solve, MpcSt.solverArgs]
  generalize (S _) = r
  generalize hrec : E.record _ _ _ r = rec'
  have hup := C17_update_ok_iff st.data rec'
  have key : (st.data.update rec').2 = none ↔ ∀ s ∈ r.stats, s.1 ∈ E.storeStats → ∃ v, s.2 = .arr [v] := by
    rw [hup]
    subst hrec
    unfold MpcEnv.record
    constructor
    · intro h s hs hmem
      have hne : E.storeStats ≠ [] := by intro e; rw [e] at hmem; simp at hmem
      obtain ⟨row, hr, hw⟩ := h s (by
        apply List.mem_append_right
        rw [if_pos hne]
        exact List.mem_filter.mpr ⟨hs, by simpa using hmem⟩)
      rw [w11 _ hmem (hst _ hmem)] at hw
      simp only [Option.some.injEq] at hw
      obtain ⟨v, rfl⟩ := List.length_eq_one_iff.mp hw.symm
      exact ⟨v, hr⟩
    · intro h a ha
      rcases List.mem_append.mp ha with ha | ha
      · rcases List.mem_append.mp ha with ha | ha
        · rcases List.mem_append.mp ha with ha | ha
          · simp only [List.mem_cons, List.not_mem_nil, or_false] at ha
            rcases ha with rfl | rfl | rfl | rfl | rfl | rfl | rfl | rfl
            all_goals exact ⟨_, rfl, by simp [w1, w2, w3, w4, w5, w6, w7, w8]⟩
          · split at ha
            · rename_i hf
              simp only [List.mem_cons, List.not_mem_nil, or_false] at ha
              rcases ha with rfl | rfl
              all_goals exact ⟨_, rfl, by simp [w9 hf]⟩
            · simp at ha
        · split at ha
          · rename_i hf
            simp only [List.mem_cons, List.not_mem_nil, or_false] at ha
            subst ha
            exact ⟨_, rfl, by simp [w10 hf]⟩
          · simp at ha
      · split at ha
        · obtain ⟨hs, hmem⟩ := List.mem_filter.mp ha
          have hmem : a.1 ∈ E.storeStats := by simpa using hmem
          obtain ⟨v, hv⟩ := h a hs hmem
          exact ⟨[v], hv, by rw [w11 _ hmem (hst _ hmem)]; rfl⟩
        · simp at ha
  rw [← key]
  cases hu : st.data.update rec' with
  | mk D e =>
    cases e with
    | none => simp
    | some e => simp

end DoMpc
