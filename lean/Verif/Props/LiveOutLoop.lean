import Verif.Spec.LiveOutLoop
import Verif.Props.LiveSafe
import Verif.Props.MheLive
import Verif.Props.MheOptimal

/-!
# C114: output feedback with configured objects
-/
set_option linter.unusedSectionVars false
namespace DoMpc
open Spec
variable {K : Type} [Field K] [LinearOrder K] [IsStrictOrderedRing K] {d : Dims} {ne ns : Nat}

/-! ## The ideal estimator -/

/-- the last `N` of at least `N` measurements -/
theorem window_exact (N : Nat) (hN : 0 < N) (old : List (List K)) (Y : Nat → List K) :
    measurementWindow N ((old ++ (List.range (N - 1)).map Y) ++ [Y (N - 1)]) = (List.range N).map Y := by
  have h := window_full N hN old Y 0
  simpa using h

/-- One measurement: an ideal estimator that knows enough answers with the plant's state and still knows enough afterwards. -/
theorem informed_step (SM : MheSettings K) (mops : List (MheOp K d ne ns)) (co : MheCost K d ne ns) (m : DaeModel K d) (sel : Fin d.np → Fin ne ⊕ Fin ns)
    (dt : K) (hdt : (lastOf mheSettingsOf mops SM).tStep = dt) (tvS : K → Vec K d.ntv) (pT : Vec K ne) (pG : Vec K ns)
    (M M' : Memory K d ne ns) (hb : OnlyBounds M.bounds) (t : K) (x : Vec K d.nx) (u : Vec K d.nu) (zz : Vec K d.nz) (x' : Vec K d.nx) (y : Vec K d.ny) (r)
    {n : Nat} (Se : MheSolver K d ne ns n) :
    let task := mheConfigured SM (mops ++ M.bounds) co m sel
    0 < task.N → task.DefiniteCosts → task.InputsObserved → Informed task dt tvS pT pG M t x →
    m.alg x u zz (tvS t) (task.merge pT pG) 0 = 0 → x' = m.rhs x u zz (tvS t) (task.merge pT pG) 0 → y = m.meas x' u zz (tvS t) (task.merge pT pG) 0 →
    Within task.xlb task.xub x' → Within task.zlb task.zub zz → Within task.ulb task.uub u →
    (∀ call ∈ task.cons, ∀ i < call.dim, call.ub.ge (call.expr x u zz (tvS t) (task.merge pT pG) i)) →
    Reacts (bestDiscrete SM mops co m sel) M (.step (List.ofFn y) Se, r) M' →
      r = some (.ok x') ∧ M'.bounds = M.bounds ∧ Informed task dt tvS pT pG M' (t + dt) x' := by
  intro task hN hcost hobs hI hz hx' hy bx bz bu bc hR
  obtain ⟨ht, hp, hg, htv, hyf, old, X, U, Z, hrun, hXN, hprior, hys⟩ := hI
  have hNN : task.N = (bestDiscrete SM mops co m sel).N :=
    congrArg MheSettings.N (lastOf_bounds mops M.bounds hb mheSettingsOf SM (fun _ _ _ => rfl))
  set B := bestDiscrete SM mops co m sel with hB
  -- the run over the whole window
  let tv' : Nat → Vec K d.ntv := fun k => tvS (t - ((task.N - 1 - k : Nat) : K) * dt)
  let X' : Nat → Vec K d.nx := fun k => if k < task.N then X k else x'
  let U' : Nat → Vec K d.nu := fun k => if k < task.N - 1 then U k else u
  let Z' : Nat → Vec K d.nz := fun k => if k < task.N - 1 then Z k else zz
  have htvN : tv' (task.N - 1) = tvS t := by simp [tv']
  obtain ⟨r1, r2, r3, r4, r5⟩ := hrun
  have hrun' : task.NoiseFreeRun task.N X' U' Z' tv' pT pG := by
    refine ⟨?_, ?_, ?_, ?_, r5⟩
    · intro k hk
      by_cases hl : k < task.N - 1
      · have := r1 k hl
        simp only [X', U', Z', if_pos hl, if_pos hk, if_pos (show k + 1 < task.N by omega)]
        exact this
      · have hk' : k = task.N - 1 := by omega
        subst hk'
        simp only [X', U', Z', lt_irrefl, if_false, if_pos hk, if_neg (show ¬ task.N - 1 + 1 < task.N by omega), htvN, hXN]
        exact ⟨hz, hx'⟩
    · intro k hk call hcall i hi
      by_cases hl : k < task.N - 1
      · have := r2 k hl call hcall i hi
        simp only [X', U', Z', if_pos hl, if_pos hk]
        exact this
      · have hk' : k = task.N - 1 := by omega
        subst hk'
        simp only [X', U', Z', lt_irrefl, if_false, if_pos hk, htvN, hXN]
        exact bc call hcall i hi
    · intro k hk
      by_cases hl : k < task.N
      · simp only [X', if_pos hl]; exact r3 k (by omega)
      · simp only [X', if_neg hl]; exact bx
    · intro k hk
      by_cases hl : k < task.N - 1
      · simp only [U', Z', if_pos hl]; exact r4 k hl
      · simp only [U', Z', if_neg hl]; exact ⟨bz, bu⟩
  have hmeas' : ∀ k < task.N - 1, task.measured X' U' Z' tv' pT pG k = task.measured X U Z tv' pT pG k := by
    intro k hk
    simp only [EstimationTask.measured, X', U', Z', if_pos hk, if_pos (show k + 1 < task.N by omega)]
  have hmeasN : task.measured X' U' Z' tv' pT pG (task.N - 1) = y := by
    simp only [EstimationTask.measured, X', U', Z', lt_irrefl, if_false, if_neg (show ¬ task.N - 1 + 1 < task.N by omega), htvN]
    rw [hy]; rfl
  have hlog' : M.ys = old ++ (List.range (task.N - 1)).map fun k => List.ofFn (task.measured X' U' Z' tv' pT pG k) := by
    rw [hys]
    congr 1
    apply List.map_congr_left
    intro k hk
    rw [hmeas' k (List.mem_range.mp hk)]
  -- the data of the estimate
  set M1 : Memory K d ne ns := { M with ys := M.ys ++ [List.ofFn y] } with hM1
  have d1 : (M1.data B.N).xPrior = X' 0 := by
    show M.prior = _
    simp only [X', if_pos hN]; exact hprior
  have d2 : (M1.data B.N).pPrior = pT := hp
  have d3 : (M1.data B.N).pGiven = pG := hg _
  have d4 : ∀ k < task.N, (M1.data B.N).tvp k = tv' (0 + k) := fun k hk => by
    show M.tvpFun M.t k = _
    rw [ht, htv _ k hk, Nat.zero_add]
  have d5 : ∀ k < task.N, (M1.data B.N).y k = task.measured X' U' Z' tv' pT pG (0 + k) := by
    intro k hk
    have e1 : (M1.data B.N).y = fun (k : Nat) (j : Fin d.ny) => ((measurementWindow B.N M1.ys).getD k []).getD j 0 := by
      unfold Memory.data
      have : M1.yFun = none := hyf
      rw [this]
    have e2 : M1.ys = (old ++ (List.range (task.N - 1)).map fun k => List.ofFn (task.measured X' U' Z' tv' pT pG k)) ++
        [List.ofFn (task.measured X' U' Z' tv' pT pG (task.N - 1))] := by
      show M.ys ++ _ = _
      rw [hlog', hmeasN]
    rw [e1, e2, ← hNN, window_exact task.N hN old fun k => List.ofFn (task.measured X' U' Z' tv' pT pG k)]
    funext j
    simp [List.getD_eq_getElem?_getD, List.getElem?_map, List.getElem?_range hk]
  have hle : 0 + task.N ≤ task.N := by omega
  have hbest := truth_optimal task hcost X' U' Z' tv' pT pG _ hrun' 0 hle (M1.data B.N) d1 d2 d3 d4 d5
  -- the reaction
  simp only [Reacts] at hR
  rw [if_pos (by simp)] at hR
  obtain ⟨x1, xN, p, hr, hM', hBst⟩ := hR
  obtain ⟨e, ho, ex1, exN, ep⟩ := hBst ⟨_, _, _, _, hbest, rfl, rfl, rfl⟩
  obtain ⟨w1, w2⟩ := exact_window task hcost hobs X' U' Z' tv' pT pG _ hrun' 0 hle (M1.data B.N) d1 d2 d3 d4 d5 e ho
  have hxN : xN = x' := by
    rw [← exN]
    have := w2 task.N le_rfl
    rw [Nat.zero_add] at this
    simp only [X', lt_irrefl, if_false] at this
    exact (congrArg e.X hNN.symm).trans this
  subst hM'
  refine ⟨by rw [hr, hxN], rfl, ?_, ?_, hg, htv, hyf, ?_⟩
  · show M.t + B.tStep = _
    rw [ht]; congr 1
  · show p = pT
    rw [← ep]; exact w1
  · have htv' : ∀ k < task.N - 1, tvS (t + dt - ((task.N - 1 - k : Nat) : K) * dt) = tv' (k + 1) := by
      intro k hk
      show _ = tvS _
      congr 1
      obtain ⟨j, hj⟩ : ∃ j, task.N - 1 - k = j + 1 := ⟨task.N - 1 - k - 1, by omega⟩
      have hj' : task.N - 1 - (k + 1) = j := by omega
      rw [hj, hj']
      push_cast; ring
    have hmeas'' : ∀ k < task.N - 1, task.measured (fun k => X' (k + 1)) (fun k => U' (k + 1)) (fun k => Z' (k + 1))
        (fun k => tvS (t + dt - ((task.N - 1 - k : Nat) : K) * dt)) pT pG k = task.measured X' U' Z' tv' pT pG (k + 1) := by
      intro k hk
      simp only [EstimationTask.measured, htv' k hk]
    refine ⟨old ++ [List.ofFn (task.measured X' U' Z' tv' pT pG 0)], fun k => X' (k + 1), fun k => U' (k + 1), fun k => Z' (k + 1), ?_, ?_, ?_, ?_⟩
    · obtain ⟨q1, q2, q3, q4, q5⟩ := hrun'
      refine ⟨?_, ?_, fun k hk => q3 _ (by omega), fun k hk => q4 _ (by omega), q5⟩
      · intro k hk
        dsimp only
        rw [htv' k hk]
        exact q1 (k + 1) (by omega)
      · intro k hk
        dsimp only
        rw [htv' k hk]
        exact q2 (k + 1) (by omega)
    · have : task.N - 1 + 1 = task.N := by omega
      simp [X', this]
    · show x1 = _
      rw [← ex1]
      have := w2 1 hN
      simpa using this
    · show M.ys ++ [List.ofFn y] = _
      rw [hlog', ← hmeasN]
      have h3 : ∀ (Y : Nat → List K) (n : Nat), (List.range n).map Y ++ [Y n] = Y 0 :: (List.range n).map (fun k => Y (k + 1)) := by
        intro Y n
        have := congrArg (List.map Y) (List.range_succ (n := n))
        rw [List.map_append, List.map_singleton] at this
        rw [← this, List.range_succ_eq_map, List.map_cons, List.map_map]
        rfl
      rw [List.append_assoc, h3 (fun k => List.ofFn (task.measured X' U' Z' tv' pT pG k)), List.append_assoc]
      show _ = old ++ (_ :: _)
      congr 2
      apply List.map_congr_left
      intro k hk
      rw [← hmeas'' k (List.mem_range.mp hk)]

/-! ## The three objects -/

/-- What an admissible policy says about the move that its first input makes. -/
theorem policy_move (m : DaeModel K d) (E : MpcEnv K d) (S : MpcSettings) (calls : List (MpcOp K d)) (ob : Objective K d) (sops : List (SimOp K d)) (hp : ConstraintCalls S calls)
    (t : K) (x : Vec K d.nx) (uLast : Vec K d.nu) (π : Policy K d) (r : Nat)
    (htv : lastOf simTvpOf sops (fun _ => 0) t = E.tvpFun t 0)
    (hadm : (configured S calls ob m ⟨x, E.tvpFun t, E.pFun t, uLast⟩).Admissible π)
    (hr : MayOccur (lastOf settingsOf calls S).c (lastOf settingsOf calls S).nRobust 0 [] r) (hrp : lastOf simParamOf sops (fun _ => 0) t = E.pFun t r) :
    let tv := lastOf simTvpOf sops (fun _ => 0) t
    let p := lastOf simParamOf sops (fun _ => 0) t
    let u := π.U 0 []
    let x' := π.X 1 (extend (lastOf settingsOf calls S).nRobust 0 [] r)
    ∃ z, m.alg x u z tv p 0 = 0 ∧ x' = m.rhs x u z tv p 0 ∧ InInputBounds calls u ∧ InAlgebraicBounds calls z ∧
      (if (lastOf settingsOf calls S).N = 1 then InTerminalBounds S calls x' else InStateBounds calls x') ∧ CallsHold calls x u z tv p := by
  intro tv p u x'
  have hN := hp.horizon
  have h0 : IsHistory (lastOf settingsOf calls S).c (lastOf settingsOf calls S).nRobust 0 [] := ⟨by simp, by simp⟩
  have h1 := isHistory_extend h0 hr
  obtain ⟨d1, d2⟩ := hadm.dynamics
  obtain ⟨d3, d4⟩ := d2 0 hN [] h0 r hr
  have hx : π.X 0 [] = x := d1
  have hcon := hadm.constraints 0 hN [] h0 r hr
  have hsl := hadm.slacks 0 hN [] h0
  change m.alg (π.X 0 []) (π.U 0 []) _ (E.tvpFun t 0) (E.pFun t r) 0 = 0 at d3
  change π.X 1 _ = m.rhs (π.X 0 []) (π.U 0 []) _ (E.tvpFun t 0) (E.pFun t r) 0 at d4
  change ∀ call ∈ calls.filterMap nlConsOf, ∀ i < call.dim, if call.soft then
      call.ub.ge (call.expr (π.X 0 []) (π.U 0 []) _ (E.tvpFun t 0) (E.pFun t r) i - _) else call.ub.ge (call.expr (π.X 0 []) (π.U 0 []) _ (E.tvpFun t 0) (E.pFun t r) i) at hcon
  change ∀ call ∈ calls.filterMap nlConsOf, _ at hsl
  rw [hx, ← htv, ← hrp] at d3 d4 hcon
  refine ⟨_, d3, d4, hadm.inputs 0 hN [] h0, hadm.algebraic 0 hN _ h1, ?_, ?_⟩
  · split_ifs with hN1
    · have := hadm.terminal _ (show IsHistory _ _ (configured S calls ob m _).N _ by
        show IsHistory _ _ (lastOf settingsOf calls S).N _
        rw [hN1]; exact h1)
      have e : (configured S calls ob m ⟨x, E.tvpFun t, E.pFun t, uLast⟩).N = 1 := hN1
      rw [e] at this
      exact this
    · exact hadm.states 1 le_rfl (by show 1 < (lastOf settingsOf calls S).N; omega) _ h1
  · intro call hcall i hi
    have h2 := hcon call hcall i hi
    cases hsoft : call.soft with
    | false => rw [hsoft] at h2; simpa using h2
    | true =>
      rw [hsoft] at h2
      have h3 := hsl call hcall hsoft i hi
      simp only [if_true] at h2 ⊢
      exact ⟨_, h3.1, h3.2, h2⟩

/-- a step of the set-up simulator, for any measurement equation -/
theorem sim_step_out (T : SimTools K d) (sops : List (SimOp K d)) (dt : K) (s : SimObj K d) (h : SimReady T sops dt s) (u : Vec K d.nu) :
    let tv := lastOf simTvpOf sops (fun _ => 0) s.st.t0
    let p := lastOf simParamOf sops (fun _ => 0) s.st.t0
    let r := SimEnv.simulate ⟨T.model, T.build dt, dt, lastOf simTvpOf sops fun _ => 0, lastOf simParamOf sops fun _ => 0⟩ s.st.x0 s.st.simZ u tv p 0
    (s.step T { u := some (List.ofFn u) }).2 = .ok (T.model.meas r.1 u r.2 tv p 0) ∧ SimReady T sops dt (s.step T { u := some (List.ofFn u) }).1 ∧
      (s.step T { u := some (List.ofFn u) }).1.st.t0 = s.st.t0 + dt ∧ (s.step T { u := some (List.ofFn u) }).1.st.x0 = r.1 := by
  intro tv p r
  obtain ⟨h1, h2, h3, h4, h5, h6⟩ := h
  have hstep : s.step T { u := some (List.ofFn u) } =
      ({ s with st := (SimEnv.makeStep ⟨T.model, T.build dt, dt, lastOf simTvpOf sops fun _ => 0, lastOf simParamOf sops fun _ => 0⟩ s.st { u := some (List.ofFn u) }).1 },
        (SimEnv.makeStep ⟨T.model, T.build dt, dt, lastOf simTvpOf sops fun _ => 0, lastOf simParamOf sops fun _ => 0⟩ s.st { u := some (List.ofFn u) }).2) := by
    simp only [SimObj.step, h1, h2, h3, h4]
  rw [hstep]
  obtain ⟨y, hy⟩ := (C15_succeeds_iff ⟨T.model, T.build dt, dt, lastOf simTvpOf sops fun _ => 0, lastOf simParamOf sops fun _ => 0⟩ s.st h6 { u := some (List.ofFn u) }).1
    ⟨h5, by simp, by simp, by simp⟩
  obtain ⟨-, e1, -, e2⟩ := simStep_ok _ _ _ y hy
  simp only [argument_ofFn, argument_none] at e1 e2
  rw [hy, e2]
  refine ⟨by rw [e1], ⟨h1, h2, h3, h4, rfl, ?_⟩, rfl, rfl⟩
  show (Data.update _ _).1.fields = _
  rw [Data.update_fields]
  exact h6

/-- calls to the simulator after `setup()` -/
theorem sim_later (T : SimTools K d) (sops : List (SimOp K d)) (dt : K) (s : SimObj K d) (h : SimReady T sops dt s) (op : SimOp K d) (hop : SimLater op) :
    SimReady T sops dt (s.exec T op).1 := by
  have h' := h
  obtain ⟨h1, h2, h3, h4, h5, h6⟩ := h'
  cases op with
  | settings _ => exact hop.elim
  | setTvpFun _ _ => exact hop.elim
  | setPFun _ _ => exact hop.elim
  | setup => exact hop.elim
  | setParam t => exact (sim_fair T sops dt s h (.setParam t) (n := 0) trivial).1
  | u0 u => exact (sim_fair T sops dt s h (.u0 u) (n := 0) trivial).1
  | z0 u => exact (sim_fair T sops dt s h (.z0 u) (n := 0) trivial).1
  | setInitialGuess => exact (sim_fair T sops dt s h .setInitialGuess (n := 0) trivial).1
  | initAlgebraic => exact (sim_fair T sops dt s h .initAlgebraic (n := 0) trivial).1
  | x0 x => exact ⟨h1, h2, h3, h4, h5, h6⟩
  | t0 x => exact ⟨h1, h2, h3, h4, h5, h6⟩
  | resetHistory => exact ⟨h1, h2, h3, h4, h5, h6⟩
  | makeStep c =>
    set ES : SimEnv K d := ⟨T.model, T.build dt, dt, lastOf simTvpOf sops fun _ => 0, lastOf simParamOf sops fun _ => 0⟩ with hES
    have hex : (s.exec T (.makeStep c)).1 = { s with st := (ES.makeStep s.st c).1 } := by
      simp only [SimObj.exec, h1, h2, h3, h4]
      rcases ES.makeStep s.st c with ⟨a, _ | _⟩ <;> rfl
    rw [hex]
    by_cases hg : s.st.setup = true ∧ (match c.u with | none => d.nu = 0 | some l => l.length = d.nu) ∧
      (∀ l, c.w = some l → l.length = d.nw) ∧ (∀ l, c.v = some l → l.length = d.nv)
    · obtain ⟨y, hy⟩ := (C15_succeeds_iff ES s.st h6 c).1 hg
      obtain ⟨-, -, -, e2⟩ := simStep_ok _ _ _ y hy
      rw [e2]
      refine ⟨h1, h2, h3, h4, rfl, ?_⟩
      show (Data.update _ _).1.fields = _
      rw [Data.update_fields]
      exact h6
    · rw [(C15_succeeds_iff ES s.st h6 c).2 hg]
      exact ⟨h1, h2, h3, h4, h5, h6⟩

theorem sim_later_run (T : SimTools K d) (sops : List (SimOp K d)) (dt : K) (qs : List (SimOp K d)) : ∀ (s : SimObj K d), SimReady T sops dt s → (∀ op ∈ qs, SimLater op) →
    SimReady T sops dt (s.run T qs) := by
  induction qs with
  | nil => intro s h _; exact h
  | cons q qs ih => intro s h hq; exact ih _ (sim_later T sops dt s h q (hq q (by simp))) fun p hp => hq p (by simp [hp])

section
variable (m : DaeModel K d) (T : SimTools K d) (TM : MheTools K d ne ns) (E : MpcEnv K d) (EM : MheEnv K d ne ns)

local notation "mkm" => fun (sx : Vec K d.nx) (su : Vec K d.nu) (sz : Vec K d.nz) => discreteIfcn m sx su sz 1

/-- What every history of the three objects maintains. -/
structure OutInv (S : MpcSettings) (ops bC : List (MpcOp K d)) (ob : Objective K d) (nEps : Nat) (u0 : Vec K d.nu) (sops : List (SimOp K d))
    (SM : MheSettings K) (mops : List (MheOp K d ne ns)) (co : MheCost K d ne ns) (nEpsM : Nat) (pT : Vec K ne) (pG : Vec K ns) (l : LiveOut K d ne ns) : Prop where
  ctrl : ∃ es' h', LiveInv mkm E S ops ob nEps u0 es' h' l.ctrl ∧ boundsIn es' = bC
  sim : SimReady T sops E.tStep l.sim
  est : ∃ M, MheLiveInv TM EM SM mops co nEpsM M l.est ∧
    Informed (mheConfigured SM (mops ++ M.bounds) co m TM.sel) E.tStep (lastOf simTvpOf sops fun _ => 0) pT pG M l.sim.st.t0 l.sim.st.x0 ∧
    Covers S (ops ++ bC) (mheConfigured SM (mops ++ M.bounds) co m TM.sel) ∧ (mheConfigured SM (mops ++ M.bounds) co m TM.sel).DefiniteCosts ∧
    (mheConfigured SM (mops ++ M.bounds) co m TM.sel).InputsObserved
  time : l.ctrl.st.t0 = l.sim.st.t0
  x : l.x = List.ofFn l.sim.st.x0
  plan : ∃ π, (configured S (ops ++ bC) ob m ⟨l.sim.st.x0, E.tvpFun l.sim.st.t0, E.pFun l.sim.st.t0, l.ctrl.st.u0⟩).Admissible π

/-- the input applied last does not matter for what is admissible -/
theorem any_last (S : MpcSettings) (calls : List (MpcOp K d)) (ob : Objective K d) (x : Vec K d.nx) (tv) (p) (a b : Vec K d.nu) (π : Policy K d)
    (hπ : (configured S calls ob m ⟨x, tv, p, a⟩).Admissible π) : (configured S calls ob m ⟨x, tv, p, b⟩).Admissible π :=
  ⟨hπ.dynamics, hπ.states, hπ.terminal, hπ.inputs, hπ.algebraic, hπ.constraints, hπ.slacks, hπ.oneInput⟩

/-- One turn. -/
theorem out_turn (hst : ∀ s ∈ E.storeStats, s ∈ validStats) (hstM : ∀ s ∈ EM.storeStats, s ∈ validStats)
    (S : MpcSettings) (ops bC : List (MpcOp K d)) (ob : Objective K d) (nEps : Nat) (u0 : Vec K d.nu) (sops : List (SimOp K d))
    (SM : MheSettings K) (mops : List (MheOp K d ne ns)) (co : MheCost K d ne ns) (nEpsM : Nat) (pT : Vec K ne) (pG : Vec K ns)
    (hT : OutputPlant m T) (hp : ConstraintCalls S (ops ++ bC))
    (hP : PredictsPlant sops E.tStep (lastOf settingsOf (ops ++ bC) S).c (lastOf settingsOf (ops ++ bC) S).nRobust E.tvpFun E.pFun)
    (hrob : FullyRobust (lastOf settingsOf (ops ++ bC) S)) (hS : SafeTerminal S (ops ++ bC) m E.tvpFun E.pFun)
    (hC : ConsistentTime E.tStep (lastOf settingsOf (ops ++ bC) S).N (lastOf settingsOf (ops ++ bC) S).c (lastOf settingsOf (ops ++ bC) S).nRobust E.tvpFun E.pFun)
    (hTM : TM.model = m) (hifcn : ∀ s sx su sz sp, TM.ifcn s sx su sz sp = discreteIfcn TM.model sx su sz sp) (hpM : PlainMheCalls SM mops)
    (hdt : (lastOf mheSettingsOf mops SM).tStep = E.tStep)
    (hpar : ∀ t, lastOf simParamOf sops (fun _ => 0) t = fun i => Sum.elim pT pG (TM.sel i))
    (l : LiveOut K d ne ns) (hi : OutInv m T TM E EM S ops bC ob nEps u0 sops SM mops co nEpsM pT pG l)
    (Sc : Solver K d E.nLagr) (hf : FindsPoint l.ctrl.obj Sc) (hn : ReportsNumbers E.storeStats Sc) (Se : MheSolver K d ne ns EM.nLagr) (hg : GlobalSolver EM.storeStats Se) :
    let t := l.sim.st.t0
    let l' := (l.turn T E EM Sc Se).1
    OutInv m T TM E EM S ops bC ob nEps u0 sops SM mops co nEpsM pT pG l' ∧ l'.ctrl.obj.problem = l.ctrl.obj.problem ∧
      ∃ u y x', (l.turn T E EM Sc Se).2 = .ok (u, y, x') ∧ l'.sim.st.x0 = x' ∧
        SafeMove S (ops ++ bC) m l.sim.st.x0 (lastOf simTvpOf sops (fun _ => 0) t) (lastOf simParamOf sops (fun _ => 0) t) u x' y ∧
        (PlainCalls S (ops ++ bC) → FindsMinimiser l.ctrl.obj ⟨l.sim.st.x0, E.tvpFun t, E.pFun t, l.ctrl.st.u0⟩ Sc →
          ∃ π r, (configured S (ops ++ bC) ob m ⟨l.sim.st.x0, E.tvpFun t, E.pFun t, l.ctrl.st.u0⟩).Optimal π ∧
            MayOccur (lastOf settingsOf (ops ++ bC) S).c (lastOf settingsOf (ops ++ bC) S).nRobust 0 [] r ∧ lastOf simParamOf sops (fun _ => 0) t = E.pFun t r ∧
            u = π.U 0 [] ∧ x' = π.X 1 (extend (lastOf settingsOf (ops ++ bC) S).nRobust 0 [] r)) := by
  intro t l'
  obtain ⟨⟨es', h', hc, hb⟩, hs, ⟨M, hM, hI, hcov, hdef, hobs⟩, htime, hx, hπ0⟩ := hi
  set q : OptP K d := ⟨l.sim.st.x0, E.tvpFun t, E.pFun t, l.ctrl.st.u0⟩ with hq
  have haft := hc.after
  rw [hb] at haft
  -- the controller
  have hlen : l.x.length = d.nx := by rw [hx]; simp
  obtain ⟨pb, a, hpb, ha, hu⟩ := live_step mkm E hst S ops ob nEps u0 es' h' l.ctrl hc Sc hn l.x hlen
  rw [← hc.time, ← hc.input, htime] at ha
  have hxx : (fun i : Fin d.nx => l.x.get (i.cast hlen.symm)) = l.sim.st.x0 := by
    funext i
    have : l.x.get (i.cast hlen.symm) = (List.ofFn l.sim.st.x0).get (i.cast (by simp)) := by
      simp [hx]
    rw [this]
    simp
  rw [hxx] at ha
  have ha : a.p = q := ha
  have hR := calls_regular S (ops ++ bC) ob m hp
  have hpr : (wantedCfg mkm S (ops ++ bC) ob).problem m q = configured S (ops ++ bC) ob m q := wantedCfg_problem _ S (ops ++ bC) ob m q
  have hexF : ∃ w, Spec.SolverFeasible l.ctrl.obj w a.p := by
    obtain ⟨π, hπ⟩ := hπ0
    rw [ha]
    exact ⟨_, (after_feasible _ S _ ob l.ctrl.obj haft _ q).2 (admissible_is_feasible _ m hR q π (hpr ▸ hπ))⟩
  have hw := hf pb hpb a hexF
  rw [ha] at hw
  have e1 := feasible_is_admissible _ m hR _ q ((after_feasible _ S _ ob l.ctrl.obj haft _ q).1 hw)
  rw [hpr] at e1
  set π := (wantedCfg mkm S (ops ++ bC) ob).policy (Sc pb a).x with hπdef
  have hu0 : l.ctrl.obj.returnedInput (Sc pb a).x = π.U 0 [] := by
    have e2 : (Sc pb a).x.u 0 0 * (wantedCfg mkm S (ops ++ bC) ob).su = π.U 0 [] := by
      rw [hπdef]
      simp [MpcCfg.policy, MpcCfg.U, number, MpcCfg.uPhys]
    rw [← e2]
    exact congrArg (fun v => (Sc pb a).x.u 0 0 * v) haft.su
  rw [hu0] at hu
  obtain ⟨r, hr, hrp⟩ := hP.params t
  have htv : lastOf simTvpOf sops (fun _ => 0) t = E.tvpFun t 0 := hP.tvp t
  obtain ⟨z, m1, m2, m3, m4, m5, m6⟩ := policy_move m E S (ops ++ bC) ob sops hp t l.sim.st.x0 l.ctrl.st.u0 π r htv e1 hr hrp
  set tv := lastOf simTvpOf sops (fun _ => 0) t with htvd
  set p := lastOf simParamOf sops (fun _ => 0) t with hpd
  set u := π.U 0 [] with hud
  set x' := π.X 1 (extend (lastOf settingsOf (ops ++ bC) S).nRobust 0 [] r) with hxd
  -- the plant
  have hsame : SamePlant m (⟨T.model, T.build E.tStep, E.tStep, lastOf simTvpOf sops fun _ => 0, lastOf simParamOf sops fun _ => 0⟩ : SimEnv K d) := by
    obtain ⟨root, g1, g2⟩ := hT.root
    exact ⟨hT.model, ⟨root, g1 _, g2⟩, hT.unique⟩
  obtain ⟨s1, s2, s3, s4⟩ := sim_step_out T sops E.tStep l.sim hs u
  have hsim := simulate_eq hsame m1 l.sim.st.simZ
  rw [show SimEnv.simulate ⟨T.model, T.build E.tStep, E.tStep, lastOf simTvpOf sops fun _ => 0, lastOf simParamOf sops fun _ => 0⟩ l.sim.st.x0 l.sim.st.simZ u
    (lastOf simTvpOf sops (fun _ => 0) l.sim.st.t0) (lastOf simParamOf sops (fun _ => 0) l.sim.st.t0) 0 = (m.rhs l.sim.st.x0 u z tv p 0, z) from hsim] at s1 s4
  rw [← m2] at s1 s4
  rw [hT.model] at s1
  dsimp only at s1 s4
  set y := m.meas x' u z tv p 0 with hyd
  have s1 : (l.sim.step T { u := some (List.ofFn u) }).2 = .ok y := s1
  -- the estimator
  have hB := means_discrete TM SM mops hpM co hifcn
  rw [hTM] at hB
  obtain ⟨M', hreact, hM'⟩ := live_mheStep TM EM hstM SM mops co _ hB nEpsM M l.est hM (List.ofFn y) Se hg
  have hpl := (mhe_plain_bounds SM mops M.bounds hM.bs hpM).horizon
  have hpp : p = (mheConfigured SM (mops ++ M.bounds) co m TM.sel).merge pT pG := hpar t
  obtain ⟨k1, k2, k3⟩ := informed_step SM mops co m TM.sel E.tStep hdt (lastOf simTvpOf sops fun _ => 0) pT pG M M' hM.bs t l.sim.st.x0 u z x' y _ Se hpl hdef hobs hI
    (by rw [← hpp]; exact m1) (by rw [← hpp]; exact m2) (by rw [← hpp]) (hcov.states _ m5) (hcov.algebraic _ m4) (hcov.inputs _ m3)
    (by rw [← hpp]; exact hcov.constraints _ _ _ _ _ m6) hreact
  -- together
  have hinv := inv_exec mkm E S ops ob nEps u0 es' h' l.ctrl hc (.step l.x Sc) trivial
  have hexec : l.ctrl.exec mkm E (.step l.x Sc) = ((l.ctrl.makeStep E Sc l.x).1, some (l.ctrl.makeStep E Sc l.x).2) := rfl
  rw [hexec, hu] at hinv
  have hexE : l.est.exec TM EM (.step (List.ofFn y) Se) = ((l.est.makeStep EM Se (List.ofFn y)).1, some (l.est.makeStep EM Se (List.ofFn y)).2) := rfl
  rw [hexE] at hM' k1
  have k1 : (l.est.makeStep EM Se (List.ofFn y)).2 = .ok x' := Option.some.inj k1
  have hturn : l.turn T E EM Sc Se = (⟨(l.ctrl.makeStep E Sc l.x).1, (l.sim.step T { u := some (List.ofFn u) }).1, (l.est.makeStep EM Se (List.ofFn y)).1, List.ofFn x'⟩,
      .ok (u, y, x')) := by
    unfold LiveOut.turn
    rcases hA : l.ctrl.makeStep E Sc l.x with ⟨c, rc⟩
    rw [hA] at hu
    simp only at hu
    subst hu
    dsimp only
    rcases hB : l.sim.step T { u := some (List.ofFn u) } with ⟨s, rs⟩
    rw [hB] at s1
    simp only at s1
    subst s1
    dsimp only
    rcases hD : l.est.makeStep EM Se (List.ofFn y) with ⟨e, re⟩
    rw [hD] at k1
    simp only at k1
    subst k1
    rfl
  have hbb : boundsIn (es' ++ [LiveEv.step l.x Sc]) = bC := by
    rw [boundsIn_snoc, hb]; simp [boundsIn]
  have hl' : l' = ⟨(l.ctrl.makeStep E Sc l.x).1, (l.sim.step T { u := some (List.ofFn u) }).1, (l.est.makeStep EM Se (List.ofFn y)).1, List.ofFn x'⟩ := congrArg Prod.fst hturn
  have htc : (l.ctrl.makeStep E Sc l.x).1.st.t0 = t + E.tStep := by
    refine hinv.time.trans ?_
    rw [clock_snoc_step _ _ _ rfl rfl, ← hc.time, htime]
  have haft' := hinv.after
  rw [hbb] at haft'
  rw [hl', hturn]
  refine ⟨⟨⟨_, _, hinv, hbb⟩, s2, ⟨M', hM', ?_, ?_, ?_, ?_⟩, ?_, ?_, ?_⟩, after_problem _ S _ ob _ _ haft' haft, u, y, x', rfl, s4, ⟨z, m1, m2, hyd, m3, m4, m5, m6⟩, ?_⟩
  · dsimp only
    rw [s3, s4, k2]
    exact k3
  · rw [k2]; exact hcov
  · rw [k2]; exact hdef
  · rw [k2]; exact hobs
  · dsimp only
    rw [s3, htc]
  · dsimp only
    rw [s4]
  · dsimp only
    rw [s3, s4]
    exact next_admissible m E S _ ob hp hrob hS hC t l.sim.st.x0 l.ctrl.st.u0 _ π r e1 hr
  · intro hpc hfm
    have hmin := hfm pb hpb a ha (by rw [← ha]; exact hexF)
    obtain ⟨o1, -⟩ := C12_first_input_of_optimal_policy_partial _ m (plain_regular S (ops ++ bC) ob m hpc) _ q ((after_minimises _ S _ ob l.ctrl.obj haft _ q).1 hmin)
    rw [hpr] at o1
    exact ⟨π, r, o1, hr, hrp, rfl, rfl⟩

/-- solvers find the same points for objects after the same calls -/
theorem findsPoint_congr (S : MpcSettings) (calls : List (MpcOp K d)) (ob : Objective K d) (o o' : MpcObj K d) {n : Nat} (Sc : Solver K d n)
    (h : After mkm S calls ob o) (h' : After mkm S calls ob o') (hf : FindsPoint o Sc) : FindsPoint o' Sc := by
  intro pb hpb a ⟨w, hw⟩
  rw [after_feasible _ S _ ob _ h'] at hw ⊢
  have := hf pb (after_problem _ S _ ob _ _ h h' ▸ hpb) a ⟨w, (after_feasible _ S _ ob _ h _ _).2 hw⟩
  rwa [after_feasible _ S _ ob _ h] at this

/-- … and minimisers -/
theorem findsMinimiser_congr (S : MpcSettings) (calls : List (MpcOp K d)) (ob : Objective K d) (o o' : MpcObj K d) {n : Nat} (q : OptP K d) (Sc : Solver K d n)
    (h : After mkm S calls ob o) (h' : After mkm S calls ob o') (hf : FindsMinimiser o q Sc) : FindsMinimiser o' q Sc := by
  intro pb hpb a ha ⟨w, hw⟩
  rw [after_feasible _ S _ ob _ h'] at hw
  have := hf pb (after_problem _ S _ ob _ _ h h' ▸ hpb) a ha ⟨w, (after_feasible _ S _ ob _ h _ _).2 hw⟩
  rw [after_minimises _ S _ ob _ h] at this
  rwa [after_minimises _ S _ ob _ h']

/-- One event. -/
theorem out_exec (hst : ∀ s ∈ E.storeStats, s ∈ validStats) (hstM : ∀ s ∈ EM.storeStats, s ∈ validStats)
    (S : MpcSettings) (ops bC : List (MpcOp K d)) (ob : Objective K d) (nEps : Nat) (u0 : Vec K d.nu) (sops : List (SimOp K d))
    (SM : MheSettings K) (mops : List (MheOp K d ne ns)) (co : MheCost K d ne ns) (nEpsM : Nat) (pT : Vec K ne) (pG : Vec K ns)
    (hT : OutputPlant m T) (hp : ConstraintCalls S (ops ++ bC))
    (hP : PredictsPlant sops E.tStep (lastOf settingsOf (ops ++ bC) S).c (lastOf settingsOf (ops ++ bC) S).nRobust E.tvpFun E.pFun)
    (hrob : FullyRobust (lastOf settingsOf (ops ++ bC) S)) (hS : SafeTerminal S (ops ++ bC) m E.tvpFun E.pFun)
    (hC : ConsistentTime E.tStep (lastOf settingsOf (ops ++ bC) S).N (lastOf settingsOf (ops ++ bC) S).c (lastOf settingsOf (ops ++ bC) S).nRobust E.tvpFun E.pFun)
    (hTM : TM.model = m) (hifcn : ∀ s sx su sz sp, TM.ifcn s sx su sz sp = discreteIfcn TM.model sx su sz sp) (hpM : PlainMheCalls SM mops)
    (hdt : (lastOf mheSettingsOf mops SM).tStep = E.tStep)
    (hpar : ∀ t, lastOf simParamOf sops (fun _ => 0) t = fun i => Sum.elim pT pG (TM.sel i))
    (o : MpcObj K d) (ho : After mkm S (ops ++ bC) ob o)
    (l : LiveOut K d ne ns) (hi : OutInv m T TM E EM S ops bC ob nEps u0 sops SM mops co nEpsM pT pG l)
    (e : OutEv K d ne ns E.nLagr EM.nLagr) (he : SafeOutEv o E.storeStats EM.storeStats e) :
    OutInv m T TM E EM S ops bC ob nEps u0 sops SM mops co nEpsM pT pG (l.exec T mkm E TM EM e).1 := by
  cases e with
  | turn Sc Se =>
    obtain ⟨⟨h1, h2⟩, h3⟩ := he
    have hf : FindsPoint l.ctrl.obj Sc := by
      obtain ⟨es', h', hc, hb⟩ := hi.ctrl
      have haft := hc.after
      rw [hb] at haft
      exact findsPoint_congr m S _ ob _ _ Sc ho haft h1
    exact (out_turn m T TM E EM hst hstM S ops bC ob nEps u0 sops SM mops co nEpsM pT pG hT hp hP hrob hS hC hTM hifcn hpM hdt hpar l hi Sc hf h2 Se h3).1
  | sim op =>
    obtain ⟨f1, -⟩ := safe_fair o E.storeStats (.sim op : LoopEv K d E.nLagr) he
    obtain ⟨j1, j2, j3⟩ := sim_fair T sops E.tStep l.sim hi.sim op f1
    obtain ⟨h1, h2, h3, h4, h5, h6⟩ := hi
    refine ⟨h1, j1, ?_, ?_, ?_, ?_⟩
    · show ∃ M, MheLiveInv TM EM SM mops co nEpsM M l.est ∧ Informed _ _ _ _ _ M (l.sim.exec T op).1.st.t0 (l.sim.exec T op).1.st.x0 ∧ _
      rw [j2, j3]; exact h3
    · exact h4.trans j2.symm
    · exact h5.trans (congrArg List.ofFn j3.symm)
    · show ∃ π, (configured S (ops ++ bC) ob m ⟨(l.sim.exec T op).1.st.x0, E.tvpFun (l.sim.exec T op).1.st.t0, E.pFun (l.sim.exec T op).1.st.t0, l.ctrl.st.u0⟩).Admissible π
      rw [j2, j3]; exact h6
  | ctrl e =>
    obtain ⟨f1, f2⟩ := safe_fair o E.storeStats (.ctrl e : LoopEv K d E.nLagr) he
    have hL : LaterEv e := by cases e <;> first | exact f1 | exact f1.elim
    obtain ⟨⟨es', h', hc, hb⟩, h2, h3, h4, h5, π, h6⟩ := hi
    have hinv := inv_exec mkm E S ops ob nEps u0 es' h' l.ctrl hc e hL
    have hnone : clockSet (e, (l.ctrl.exec mkm E e).2) = none ∧ stepped (e, (l.ctrl.exec mkm E e).2) = false := by
      cases e <;> first | exact f1.elim | exact ⟨rfl, rfl⟩
    have htc : (l.ctrl.exec mkm E e).1.st.t0 = l.ctrl.st.t0 := by
      refine hinv.time.trans ?_
      rw [clock_snoc_other _ _ _ hnone.1 hnone.2, ← hc.time]
    refine ⟨⟨_, _, hinv, ?_⟩, h2, h3, htc.trans h4, h5, π, any_last m S _ ob _ _ _ _ _ π h6⟩
    rw [boundsIn_snoc, hb]
    have : boundsIn [e] = boundsSet [(.ctrl e : LoopEv K d E.nLagr)] := by
      cases e with
      | config op => cases op <;> rfl
      | _ => rfl
    rw [this, f2, List.append_nil]
  | est e =>
    obtain ⟨h1, h2, ⟨M, hM, hI, hrest⟩, h4, h5, h6⟩ := hi
    have hB := means_discrete TM SM mops hpM co hifcn
    have hL : MheLaterEv e := by
      cases e with
      | config op => cases op <;> first | exact he | exact he.elim
      | setX0 x => trivial
      | setU0 x => trivial
      | setZ0 x => trivial
      | _ => exact he.elim
    have hSt : StepsSolved EM.storeStats e := by
      cases e with
      | step y Sv => exact he.elim
      | _ => trivial
    obtain ⟨M', hr, hM'⟩ := live_exec TM EM hstM SM mops co _ hB nEpsM M l.est hM e hL hSt
    have hkeep : M' = M ∨ ∃ x, M' = { M with x := x } := by
      cases e with
      | config op => left; cases op <;> first | exact hr | exact he.elim
      | setX0 x => right; exact ⟨x, hr⟩
      | setU0 x => left; exact hr
      | setZ0 x => left; exact hr
      | _ => exact he.elim
    refine ⟨h1, h2, ⟨M', hM', ?_⟩, h4, h5, h6⟩
    rcases hkeep with rfl | ⟨x, rfl⟩
    · exact ⟨hI, hrest⟩
    · obtain ⟨i1, i2, i3, i4, i5, i6⟩ := hI
      exact ⟨⟨i1, i2, i3, i4, i5, i6⟩, hrest⟩

theorem out_run (hst : ∀ s ∈ E.storeStats, s ∈ validStats) (hstM : ∀ s ∈ EM.storeStats, s ∈ validStats)
    (S : MpcSettings) (ops bC : List (MpcOp K d)) (ob : Objective K d) (nEps : Nat) (u0 : Vec K d.nu) (sops : List (SimOp K d))
    (SM : MheSettings K) (mops : List (MheOp K d ne ns)) (co : MheCost K d ne ns) (nEpsM : Nat) (pT : Vec K ne) (pG : Vec K ns)
    (hT : OutputPlant m T) (hp : ConstraintCalls S (ops ++ bC))
    (hP : PredictsPlant sops E.tStep (lastOf settingsOf (ops ++ bC) S).c (lastOf settingsOf (ops ++ bC) S).nRobust E.tvpFun E.pFun)
    (hrob : FullyRobust (lastOf settingsOf (ops ++ bC) S)) (hS : SafeTerminal S (ops ++ bC) m E.tvpFun E.pFun)
    (hC : ConsistentTime E.tStep (lastOf settingsOf (ops ++ bC) S).N (lastOf settingsOf (ops ++ bC) S).c (lastOf settingsOf (ops ++ bC) S).nRobust E.tvpFun E.pFun)
    (hTM : TM.model = m) (hifcn : ∀ s sx su sz sp, TM.ifcn s sx su sz sp = discreteIfcn TM.model sx su sz sp) (hpM : PlainMheCalls SM mops)
    (hdt : (lastOf mheSettingsOf mops SM).tStep = E.tStep)
    (hpar : ∀ t, lastOf simParamOf sops (fun _ => 0) t = fun i => Sum.elim pT pG (TM.sel i))
    (o : MpcObj K d) (ho : After mkm S (ops ++ bC) ob o) (es : List (OutEv K d ne ns E.nLagr EM.nLagr)) :
    ∀ l : LiveOut K d ne ns, OutInv m T TM E EM S ops bC ob nEps u0 sops SM mops co nEpsM pT pG l → (∀ e ∈ es, SafeOutEv o E.storeStats EM.storeStats e) →
    OutInv m T TM E EM S ops bC ob nEps u0 sops SM mops co nEpsM pT pG (l.run T mkm E TM EM es) := by
  induction es with
  | nil => intro l hi _; exact hi
  | cons e es ih =>
    intro l hi he
    exact ih _ (out_exec m T TM E EM hst hstM S ops bC ob nEps u0 sops SM mops co nEpsM pT pG hT hp hP hrob hS hC hTM hifcn hpM hdt hpar o ho l hi e (he e (by simp)))
      fun e' h' => he e' (by simp [h'])

end

/-- **C114** (discrete-time models): configure an MPC object, a simulator and a moving horizon estimator of the same model by any calls, `setup()` the three and do anything with each
of them (`preC`, `preS`, `preE`).  If then the clocks agree, the estimator knows enough (`Informed`: exact priors and measurements, for as long as its window reaches back), has definite
costs and measured inputs and admits what the controller admits, the terminal bounds are robust control invariant and the problem asked for has *one* admissible policy, then after
whatever happens from there on (`es`: turns, guesses, `solve()`, refused calls, …, in any order and number) the script's `x0` is exactly the state of the plant, the estimated parameters
are the plant's, and the next turn succeeds: it moves the plant within all bounds and constraints and estimates its next state exactly – with a solver of the controller that merely
finds feasible points.  If it finds global minimisers, the input is the first one of an optimal policy for the state which the plant is in, and the plant's next state is the predicted
one. -/
theorem C114_output_feedback (S : MpcSettings) (m : DaeModel K d) (E : MpcEnv K d) (hst : ∀ s ∈ E.storeStats, s ∈ validStats) (ops : List (MpcOp K d))
    (hc : ∀ op ∈ ops, Configures op) (T : SimTools K d) (hT : OutputPlant m T) (sops : List (SimOp K d)) (hsc : ∀ op ∈ sops, SimConfigures op)
    (hP : PredictsPlant sops E.tStep (lastOf settingsOf ops S).c (lastOf settingsOf ops S).nRobust E.tvpFun E.pFun)
    (hC : ConsistentTime E.tStep (lastOf settingsOf ops S).N (lastOf settingsOf ops S).c (lastOf settingsOf ops S).nRobust E.tvpFun E.pFun)
    (hrob : FullyRobust (lastOf settingsOf ops S))
    (TM : MheTools K d ne ns) (hTM : TM.model = m) (hifcn : ∀ s sx su sz sp, TM.ifcn s sx su sz sp = discreteIfcn TM.model sx su sz sp)
    (SM : MheSettings K) (EM : MheEnv K d ne ns) (hstM : ∀ s ∈ EM.storeStats, s ∈ validStats) (mops : List (MheOp K d ne ns)) (hmc : ∀ op ∈ mops, MheConfigures op)
    (hdt : (lastOf mheSettingsOf mops SM).tStep = E.tStep) (pT : Vec K ne) (pG : Vec K ns)
    (hpar : ∀ t, lastOf simParamOf sops (fun _ => 0) t = fun i => Sum.elim pT pG (TM.sel i))
    (nEps nEpsM : Nat) (x0 : Vec K d.nx) (u0 : Vec K d.nu) (z0 : Vec K d.nz) (xe : Vec K d.nx) (ue : Vec K d.nu) (ze : Vec K d.nz) (pe : Vec K ne)
    (preC : List (LiveEv K d E.nLagr)) (hpreC : ∀ e ∈ preC, LaterEv e) (preS : List (SimOp K d)) (hpreS : ∀ op ∈ preS, SimLater op)
    (preE : List (MheLiveEv K d ne ns EM.nLagr)) (hpreE : ∀ e ∈ preE, MheLaterEv e) (hsE : ∀ y Sv, MheLiveEv.step y Sv ∈ preE → GlobalSolver EM.storeStats Sv)
    (es : List (OutEv K d ne ns E.nLagr EM.nLagr)) :
    let mk := fun sx su sz => discreteIfcn m sx su sz 1
    let o1 := (MpcObj.new S : MpcObj K d).run mk ops
    let s1 := (SimObj.new : SimObj K d).run T sops
    let m1 := (MheObj.new SM : MheObj K d ne ns).run TM mops
    let c0 := (Live.start E (o1.exec mk .setup).1 nEps x0 u0 z0).run mk E preC
    let s0 := (s1.exec T .setup).1.run T preS
    let e0 := MheLive.start EM (m1.exec TM .setup).1 nEpsM xe ue ze pe
    let l := LiveOut.run T mk E TM EM ⟨c0, s0, e0.run TM EM preE, List.ofFn s0.st.x0⟩ es
    let calls := ops ++ boundsIn preC
    (o1.exec mk .setup).2 = none → (s1.exec T .setup).2 = none → (m1.exec TM .setup).2 = none →
    ConstraintCalls S calls → SafeTerminal S calls m E.tvpFun E.pFun → PlainMheCalls SM mops →
    c0.st.t0 = s0.st.t0 → (∀ e ∈ es, SafeOutEv c0.obj E.storeStats EM.storeStats e) →
      ∃ ob co, lastOf (fun op => (objectiveOf op).map some) ops none = some ob ∧ lastOf (fun op => (mheCostOf op).map some) mops none = some co ∧
        ((∀ M, IdealHistory (bestDiscrete SM mops co m TM.sel) (Memory.start mops xe pe) (e0.history TM EM preE) M →
            let task := mheConfigured SM (mops ++ M.bounds) co m TM.sel
            Informed task E.tStep (lastOf simTvpOf sops fun _ => 0) pT pG M s0.st.t0 s0.st.x0 ∧ Covers S calls task ∧ task.DefiniteCosts ∧ task.InputsObserved) →
          (∃ π, (configured S calls ob m ⟨s0.st.x0, E.tvpFun s0.st.t0, E.pFun s0.st.t0, c0.st.u0⟩).Admissible π) →
          l.x = List.ofFn l.sim.st.x0 ∧ l.est.st.pEst0 = pT ∧
          ∀ Sc Se, FindsPoint c0.obj Sc → ReportsNumbers E.storeStats Sc → GlobalSolver EM.storeStats Se →
            let t := l.sim.st.t0
            let p := lastOf simParamOf sops (fun _ => 0) t
            let problem := configured S calls ob m ⟨l.sim.st.x0, E.tvpFun t, E.pFun t, l.ctrl.st.u0⟩
            ∃ u y x', (l.turn T E EM Sc Se).2 = .ok (u, y, x') ∧ (l.turn T E EM Sc Se).1.sim.st.x0 = x' ∧
              SafeMove S calls m l.sim.st.x0 (lastOf simTvpOf sops (fun _ => 0) t) p u x' y ∧
              (PlainCalls S ops → FindsMinimiser c0.obj ⟨l.sim.st.x0, E.tvpFun t, E.pFun t, l.ctrl.st.u0⟩ Sc →
                ∃ π r, problem.Optimal π ∧ MayOccur problem.c problem.nR 0 [] r ∧ p = E.pFun t r ∧ u = π.U 0 [] ∧ x' = π.X 1 (extend problem.nR 0 [] r))) := by
  intro mk o1 s1 m1 c0 s0 e0 l calls hs hss hsm hp hS hpM htime he
  obtain ⟨ob, hob, hi0⟩ := inv_start mk E S ops hc hs nEps x0 u0 z0
  have hi1 := inv_run mk E S ops ob nEps u0 preC [] [] _ hi0 hpreC
  rw [List.nil_append, List.nil_append] at hi1
  obtain ⟨co, hco, hm0⟩ := live_start TM EM SM mops hmc hsm nEpsM xe ue ze pe
  refine ⟨ob, co, hob, hco, ?_⟩
  intro hinf hπ
  have hB := means_discrete TM SM mops hpM co hifcn
  rw [hTM] at hB
  obtain ⟨M, hM1, hM2⟩ := live_history TM EM hstM SM mops co _ hB nEpsM preE _ _ hm0 hpreE fun e hm => by
    cases e with
    | step y Sv => exact hsE y Sv hm
    | _ => trivial
  have hset : lastOf settingsOf calls S = lastOf settingsOf ops S := settings_bounds S ops preC
  rw [← hset] at hP hC hrob
  have hsr := sim_later_run T sops E.tStep preS _ (sim_setup T sops hsc E.tStep hP.step hss).1 hpreS
  have hinv0 : OutInv m T TM E EM S ops (boundsIn preC) ob nEps u0 sops SM mops co nEpsM pT pG ⟨c0, s0, e0.run TM EM preE, List.ofFn s0.st.x0⟩ :=
    ⟨⟨preC, _, hi1, rfl⟩, hsr, ⟨M, hM2, hinf M hM1⟩, htime, rfl, hπ⟩
  have hinv := out_run m T TM E EM hst hstM S ops (boundsIn preC) ob nEps u0 sops SM mops co nEpsM pT pG hT hp hP hrob hS hC hTM hifcn hpM hdt hpar c0.obj hi1.after es _ hinv0 he
  refine ⟨hinv.x, ?_, ?_⟩
  · obtain ⟨M', hM', hI', -⟩ := hinv.est
    exact hM'.pEst.trans hI'.params
  · intro Sc Se hf hn hg t p problem
    obtain ⟨es', h', hcI, hb⟩ := hinv.ctrl
    have haft := hcI.after
    rw [hb] at haft
    obtain ⟨-, -, u, y, x', r1, r2, r3, r4⟩ := out_turn m T TM E EM hst hstM S ops (boundsIn preC) ob nEps u0 sops SM mops co nEpsM pT pG hT hp hP hrob hS hC hTM hifcn hpM hdt hpar
      l hinv Sc (findsPoint_congr m S _ ob _ _ Sc hi1.after haft hf) hn Se hg
    exact ⟨u, y, x', r1, r2, r3, fun hpc hfm => r4 (plain_bounds S ops preC hpc) (findsMinimiser_congr m S _ ob _ _ _ Sc hi1.after haft hfm)⟩

/-! ## Non-vacuity -/
namespace OutLiveEx

/-- one state, one input, both measured -/
abbrev dl : Dims := ⟨1, 1, 0, 0, 0, 0, 0, 2, 0⟩
abbrev i0 : Fin dl.nx := ⟨0, by decide⟩
abbrev j0 : Fin dl.nu := ⟨0, by decide⟩
/-- `x⁺ = x + u` -/
abbrev ml : DaeModel ℚ dl where
  rhs := fun x u _ _ _ _ i => x i + u j0
  alg := fun _ _ z _ _ _ => z
  meas := fun x u _ _ _ _ => fun k => if k = 0 then x i0 else u j0
  aux := fun _ _ _ _ _ i => i.elim0
abbrev mkOf {K : Type} [Field K] {d : Dims} (m : DaeModel K d) : Vec K d.nx → Vec K d.nu → Vec K d.nz → Ifcn K d := fun sx su sz => discreteIfcn m sx su sz 1
abbrev mkL : Vec ℚ dl.nx → Vec ℚ dl.nu → Vec ℚ dl.nz → Ifcn ℚ dl := mkOf ml
abbrev Sc0 : MpcSettings := ⟨2, 0, 1, false, false, false, false, true⟩
abbrev obL : Objective ℚ dl := ⟨fun x _ _ _ _ => x i0 * x i0, fun x _ _ => x i0 * x i0⟩
abbrev conL : NlCall ℚ dl := { name := "c", dim := 1, expr := fun x _ _ _ _ _ => x i0, ub := .fin 2, soft := true, penalty := 10, maxViolation := .fin 1 }
def opsL : List (MpcOp ℚ dl) :=
  [.setObjective obL, .bound .upper (.x i0) (.fin 7), .setNlCons { conL with soft := false }, .terminalBound .upper i0 (.fin 1)]
/-- a bound between `setup()` and the loop -/
def preL (n : Nat) : List (LiveEv ℚ dl n) := [.config (.bound .upper (.x i0) (.fin 3))]
def callsL : List (MpcOp ℚ dl) := opsL ++ [.bound .upper (.x i0) (.fin 3)]
def EL : MpcEnv ℚ dl where
  model := ml
  cfg := wantedCfg mkL Sc0 opsL obL
  tStep := 1
  tvpFun := fun _ _ => 0
  pFun := fun _ _ => 0
  nOptX := 0
  nOptP := 0
  nOptAux := 0
  nLagr := 0
  flatX := fun _ i => i.elim0
  flatP := fun _ i => i.elim0
  flatAux := fun _ _ i => i.elim0
def TL : SimTools ℚ dl := ⟨ml, fun _ => .discrete (fun z _ _ _ _ _ => z), fun z _ _ _ _ => z⟩
def sopsL : List (SimOp ℚ dl) := [.setParam 1]
abbrev TML : MheTools ℚ dl 0 0 := ⟨ml, fun i => i.elim0, fun _ sx su sz _ => discreteIfcn ml sx su sz 1⟩
abbrev SML : MheSettings ℚ := ⟨1, 1, true, false, false, true⟩
abbrev coL : MheCost ℚ dl 0 0 := ⟨fun _ _ _ _ => 0, fun x xp _ _ _ => (x i0 - xp i0) ^ 2⟩
def mopsL : List (MheOp ℚ dl 0 0) := [.setObjective coL, .bound .upper (.x i0) (.fin 5)]
def EML : MheEnv ℚ dl 0 0 where
  cfg := mheWantedCfg TML SML mopsL coL
  tStep := 1
  tvpFun := fun _ _ => 0
  pFun := fun _ => 0
  nOptX := 0
  nOptP := 0
  nOptAux := 0
  nLagr := 0
  flatX := fun _ i => i.elim0
  flatP := fun _ i => i.elim0
  flatAux := fun _ _ i => i.elim0

def zx : Vec ℚ dl.nx := fun _ => 0
def zu : Vec ℚ dl.nu := fun _ => 0
def zz : Vec ℚ dl.nz := fun _ => 0
def zp : Vec ℚ 0 := fun _ => 0
abbrev c0L : Live ℚ dl := (Live.start EL (((MpcObj.new Sc0).run mkL opsL).exec mkL .setup).1 0 zx zu zz).run mkL EL (preL EL.nLagr)
abbrev s0L : SimObj ℚ dl := (((SimObj.new).run TL sopsL).exec TL .setup).1.run TL []
abbrev e0L : MheLive ℚ dl 0 0 := MheLive.start EML (((MheObj.new SML).run TML mopsL).exec TML .setup).1 0 zx zu zz zp
def lL : LiveOut ℚ dl 0 0 := ⟨c0L, s0L, e0L.run TML EML [.guess], List.ofFn s0L.st.x0⟩

open Classical in
/-- a solver that finds some point that satisfies the constraints if there is one -/
noncomputable def ScL : Solver ℚ dl EL.nLagr := fun _ a =>
  ⟨if h : ∃ w, Spec.SolverFeasible c0L.obj w a.p then h.choose else ⟨fun _ _ _ _ => 0, fun _ _ _ _ => 0, fun _ _ _ => 0, fun _ _ _ _ => 0⟩, fun i => i.elim0, [], []⟩

theorem ScL_finds : FindsPoint c0L.obj ScL := by
  intro pb _ a h
  have : (ScL pb a).x = h.choose := dif_pos h
  rw [this]
  exact h.choose_spec

theorem ScL_numbers : ReportsNumbers EL.storeStats ScL := fun _ _ s hs => by simp [ScL] at hs

theorem inStates (x : Vec ℚ dl.nx) : InStateBounds callsL x ↔ x i0 ≤ 3 := by
  have h1 : lastOf (boundOf .lower (.x i0)) callsL .ninf = (.ninf : Bound ℚ) := by decide +kernel
  have h2 : lastOf (boundOf .upper (.x i0)) callsL .pinf = (.fin 3 : Bound ℚ) := by decide +kernel
  unfold InStateBounds
  constructor
  · intro h
    have := (h i0).2
    rw [h2] at this
    exact this
  · intro h j
    obtain rfl : j = i0 := Subsingleton.elim (α := Fin 1) _ _
    rw [h1, h2]
    exact ⟨trivial, h⟩

theorem inInputs (u : Vec ℚ dl.nu) : InInputBounds callsL u := by
  intro j
  obtain rfl : j = j0 := Subsingleton.elim (α := Fin 1) _ _
  have h1 : lastOf (boundOf .lower (.u j0)) callsL .ninf = (.ninf : Bound ℚ) := by decide +kernel
  have h2 : lastOf (boundOf .upper (.u j0)) callsL .pinf = (.pinf : Bound ℚ) := by decide +kernel
  rw [h1, h2]
  exact ⟨trivial, trivial⟩

theorem terminalL (s : Side) : terminalWanted callsL (lastOf settingsOf callsL Sc0) s i0 = match s with | .lower => .ninf | .upper => .fin 1 := by
  unfold terminalWanted
  cases s with
  | lower => split_ifs <;> decide +kernel
  | upper =>
    rw [if_neg]
    · decide +kernel
    · rintro ⟨h, -⟩
      have := h i0
      revert this
      decide +kernel

theorem inTerminal (x : Vec ℚ dl.nx) : InTerminalBounds Sc0 callsL x ↔ x i0 ≤ 1 := by
  unfold InTerminalBounds
  constructor
  · intro h
    have := (h i0).2
    rw [terminalL] at this
    exact this
  · intro h j
    obtain rfl : j = i0 := Subsingleton.elim (α := Fin 1) _ _
    rw [terminalL, terminalL]
    exact ⟨trivial, h⟩

theorem consL : callsL.filterMap nlConsOf = [{ conL with soft := false }] := rfl

theorem callsOkL : ConstraintCalls Sc0 callsL where
  cpos := by decide
  horizon := by decide
  slack := rfl
  noColl := rfl
  noAlg := .inl rfl
  scaling := by
    intro v
    cases v with
    | x j => exact (by decide +kernel : (0 : ℚ) < 1)
    | u j => exact (by decide +kernel : (0 : ℚ) < 1)
    | z j => exact (by decide +kernel : (0 : ℚ) < 1)
  names := by decide

theorem safeL : SafeTerminal Sc0 callsL ml EL.tvpFun EL.pFun where
  inside := fun x h => by
    rw [inTerminal] at h
    rw [inStates]
    linarith
  noSlack := fun call hcall hs => by
    rw [consL, List.mem_singleton] at hcall
    subst hcall
    cases hs
  invariant := fun t x h => by
    refine ⟨0, inInputs 0, fun r _ => ⟨fun i => i.elim0, funext fun i => i.elim0, fun j => j.elim0, ?_, ?_⟩⟩
    · intro call hcall i hi
      rw [consL, List.mem_singleton] at hcall
      subst hcall
      have := (inTerminal x).1 h
      show x i0 ≤ 2
      linarith
    · rw [inTerminal] at h ⊢
      show x i0 + 0 ≤ 1
      linarith

theorem admissibleL (ob' : Objective ℚ dl) (q : OptP ℚ dl) (hq : q.x0 i0 ≤ 1) : ∃ π, (configured Sc0 callsL ob' ml q).Admissible π := by
  refine ⟨⟨fun _ _ => q.x0, fun _ _ => 0, fun _ _ i => i.elim0, fun _ _ _ _ => 0⟩, ⟨rfl, ?_⟩, ?_, ?_, ?_, ?_, ?_, ?_, ?_⟩
  · intro k _ h _ r _
    refine ⟨funext fun i => i.elim0, ?_⟩
    funext i
    show q.x0 i = q.x0 i + 0
    rw [add_zero]
  · intro k _ _ h _
    exact (inStates q.x0).2 (by linarith)
  · intro h _
    exact (inTerminal q.x0).2 hq
  · intro k _ h _
    exact inInputs 0
  · intro k _ h _ j
    exact j.elim0
  · intro k _ h _ r _ call hcall i hi
    change call ∈ callsL.filterMap nlConsOf at hcall
    rw [consL, List.mem_singleton] at hcall
    subst hcall
    show q.x0 i0 ≤ 2
    linarith
  · intro k _ h _ call hcall hs
    change call ∈ callsL.filterMap nlConsOf at hcall
    rw [consL, List.mem_singleton] at hcall
    subst hcall
    cases hs
  · intro _ k _ h h' _ _
    rfl

theorem plantL : OutputPlant ml TL where
  model := rfl
  root := ⟨fun z _ _ _ _ _ => z, fun _ => rfl, fun _ _ _ _ _ => funext fun i => i.elim0⟩
  unique := fun _ _ _ _ _ _ _ _ => funext fun i => i.elim0

theorem plainL : PlainMheCalls SML mopsL where
  horizon := by decide
  noColl := rfl
  allPoints := rfl
  names := by decide
  sx := fun _ => (by decide +kernel : (0 : ℚ) < 1)
  su := fun _ => (by decide +kernel : (0 : ℚ) < 1)
  sz := fun j => j.elim0
  sp := fun j => j.elim0

/-- the problem that the estimator solves after `set_initial_guess()` -/
abbrev taskL := mheConfigured SML (mopsL ++ []) coL ml TML.sel

theorem boxL (x : Vec ℚ dl.nx) (h : x i0 ≤ 5) : Within taskL.xlb taskL.xub x := by
  intro j
  obtain rfl : j = i0 := Subsingleton.elim (α := Fin 1) _ _
  exact ⟨trivial, h⟩

theorem coversL : Covers Sc0 callsL taskL where
  states := fun x h => by
    rw [if_neg (by decide)] at h
    have := (inStates x).1 h
    exact boxL x (by linarith)
  inputs := fun u _ j => by
    obtain rfl : j = j0 := Subsingleton.elim (α := Fin 1) _ _
    exact ⟨trivial, trivial⟩
  algebraic := fun z _ j => j.elim0
  constraints := fun x u z tv p _ call hcall => by simp [mheConfigured, mopsL, mheNlConsOf] at hcall

theorem definiteL : taskL.DefiniteCosts := by
  refine ⟨fun w v tv p => ⟨le_refl (0 : ℚ), fun _ => ⟨funext fun i => i.elim0, funext fun i => i.elim0⟩, fun _ => rfl⟩, fun x xp p pp g => ⟨sq_nonneg _, fun h => ⟨?_, funext fun i => i.elim0⟩, ?_⟩, ?_⟩
  · funext j
    obtain rfl : j = i0 := Subsingleton.elim (α := Fin 1) _ _
    exact sub_eq_zero.1 (pow_eq_zero_iff (two_ne_zero) |>.1 h)
  · rintro ⟨rfl, -⟩
    show (x i0 - x i0) ^ 2 = 0
    rw [sub_self]
    norm_num
  · intro call hcall
    simp [mheConfigured, mopsL, mheNlConsOf] at hcall

theorem observedL : taskL.InputsObserved := by
  refine ⟨fun x x' u u' z z' tv p h => ?_, fun _ _ _ _ _ _ _ _ => funext fun i => i.elim0⟩
  funext j
  obtain rfl : j = j0 := Subsingleton.elim (α := Fin 1) _ _
  exact congrFun h (1 : Fin 2)

/-- what is known after `set_initial_guess()` -/
theorem informedL : Informed taskL EL.tStep (lastOf simTvpOf sopsL fun _ => 0) zp zp
    { Memory.start mopsL zx zp with prior := zx } 0 0 where
  time := rfl
  params := rfl
  given := fun _ => rfl
  tvp := fun _ _ _ => rfl
  measurements := rfl
  window := by
    refine ⟨[], fun _ => 0, fun _ => 0, fun _ => 0, ⟨?_, ?_, ?_, ?_, fun j => j.elim0⟩, rfl, rfl, rfl⟩
    · intro k hk; exact absurd hk (Nat.not_lt_zero k)
    · intro k hk; exact absurd hk (Nat.not_lt_zero k)
    · intro k _; exact boxL 0 (by show (0 : ℚ) ≤ 5; norm_num)
    · intro k hk; exact absurd hk (Nat.not_lt_zero k)


/-- Non-vacuity of `C114_output_feedback`: every hypothesis holds for this script – a turn, `simulator.set_initial_guess()`, an assignment to `mhe.u0`, a refused call, a turn – and
the initial state 0; the next turn succeeds and its estimate is the state of the plant, which is at most 3. -/
example (Se : MheSolver ℚ dl 0 0 EML.nLagr) (hSe : GlobalSolver EML.storeStats Se) :
    let es : List (OutEv ℚ dl 0 0 EL.nLagr EML.nLagr) := [.turn ScL Se, .sim .setInitialGuess, .est (.setU0 fun _ => 4), .est (.config (.setObjective coL)), .turn ScL Se]
    let l := LiveOut.run TL mkL EL TML EML lL es
    ∃ u y x', (l.turn TL EL EML ScL Se).2 = .ok (u, y, x') ∧ (l.turn TL EL EML ScL Se).1.sim.st.x0 = x' ∧ x' i0 ≤ 3 ∧ x' i0 = l.sim.st.x0 i0 + u j0 ∧ y 0 = x' i0 := by
  intro es l
  have hs0 : s0L.st.x0 = 0 := by decide +kernel
  have ht0 : s0L.st.t0 = 0 := by decide +kernel
  obtain ⟨ob, co, -, hco, h⟩ := C114_output_feedback Sc0 ml EL (by simp [EL]) opsL (by simp [opsL, Configures]) TL plantL sopsL (by simp [sopsL, SimConfigures])
    ⟨rfl, fun _ => rfl, fun t => ⟨0, by unfold MayOccur; rw [if_neg (by decide +kernel)]; rfl, rfl⟩⟩ ⟨fun _ _ _ => rfl, fun _ _ _ => rfl⟩ (.inl rfl) TML rfl
    (fun _ _ _ _ _ => rfl) SML EML (by simp [EML]) mopsL (by simp [mopsL, MheConfigures]) rfl zp zp (fun _ => funext fun i => i.elim0) 0 0 zx zu zz zx zu zz zp (preL _)
    (by intro e he; rw [preL, List.mem_singleton] at he; subst he; trivial) [] (by simp) [.guess] (by intro e he; rw [List.mem_singleton] at he; subst he; trivial)
    (by simp) es (by decide +kernel) (by decide +kernel) (by decide +kernel) callsOkL safeL plainL (by decide +kernel)
    (by
      intro e he
      simp only [es, List.mem_cons, List.not_mem_nil, or_false] at he
      rcases he with rfl | rfl | rfl | rfl | rfl
      · exact ⟨⟨ScL_finds, ScL_numbers⟩, hSe⟩
      · trivial
      · trivial
      · trivial
      · exact ⟨⟨ScL_finds, ScL_numbers⟩, hSe⟩)
  have : some co = some coL := hco.symm
  cases this
  have h2 := h (by
    intro M hM
    obtain ⟨M1, h1, h3⟩ := hM
    have h1 : M1 = _ := h1
    subst h1
    have h3 : M = _ := h3
    subst h3
    intro task
    refine ⟨?_, coversL, definiteL, observedL⟩
    have key : ∀ (x : Vec ℚ dl.nx) t, x = 0 → t = 0 → Informed taskL EL.tStep (lastOf simTvpOf sopsL fun _ => 0) zp zp
        { Memory.start mopsL zx zp with prior := zx } t x := by
      rintro _ _ rfl rfl; exact informedL
    exact key _ _ hs0 ht0)
    (admissibleL ob _ (by
      have key : ∀ x : Vec ℚ dl.nx, x = 0 → x i0 ≤ 1 := by rintro x rfl; show (0 : ℚ) ≤ 1; norm_num
      exact key _ hs0))
  obtain ⟨u, y, x', g1, g2, ⟨z, -, g3, g4, -, -, g5, -⟩, -⟩ := h2.2.2 ScL Se ScL_finds ScL_numbers hSe
  rw [if_neg (by decide)] at g5
  have k1 : ∀ (a b : Vec ℚ dl.nx) (u : Vec ℚ dl.nu) (z : Vec ℚ dl.nz) tv p, b = ml.rhs a u z tv p 0 → b i0 = a i0 + u j0 := by
    rintro a _ u z tv p rfl; rfl
  have k2 : ∀ (a : Vec ℚ dl.nx) (b : Vec ℚ dl.ny) (u : Vec ℚ dl.nu) (z : Vec ℚ dl.nz) tv p, b = ml.meas a u z tv p 0 → b 0 = a i0 := by
    rintro a _ u z tv p rfl; rfl
  have k3 := k1 _ _ _ _ _ _ g3
  have k4 := k2 _ _ _ _ _ _ g4
  have k5 := (inStates x').1 g5
  subst l
  delta lL c0L s0L e0L mkL mkOf
  exact ⟨u, y, x', g1, g2, k5, k3, k4⟩

end OutLiveEx
end DoMpc
