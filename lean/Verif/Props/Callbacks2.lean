import Verif.Props.Callbacks

set_option linter.unusedSectionVars false

/-!
# C107: simulator, estimator, and when the functions are called
-/
namespace DoMpc
variable {K : Type} [Field K] [LinearOrder K] [IsStrictOrderedRing K] {d : Dims} {ne ns : Nat} {W Ref : Type}
open Spec
variable (R : Contents K d ns W Ref) (EM : MpcEnv K d) (ES : SimEnv K d) (EE : MheEnv K d ne ns)

/-- what a step of the estimator leaves alone -/
theorem act_mhe_others (P : Prog K d ne ns W Ref) (S : MheArgs K d ne ns → MheResult K d ne EE.nLagr) (y0 : List K) :
    let Q := P.act R EM ES EE (.mheStep S y0)
    Q.sim = P.sim ∧ Q.simSeen = P.simSeen ∧ Q.simOut = P.simOut ∧ Q.simTvp = P.simTvp ∧ Q.simP = P.simP ∧ Q.mpc = P.mpc ∧ Q.mheY = P.mheY := by
  simp only [Prog.act]
  split
  · split
    · simp
    · split <;> simp_all
  · simp

/-! ## the simulator -/

abbrev stepS (v : Vec K d.ntv × Vec K d.np) (st : SimSt K d) (c : SimCall K) : SimSt K d × Except String (Vec K d.ny) := (ES.withValues v).makeStep st c

theorem sim_project (ops : List (UserOp K d ne ns EM.nLagr EE.nLagr W Ref)) (hi : ¬ Inits ops) : ∀ (P : Prog K d ne ns W Ref),
    (∀ o ∈ (P.run R EM ES EE ops).simOut, ∃ y, o = .ok y) →
    ∃ vs : List (Vec K d.ntv × Vec K d.np), vs.length = (simSteps ops).length ∧ (P.run R EM ES EE ops).simSeen = P.simSeen ++ vs ∧
      (P.run R EM ES EE ops).sim = (runV (stepS ES) P.sim ((simSteps ops).zip vs)).1 ∧
      (P.run R EM ES EE ops).simOut = P.simOut ++ (runV (stepS ES) P.sim ((simSteps ops).zip vs)).2 := by
  induction ops with
  | nil => exact fun P _ => ⟨[], rfl, by simp [Prog.run], rfl, by simp [Prog.run, simSteps, runV]⟩
  | cons op ops ih =>
    intro P hok
    have hrun : P.run R EM ES EE (op :: ops) = (P.act R EM ES EE op).run R EM ES EE ops := rfl
    rw [hrun] at hok ⊢
    obtain ⟨vs, hl, h1, h2, h3⟩ := ih (fun ⟨o, ho, h⟩ => hi ⟨o, List.mem_cons_of_mem _ ho, h⟩) _ hok
    have other : simSteps (op :: ops) = simSteps ops → (P.act R EM ES EE op).sim = P.sim → (P.act R EM ES EE op).simSeen = P.simSeen →
        (P.act R EM ES EE op).simOut = P.simOut → _ := fun e1 e2 e3 e4 =>
      (⟨vs, by rw [e1]; exact hl, by rw [h1, e3], by rw [h2, e1, e2], by rw [h3, e1, e2, e4]⟩ :
        ∃ vs : List (Vec K d.ntv × Vec K d.np), vs.length = (simSteps (op :: ops)).length ∧
          ((P.act R EM ES EE op).run R EM ES EE ops).simSeen = P.simSeen ++ vs ∧
          ((P.act R EM ES EE op).run R EM ES EE ops).sim = (runV (stepS ES) P.sim ((simSteps (op :: ops)).zip vs)).1 ∧
          ((P.act R EM ES EE op).run R EM ES EE ops).simOut = P.simOut ++ (runV (stepS ES) P.sim ((simSteps (op :: ops)).zip vs)).2)
    cases op with
    | simStep c =>
      by_cases ha : P.sim.setup = true ∧ (argInput d.nu c.u).isSome ∧ (argVec d.nw c.w).isSome ∧ (argVec d.nv c.v).isSome
      · refine ⟨(R.simTvp (P.simP P.sim.t0 (P.simTvp P.sim.t0 P.world).2).2 (P.simTvp P.sim.t0 P.world).1,
          R.simP (P.simP P.sim.t0 (P.simTvp P.sim.t0 P.world).2).2 (P.simP P.sim.t0 (P.simTvp P.sim.t0 P.world).2).1) :: vs, ?_, ?_, ?_, ?_⟩
        · simp [simSteps, hl]
        · rw [h1]; simp [Prog.act, ha]
        · rw [h2]; simp [Prog.act, ha, simSteps, runV]
        · rw [h3]; simp [Prog.act, ha, simSteps, runV]
      · exfalso
        obtain ⟨u, hu⟩ := hok (.error "AssertionError") (by rw [h3]; simp [Prog.act, ha])
        cases hu
    | simInit root => exact absurd ⟨_, List.mem_cons_self .., root, rfl⟩ hi
    | edit e => exact other rfl rfl rfl rfl
    | setMpcTvp f => exact other rfl rfl rfl rfl
    | setMpcP f => exact other rfl rfl rfl rfl
    | setSimTvp f => exact other rfl rfl rfl rfl
    | setSimP f => exact other rfl rfl rfl rfl
    | setMheTvp f => exact other rfl rfl rfl rfl
    | setMheP f => exact other rfl rfl rfl rfl
    | setMheY f => exact other rfl rfl rfl rfl
    | mpcStep S x0 =>
      by_cases ha : P.mpc.setup = true ∧ x0.length = d.nx
      · exact other rfl (by simp [Prog.act, ha]) (by simp [Prog.act, ha]) (by simp [Prog.act, ha])
      · exact other rfl (by simp [Prog.act, ha]) (by simp [Prog.act, ha]) (by simp [Prog.act, ha])
    | mheStep S y0 =>
      obtain ⟨k1, k2, k3, -⟩ := act_mhe_others R EM ES EE P S y0
      exact other rfl k1 k2 k3

theorem sim_runF (F : K → Vec K d.ntv × Vec K d.np) (cs : List (SimCall K)) : ∀ st : SimSt K d,
    runF (·.t0) (stepS ES) F st cs =
      (({ ES with tvpFun := fun t => (F t).1, pFun := fun t => (F t).2 } : SimEnv K d).after st cs,
       ({ ES with tvpFun := fun t => (F t).1, pFun := fun t => (F t).2 } : SimEnv K d).outputs st cs) := by
  induction cs with
  | nil => intro st; rfl
  | cons c cs ih => intro st; simp only [runF, ih]; rfl

/-- **C107** (simulator): as `C107_mpc`, if the program does not call `init_algebraic_variables`. -/
theorem C107_sim (ht : 0 < ES.tStep) (P : Prog K d ne ns W Ref) (ops : List (UserOp K d ne ns EM.nLagr EE.nLagr W Ref)) (hi : ¬ Inits ops)
    (hok : ∀ o ∈ (P.run R EM ES EE ops).simOut, ∃ y, o = .ok y) :
    ∃ (tvpFun : K → Vec K d.ntv) (pFun : K → Vec K d.np), let E : SimEnv K d := { ES with tvpFun := tvpFun, pFun := pFun }
      (P.run R EM ES EE ops).sim = E.after P.sim (simSteps ops) ∧ (P.run R EM ES EE ops).simOut = P.simOut ++ E.outputs P.sim (simSteps ops) ∧
      (P.run R EM ES EE ops).simSeen = P.simSeen ++ (timesFrom P.sim.t0 ES.tStep (simSteps ops).length).map fun t => (tvpFun t, pFun t) := by
  obtain ⟨vs, hl, h1, h2, h3⟩ := sim_project R EM ES EE ops hi P hok
  obtain ⟨z1, z2⟩ := map_fst_zip_of_length _ _ hl
  have hadv : ∀ v (st : SimSt K d) (c : SimCall K), (∃ y, (stepS ES v st c).2 = .ok y) → (stepS ES v st c).1.t0 = st.t0 + ES.tStep := by
    rintro v st c ⟨u, hu⟩
    obtain ⟨hs', hu', hd', h⟩ := simStep_ok (ES.withValues v) st c u hu
    show ((ES.withValues v).makeStep st c).1.t0 = _
    rw [h]; rfl
  obtain ⟨F, hF, hs⟩ := machine_function (·.t0) (stepS ES) (fun o => ∃ u, o = .ok u) ES.tStep ht hadv (0, 0) _ P.sim
    (fun o ho => hok o (by rw [h3]; exact List.mem_append_right _ ho))
  rw [z1, sim_runF] at hF
  refine ⟨fun t => (F t).1, fun t => (F t).2, ?_, ?_, ?_⟩
  · rw [h2, ← hF]
  · rw [h3, ← hF]
  · rw [h1, ← z2, hs]
    congr 2
    rw [List.length_zip, hl, min_self]

theorem seen_rows {V : Type} (t h : K) (n : Nat) (F : K → V) : (List.range n).map (fun i : Nat => F (t + i * h)) = (timesFrom t h n).map F := by
  simp [timesFrom, List.map_map, Function.comp_def]

/-- **C107** (simulator): the log of the simulator is a trajectory of the plant for the parameters in the log, and these are the values that the structures had in the step,
for functions with memory as well (`p_fun` as a random walk). -/
theorem C107_sim_log (ht : 0 < ES.tStep) (P : Prog K d ne ns W Ref) (ops : List (UserOp K d ne ns EM.nLagr EE.nLagr W Ref)) (hi : ¬ Inits ops)
    (hnew : P.simSeen = [] ∧ P.simOut = []) (ys : List (Vec K d.ny)) (hok : (P.run R EM ES EE ops).simOut = ys.map .ok) :
    let Q := P.run R EM ES EE ops
    let cs := simSteps ops
    Q.simSeen.length = cs.length ∧ ys.length = cs.length ∧
    Q.sim.data.rows "_tvp" = P.sim.data.rows "_tvp" ++ Q.simSeen.map (fun v => List.ofFn v.1) ∧
    Q.sim.data.rows "_p" = P.sim.data.rows "_p" ++ Q.simSeen.map (fun v => List.ofFn v.2) ∧
    ∃ (x : Nat → Vec K d.nx) (z : Nat → Vec K d.nz), x 0 = P.sim.x0 ∧ z 0 = P.sim.simZ ∧ x cs.length = Q.sim.x0 ∧
      Q.sim.data.rows "_x" = P.sim.data.rows "_x" ++ (List.range cs.length).map (fun i => List.ofFn (x i)) ∧
      Q.sim.data.rows "_z" = P.sim.data.rows "_z" ++ (List.range cs.length).map (fun i => List.ofFn (z i)) ∧
      Q.sim.data.rows "_u" = P.sim.data.rows "_u" ++ cs.map (fun c => List.ofFn (argument d.nu c.u)) ∧
      Q.sim.data.rows "_y" = P.sim.data.rows "_y" ++ ys.map List.ofFn ∧
      ∀ (i : Nat) (c : SimCall K) (v : Vec K d.ntv × Vec K d.np), cs[i]? = some c → Q.simSeen[i]? = some v →
        (x (i + 1), z (i + 1)) = ES.simulate (x i) (z i) (argument d.nu c.u) v.1 v.2 (argument d.nw c.w) ∧
        ys[i]? = some (ES.model.meas (x (i + 1)) (argument d.nu c.u) (z (i + 1)) v.1 v.2 (argument d.nv c.v)) := by
  intro Q cs
  obtain ⟨f, g, h1, h2, h3⟩ := C107_sim R EM ES EE ht P ops hi (by rw [hok]; intro o ho; obtain ⟨y, -, rfl⟩ := List.mem_map.1 ho; exact ⟨y, rfl⟩)
  rw [hnew.2, List.nil_append, hok] at h2
  rw [hnew.1, List.nil_append] at h3
  obtain ⟨i1, i2, i3, i4, i5, i6, i7, i8, i9, i10, i11⟩ := C15_log _ P.sim (simSteps ops) ys h2.symm
  rw [← h1] at i1 i2 i3 i4 i5 i6 i7 i8
  have hlen : ys.length = cs.length := by
    have := congrArg List.length h2
    rw [List.length_map] at this
    rw [this]
    clear * -
    show _ = (simSteps ops).length
    generalize P.sim = st
    induction (simSteps ops) generalizing st with
    | nil => rfl
    | cons c l ih => simp [SimEnv.outputs, ih]
  refine ⟨?_, hlen, ?_, ?_, fun i => (plantAt _ P.sim.t0 P.sim.x0 P.sim.simZ cs i).1, fun i => (plantAt _ P.sim.t0 P.sim.x0 P.sim.simZ cs i).2, rfl, rfl, i8.symm, i1, i2, i3, i7, ?_⟩
  · show Q.simSeen.length = _
    rw [show Q.simSeen = _ from h3]; simp [timesFrom, cs]
  · rw [show Q.simSeen = _ from h3, i5]
    rw [List.map_map, seen_rows P.sim.t0 ES.tStep _ fun t => List.ofFn (f t)]
    rfl
  · rw [show Q.simSeen = _ from h3, i6]
    rw [List.map_map, seen_rows P.sim.t0 ES.tStep _ fun t => List.ofFn (g t)]
    rfl
  · intro i c v hc hv
    obtain ⟨hi', hc'⟩ := List.getElem?_eq_some_iff.1 hc
    have hv' : v = (f (P.sim.t0 + i * ES.tStep), g (P.sim.t0 + i * ES.tStep)) := by
      rw [show Q.simSeen = _ from h3] at hv
      rw [timesFrom, List.map_map, List.getElem?_map, List.getElem?_range (show i < (simSteps ops).length from hi')] at hv
      exact (Option.some.inj hv).symm
    subst hv'
    have hb : cs[i]?.bind (·.u) = c.u ∧ cs[i]?.bind (·.w) = c.w := by rw [hc]; exact ⟨rfl, rfl⟩
    constructor
    · show plantAt _ P.sim.t0 P.sim.x0 P.sim.simZ cs (i + 1) = _
      rw [plantAt]
      dsimp only
      rw [hb.1, hb.2]
      rfl
    · have := i11 i hi'
      rw [hc'] at this
      exact this

/-- **C107** (controller): the parameters in the log are those the structures had in the step. -/
theorem C107_mpc_log (ht : 0 < EM.tStep) (hst : ∀ s ∈ EM.storeStats, s ∈ validStats) (P : Prog K d ne ns W Ref) (ops : List (UserOp K d ne ns EM.nLagr EE.nLagr W Ref))
    (hnew : P.mpcSeen = [] ∧ P.mpcOut = []) (us : List (Vec K d.nu)) (hok : (P.run R EM ES EE ops).mpcOut = us.map .ok) :
    let Q := P.run R EM ES EE ops
    Q.mpcSeen.length = (mpcSteps ops).length ∧
    Q.mpc.data.rows "_x" = P.mpc.data.rows "_x" ++ (mpcSteps ops).map (·.x0) ∧ Q.mpc.data.rows "_u" = P.mpc.data.rows "_u" ++ us.map List.ofFn ∧
    Q.mpc.data.rows "_tvp" = P.mpc.data.rows "_tvp" ++ Q.mpcSeen.map (fun v => List.ofFn (v.1 0)) ∧
    Q.mpc.data.rows "_p" = P.mpc.data.rows "_p" ++ Q.mpcSeen.map (fun v => List.ofFn (v.2 0)) := by
  intro Q
  obtain ⟨f, g, h1, h2, h3⟩ := C107_mpc R EM ES EE ht P ops (by rw [hok]; intro o ho; obtain ⟨y, -, rfl⟩ := List.mem_map.1 ho; exact ⟨y, rfl⟩)
  rw [hnew.2, List.nil_append, hok] at h2
  rw [hnew.1, List.nil_append] at h3
  obtain ⟨i1, i2, i3, i4, i5, -⟩ := C13_log { EM with tvpFun := f, pFun := g } hst P.mpc (mpcSteps ops) us h2.symm
  rw [← h1] at i1 i2 i4 i5
  refine ⟨?_, i1, i2, ?_, ?_⟩
  · rw [show Q.mpcSeen = _ from h3]; simp [timesFrom]
  · rw [show Q.mpcSeen = _ from h3, i4]; congr 1; simp [timesFrom, List.map_map, Function.comp_def]
  · rw [show Q.mpcSeen = _ from h3, i5]; congr 1; simp [timesFrom, List.map_map, Function.comp_def]

/-! ## the estimator -/

abbrev stepE (user : Bool) (v : (Nat → Vec K d.ntv) × Vec K ns × (Nat → Vec K d.ny)) (st : MheSt K d ne ns) (c : MheCall K d ne ns EE.nLagr) :
    MheSt K d ne ns × Except String (Vec K d.nx) := (EE.withValues user v).makeStep c.S st c.y0

theorem mhe_project (ops : List (UserOp K d ne ns EM.nLagr EE.nLagr W Ref)) : ∀ (P : Prog K d ne ns W Ref), (P.mheY.isSome = true ∨ ¬ RegistersY ops) →
    (∀ o ∈ (P.run R EM ES EE ops).mheOut, ∃ x, o = .ok x) →
    ∃ vs : List ((Nat → Vec K d.ntv) × Vec K ns × (Nat → Vec K d.ny)), vs.length = (mheSteps ops).length ∧ (P.run R EM ES EE ops).mheSeen = P.mheSeen ++ vs ∧
      (P.run R EM ES EE ops).mhe = (runV (stepE EE P.mheY.isSome) P.mhe ((mheSteps ops).zip vs)).1 ∧
      (P.run R EM ES EE ops).mheOut = P.mheOut ++ (runV (stepE EE P.mheY.isSome) P.mhe ((mheSteps ops).zip vs)).2 := by
  induction ops with
  | nil => exact fun P _ _ => ⟨[], rfl, by simp [Prog.run], rfl, by simp [Prog.run, mheSteps, runV]⟩
  | cons op ops ih =>
    intro P hy hok
    have hrun : P.run R EM ES EE (op :: ops) = (P.act R EM ES EE op).run R EM ES EE ops := rfl
    rw [hrun] at hok ⊢
    have hy' : (P.act R EM ES EE op).mheY.isSome = P.mheY.isSome := by
      cases op with
      | setMheY f =>
        rcases hy with hy | hy
        · rw [hy]; rfl
        · exact absurd ⟨_, List.mem_cons_self .., f, rfl⟩ hy
      | mheStep S y0 => rw [(act_mhe_others R EM ES EE P S y0).2.2.2.2.2.2]
      | mpcStep S x0 => simp only [Prog.act]; split <;> rfl
      | simStep c => simp only [Prog.act]; split <;> rfl
      | _ => rfl
    obtain ⟨vs, hl, h1, h2, h3⟩ := ih _ (by rw [hy']; exact hy.imp_right fun h ⟨o, ho, g⟩ => h ⟨o, List.mem_cons_of_mem _ ho, g⟩) hok
    rw [hy'] at h2 h3
    have other : mheSteps (op :: ops) = mheSteps ops → (P.act R EM ES EE op).mhe = P.mhe → (P.act R EM ES EE op).mheSeen = P.mheSeen →
        (P.act R EM ES EE op).mheOut = P.mheOut → _ := fun e1 e2 e3 e4 =>
      (⟨vs, by rw [e1]; exact hl, by rw [h1, e3], by rw [h2, e1, e2], by rw [h3, e1, e2, e4]⟩ :
        ∃ vs : List ((Nat → Vec K d.ntv) × Vec K ns × (Nat → Vec K d.ny)), vs.length = (mheSteps (op :: ops)).length ∧
          ((P.act R EM ES EE op).run R EM ES EE ops).mheSeen = P.mheSeen ++ vs ∧
          ((P.act R EM ES EE op).run R EM ES EE ops).mhe = (runV (stepE EE P.mheY.isSome) P.mhe ((mheSteps (op :: ops)).zip vs)).1 ∧
          ((P.act R EM ES EE op).run R EM ES EE ops).mheOut = P.mheOut ++ (runV (stepE EE P.mheY.isSome) P.mhe ((mheSteps (op :: ops)).zip vs)).2)
    cases op with
    | mheStep S y0 =>
      by_cases ha : P.mhe.setup = true ∧ y0.length = d.ny
      · cases hup : P.mhe.data.update [("_y", .arr y0)] with
        | mk D e =>
        cases e with
        | some e =>
          exfalso
          obtain ⟨u, hu⟩ := hok (.error e) (by rw [h3]; simp [Prog.act, ha, hup])
          cases hu
        | none =>
          cases hY : P.mheY with
          | some f =>
            rw [hY] at h2 h3
            refine ⟨(R.tvp (f P.mhe.t0 D (P.mheP P.mhe.t0 (P.mheTvp P.mhe.t0 P.world).2).2).2 (P.mheTvp P.mhe.t0 P.world).1,
              R.pSet (f P.mhe.t0 D (P.mheP P.mhe.t0 (P.mheTvp P.mhe.t0 P.world).2).2).2 (P.mheP P.mhe.t0 (P.mheTvp P.mhe.t0 P.world).2).1,
              R.y (f P.mhe.t0 D (P.mheP P.mhe.t0 (P.mheTvp P.mhe.t0 P.world).2).2).2 (f P.mhe.t0 D (P.mheP P.mhe.t0 (P.mheTvp P.mhe.t0 P.world).2).2).1) :: vs, ?_, ?_, ?_, ?_⟩
            · simp [mheSteps, hl]
            · rw [h1]; simp [Prog.act, ha, hup, hY]
            · rw [h2]; simp [Prog.act, ha, hup, hY, mheSteps, runV]
            · rw [h3]; simp [Prog.act, ha, hup, hY, mheSteps, runV]
          | none =>
            rw [hY] at h2 h3
            refine ⟨(R.tvp (P.mheP P.mhe.t0 (P.mheTvp P.mhe.t0 P.world).2).2 (P.mheTvp P.mhe.t0 P.world).1,
              R.pSet (P.mheP P.mhe.t0 (P.mheTvp P.mhe.t0 P.world).2).2 (P.mheP P.mhe.t0 (P.mheTvp P.mhe.t0 P.world).2).1, fun _ => 0) :: vs, ?_, ?_, ?_, ?_⟩
            · simp [mheSteps, hl]
            · rw [h1]; simp [Prog.act, ha, hup, hY]
            · rw [h2]; simp [Prog.act, ha, hup, hY, mheSteps, runV]
            · rw [h3]; simp [Prog.act, ha, hup, hY, mheSteps, runV]
      · exfalso
        obtain ⟨u, hu⟩ := hok (.error "AssertionError") (by rw [h3]; simp [Prog.act, ha])
        cases hu
    | simInit root => exact other rfl rfl rfl rfl
    | edit e => exact other rfl rfl rfl rfl
    | setMpcTvp f => exact other rfl rfl rfl rfl
    | setMpcP f => exact other rfl rfl rfl rfl
    | setSimTvp f => exact other rfl rfl rfl rfl
    | setSimP f => exact other rfl rfl rfl rfl
    | setMheTvp f => exact other rfl rfl rfl rfl
    | setMheP f => exact other rfl rfl rfl rfl
    | setMheY f => exact other rfl rfl rfl rfl
    | mpcStep S x0 =>
      by_cases ha : P.mpc.setup = true ∧ x0.length = d.nx
      · exact other rfl (by simp [Prog.act, ha]) (by simp [Prog.act, ha]) (by simp [Prog.act, ha])
      · exact other rfl (by simp [Prog.act, ha]) (by simp [Prog.act, ha]) (by simp [Prog.act, ha])
    | simStep c =>
      by_cases ha : P.sim.setup = true ∧ (argInput d.nu c.u).isSome ∧ (argVec d.nw c.w).isSome ∧ (argVec d.nv c.v).isSome
      · exact other rfl (by simp [Prog.act, ha]) (by simp [Prog.act, ha]) (by simp [Prog.act, ha])
      · exact other rfl (by simp [Prog.act, ha]) (by simp [Prog.act, ha]) (by simp [Prog.act, ha])

theorem mhe_runF (user : Bool) (F : K → (Nat → Vec K d.ntv) × Vec K ns × (Nat → Vec K d.ny)) (cs : List (MheCall K d ne ns EE.nLagr)) : ∀ st : MheSt K d ne ns,
    runF (·.t0) (stepE EE user) F st cs =
      (({ EE with tvpFun := fun t => (F t).1, pFun := fun t => (F t).2.1, yFun := if user then some (fun t => (F t).2.2) else none } : MheEnv K d ne ns).after st cs,
       ({ EE with tvpFun := fun t => (F t).1, pFun := fun t => (F t).2.1, yFun := if user then some (fun t => (F t).2.2) else none } : MheEnv K d ne ns).outputs st cs) := by
  induction cs with
  | nil => intro st; rfl
  | cons c cs ih => intro st; simp only [runF, ih]; cases user <;> rfl

theorem mhe_clock (E : MheEnv K d ne ns) (S : MheArgs K d ne ns → MheResult K d ne E.nLagr) (st : MheSt K d ne ns) (y0 : List K) (x : Vec K d.nx)
    (h : (E.makeStep S st y0).2 = .ok x) : (E.makeStep S st y0).1.t0 = st.t0 + E.tStep := by
  unfold MheEnv.makeStep at h ⊢
  by_cases hs : (!st.setup) = true
  · rw [if_pos hs] at h; cases h
  rw [if_neg hs] at h ⊢
  by_cases hl : y0.length ≠ d.ny
  · rw [if_pos hl] at h; cases h
  rw [if_neg hl] at h ⊢
  dsimp only at h ⊢
  cases hup : st.data.update [("_y", .arr y0)] with
  | mk D e =>
    rw [hup] at h
    cases e with
    | some e => simp at h
    | none =>
      dsimp only at h ⊢
      split at h
      · cases h
      · rename_i D' hD'
        simp only [hD']

/-- **C107** (estimator): as `C107_mpc`, for the user's measurement function (which may read the log) and for the default one. -/
theorem C107_mhe (ht : 0 < EE.tStep) (P : Prog K d ne ns W Ref) (ops : List (UserOp K d ne ns EM.nLagr EE.nLagr W Ref)) (hy : P.mheY.isSome = true ∨ ¬ RegistersY ops)
    (hok : ∀ o ∈ (P.run R EM ES EE ops).mheOut, ∃ x, o = .ok x) :
    ∃ (tvpFun : K → Nat → Vec K d.ntv) (pFun : K → Vec K ns) (yFun : K → Nat → Vec K d.ny),
      let E : MheEnv K d ne ns := { EE with tvpFun := tvpFun, pFun := pFun, yFun := if P.mheY.isSome then some yFun else none }
      (P.run R EM ES EE ops).mhe = E.after P.mhe (mheSteps ops) ∧ (P.run R EM ES EE ops).mheOut = P.mheOut ++ E.outputs P.mhe (mheSteps ops) ∧
      (P.run R EM ES EE ops).mheSeen = P.mheSeen ++ (timesFrom P.mhe.t0 EE.tStep (mheSteps ops).length).map fun t => (tvpFun t, pFun t, yFun t) := by
  obtain ⟨vs, hl, h1, h2, h3⟩ := mhe_project R EM ES EE ops P hy hok
  obtain ⟨z1, z2⟩ := map_fst_zip_of_length _ _ hl
  have hadv : ∀ v (st : MheSt K d ne ns) (c : MheCall K d ne ns EE.nLagr), (∃ x, (stepE EE P.mheY.isSome v st c).2 = .ok x) →
      (stepE EE P.mheY.isSome v st c).1.t0 = st.t0 + EE.tStep := by
    rintro v st c ⟨u, hu⟩
    exact mhe_clock (EE.withValues P.mheY.isSome v) c.S st c.y0 u hu
  obtain ⟨F, hF, hs⟩ := machine_function (·.t0) (stepE EE P.mheY.isSome) (fun o => ∃ u, o = .ok u) EE.tStep ht hadv (fun _ => 0, 0, fun _ => 0) _ P.mhe
    (fun o ho => hok o (by rw [h3]; exact List.mem_append_right _ ho))
  rw [z1, mhe_runF] at hF
  refine ⟨fun t => (F t).1, fun t => (F t).2.1, fun t => (F t).2.2, ?_, ?_, ?_⟩
  · rw [h2, ← hF]
  · rw [h3, ← hF]
  · rw [h1, ← z2, hs]
    congr 2
    rw [List.length_zip, hl, min_self]

end DoMpc
