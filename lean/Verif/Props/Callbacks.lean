import Mathlib.Algebra.Order.Ring.Defs
import Mathlib.Tactic.Linarith
import Mathlib.Tactic.Ring
import Verif.Spec.Callbacks

set_option linter.unusedSectionVars false

/-!
# C107: user functions with memory

Along any run of the user's program, functions that have memory, share and overwrite their templates, or read the log, act as functions of time.
-/
namespace DoMpc
variable {K : Type} [Field K] [LinearOrder K] [IsStrictOrderedRing K] {d : Dims} {ne ns : Nat} {W Ref : Type}
open Spec

/-! ## a machine whose clock advances cannot tell values from a function of time -/
section machine
variable {S I O V : Type}

/-- state and results, the values being given step by step -/
def runV (step : V → S → I → S × O) : S → List (I × V) → S × List O
  | s, [] => (s, [])
  | s, (i, v) :: l => let r := step v s i; let q := runV step r.1 l; (q.1, r.2 :: q.2)

/-- state and results, the values being a function of the clock -/
def runF (clock : S → K) (step : V → S → I → S × O) (F : K → V) : S → List I → S × List O
  | s, [] => (s, [])
  | s, i :: l => let r := step (F (clock s)) s i; let q := runF clock step F r.1 l; (q.1, r.2 :: q.2)

theorem runF_congr (clock : S → K) (step : V → S → I → S × O) (good : O → Prop) (h : K) (hh : 0 < h)
    (hadv : ∀ v s i, good (step v s i).2 → clock (step v s i).1 = clock s + h) (F G : K → V) (l : List I) : ∀ (s : S) (t : K), t ≤ clock s → (∀ u, t ≤ u → F u = G u) →
    (∀ o ∈ (runF clock step F s l).2, good o) → runF clock step F s l = runF clock step G s l := by
  induction l with
  | nil => intros; rfl
  | cons i l ih =>
    intro s t ht hFG hg
    have e : F (clock s) = G (clock s) := hFG _ ht
    have hg1 := hg (step (F (clock s)) s i).2 (by simp [runF])
    have := ih (step (F (clock s)) s i).1 t (by rw [hadv _ _ _ hg1]; linarith) hFG fun o ho => hg o (by simp [runF, ho])
    simp only [runF]
    rw [this, e]

theorem machine_function (clock : S → K) (step : V → S → I → S × O) (good : O → Prop) (h : K) (hh : 0 < h)
    (hadv : ∀ v s i, good (step v s i).2 → clock (step v s i).1 = clock s + h) (v0 : V) (l : List (I × V)) : ∀ (s : S), (∀ o ∈ (runV step s l).2, good o) →
    ∃ F : K → V, runF clock step F s (l.map (·.1)) = runV step s l ∧ l.map (·.2) = (timesFrom (clock s) h l.length).map F := by
  induction l with
  | nil => exact fun s _ => ⟨fun _ => v0, rfl, rfl⟩
  | cons a l ih =>
    obtain ⟨i, v⟩ := a
    intro s hg
    have hg1 := hg (step v s i).2 (by simp [runV])
    have hclk := hadv v s i hg1
    obtain ⟨G, hG, hs⟩ := ih (step v s i).1 fun o ho => hg o (by simp [runV, ho])
    let F : K → V := fun t => if t = clock s then v else G t
    have hFG : ∀ u, clock (step v s i).1 ≤ u → G u = F u := by
      intro u hu
      have : u ≠ clock s := by rw [hclk] at hu; intro e; rw [e] at hu; linarith
      simp only [F, this, if_false]
    refine ⟨F, ?_, ?_⟩
    · have hF0 : F (clock s) = v := by simp [F]
      simp only [List.map_cons, runF, runV]
      rw [hF0, ← hG, ← runF_congr clock step good h hh hadv G F _ _ _ le_rfl hFG]
      rw [hG]
      exact fun o ho => hg o (by simp [runV, ho])
    · rw [List.map_cons, hs]
      unfold timesFrom
      rw [List.length_cons, List.range_succ_eq_map]
      simp only [List.map_cons, List.map_map]
      congr 1
      · simp [F]
      · apply List.map_congr_left
        intro k _
        simp only [Function.comp]
        have e : clock (step v s i).1 + (k : K) * h = clock s + (Nat.succ k : K) * h := by rw [hclk]; push_cast; ring
        rw [← e]
        exact hFG _ (by have : (0 : K) ≤ k * h := mul_nonneg (Nat.cast_nonneg k) hh.le; linarith)

end machine

theorem runV_append {S I O V : Type} (step : V → S → I → S × O) (a b : List (I × V)) : ∀ s, runV step s (a ++ b) =
    ((runV step (runV step s a).1 b).1, (runV step s a).2 ++ (runV step (runV step s a).1 b).2) := by
  induction a with
  | nil => intro s; rfl
  | cons x a ih => intro s; obtain ⟨i, v⟩ := x; simp only [List.cons_append, runV, ih]

/-! ## the controller -/
variable (R : Contents K d ns W Ref) (EM : MpcEnv K d) (ES : SimEnv K d) (EE : MheEnv K d ne ns)

abbrev stepM (v : (Nat → Vec K d.ntv) × (Nat → Vec K d.np)) (st : MpcSt K d) (c : Call K d EM.nLagr) : MpcSt K d × Except String (Vec K d.nu) :=
  (EM.withValues v).makeStep c.S st c.x0

theorem mpc_project (ops : List (UserOp K d ne ns EM.nLagr EE.nLagr W Ref)) : ∀ (P : Prog K d ne ns W Ref),
    (∀ o ∈ (P.run R EM ES EE ops).mpcOut, ∃ u, o = .ok u) →
    ∃ vs : List ((Nat → Vec K d.ntv) × (Nat → Vec K d.np)), vs.length = (mpcSteps ops).length ∧ (P.run R EM ES EE ops).mpcSeen = P.mpcSeen ++ vs ∧
      (P.run R EM ES EE ops).mpc = (runV (stepM EM) P.mpc ((mpcSteps ops).zip vs)).1 ∧
      (P.run R EM ES EE ops).mpcOut = P.mpcOut ++ (runV (stepM EM) P.mpc ((mpcSteps ops).zip vs)).2 := by
  induction ops with
  | nil => exact fun P _ => ⟨[], rfl, by simp [Prog.run], rfl, by simp [Prog.run, mpcSteps, runV]⟩
  | cons op ops ih =>
    intro P hok
    have hrun : P.run R EM ES EE (op :: ops) = (P.act R EM ES EE op).run R EM ES EE ops := rfl
    rw [hrun] at hok ⊢
    obtain ⟨vs, hl, h1, h2, h3⟩ := ih _ hok
    have other : mpcSteps (op :: ops) = mpcSteps ops → (P.act R EM ES EE op).mpc = P.mpc → (P.act R EM ES EE op).mpcSeen = P.mpcSeen →
        (P.act R EM ES EE op).mpcOut = P.mpcOut → _ := fun e1 e2 e3 e4 =>
      (⟨vs, by rw [e1]; exact hl, by rw [h1, e3], by rw [h2, e1, e2], by rw [h3, e1, e2, e4]⟩ :
        ∃ vs : List ((Nat → Vec K d.ntv) × (Nat → Vec K d.np)), vs.length = (mpcSteps (op :: ops)).length ∧
          ((P.act R EM ES EE op).run R EM ES EE ops).mpcSeen = P.mpcSeen ++ vs ∧
          ((P.act R EM ES EE op).run R EM ES EE ops).mpc = (runV (stepM EM) P.mpc ((mpcSteps (op :: ops)).zip vs)).1 ∧
          ((P.act R EM ES EE op).run R EM ES EE ops).mpcOut = P.mpcOut ++ (runV (stepM EM) P.mpc ((mpcSteps (op :: ops)).zip vs)).2)
    cases op with
    | mpcStep S x0 =>
      by_cases ha : P.mpc.setup = true ∧ x0.length = d.nx
      · refine ⟨(R.tvp (P.mpcP P.mpc.t0 (P.mpcTvp P.mpc.t0 P.world).2).2 (P.mpcTvp P.mpc.t0 P.world).1,
          R.p (P.mpcP P.mpc.t0 (P.mpcTvp P.mpc.t0 P.world).2).2 (P.mpcP P.mpc.t0 (P.mpcTvp P.mpc.t0 P.world).2).1) :: vs, ?_, ?_, ?_, ?_⟩
        · simp [mpcSteps, hl]
        · rw [h1]; simp [Prog.act, ha]
        · rw [h2]; simp [Prog.act, ha, mpcSteps, runV]
        · rw [h3]; simp [Prog.act, ha, mpcSteps, runV]
      · exfalso
        obtain ⟨u, hu⟩ := hok (.error "AssertionError") (by rw [h3]; simp [Prog.act, ha])
        cases hu
    | edit e => exact other rfl rfl rfl rfl
    | setMpcTvp f => exact other rfl rfl rfl rfl
    | setMpcP f => exact other rfl rfl rfl rfl
    | setSimTvp f => exact other rfl rfl rfl rfl
    | setSimP f => exact other rfl rfl rfl rfl
    | setMheTvp f => exact other rfl rfl rfl rfl
    | setMheP f => exact other rfl rfl rfl rfl
    | setMheY f => exact other rfl rfl rfl rfl
    | simInit root => exact other rfl rfl rfl rfl
    | simStep c =>
      by_cases ha : P.sim.setup = true ∧ (argInput d.nu c.u).isSome ∧ (argVec d.nw c.w).isSome ∧ (argVec d.nv c.v).isSome
      · exact other rfl (by simp [Prog.act, ha]) (by simp [Prog.act, ha]) (by simp [Prog.act, ha])
      · exact other rfl (by simp [Prog.act, ha]) (by simp [Prog.act, ha]) (by simp [Prog.act, ha])
    | mheStep S y0 =>
      have key : (P.act R EM ES EE (.mheStep S y0)).mpc = P.mpc ∧ (P.act R EM ES EE (.mheStep S y0)).mpcSeen = P.mpcSeen ∧
          (P.act R EM ES EE (.mheStep S y0)).mpcOut = P.mpcOut := by
        simp only [Prog.act]
        split
        · split
          · exact ⟨rfl, rfl, rfl⟩
          · split <;> exact ⟨rfl, rfl, rfl⟩
        · exact ⟨rfl, rfl, rfl⟩
      exact other rfl key.1 key.2.1 key.2.2

theorem mpc_runF (F : K → (Nat → Vec K d.ntv) × (Nat → Vec K d.np)) (cs : List (Call K d EM.nLagr)) : ∀ st : MpcSt K d,
    runF (·.t0) (stepM EM) F st cs =
      (({ EM with tvpFun := fun t => (F t).1, pFun := fun t => (F t).2 } : MpcEnv K d).after st cs,
       ({ EM with tvpFun := fun t => (F t).1, pFun := fun t => (F t).2 } : MpcEnv K d).outputs st cs) := by
  induction cs with
  | nil => intro st; rfl
  | cons c cs ih => intro st; simp only [runF, ih]; rfl

theorem map_fst_zip_of_length {α β : Type} : ∀ (a : List α) (b : List β), b.length = a.length → (a.zip b).map (·.1) = a ∧ (a.zip b).map (·.2) = b
  | [], [], _ => ⟨rfl, rfl⟩
  | x :: a, y :: b, h => by
    have := map_fst_zip_of_length a b (by simpa using h)
    simp [List.zip_cons_cons, this]

/-- **C107** (controller): along any run of the user's program in which the controller did not refuse or fail, there are functions of time such that the controller
returned, stored and solved what it would have with those; their values at `t0 + k t_step` are those of the structures at the moment when the functions called in step
`k` had returned, whatever was done to the structures before or afterwards. -/
theorem C107_mpc (ht : 0 < EM.tStep) (P : Prog K d ne ns W Ref) (ops : List (UserOp K d ne ns EM.nLagr EE.nLagr W Ref))
    (hok : ∀ o ∈ (P.run R EM ES EE ops).mpcOut, ∃ u, o = .ok u) :
    ∃ (tvpFun : K → Nat → Vec K d.ntv) (pFun : K → Nat → Vec K d.np), let E : MpcEnv K d := { EM with tvpFun := tvpFun, pFun := pFun }
      (P.run R EM ES EE ops).mpc = E.after P.mpc (mpcSteps ops) ∧ (P.run R EM ES EE ops).mpcOut = P.mpcOut ++ E.outputs P.mpc (mpcSteps ops) ∧
      (P.run R EM ES EE ops).mpcSeen = P.mpcSeen ++ (timesFrom P.mpc.t0 EM.tStep (mpcSteps ops).length).map fun t => (tvpFun t, pFun t) := by
  obtain ⟨vs, hl, h1, h2, h3⟩ := mpc_project R EM ES EE ops P hok
  obtain ⟨z1, z2⟩ := map_fst_zip_of_length _ _ hl
  have hadv : ∀ v (st : MpcSt K d) (c : Call K d EM.nLagr), (∃ u, (stepM EM v st c).2 = .ok u) → (stepM EM v st c).1.t0 = st.t0 + EM.tStep := by
    rintro v st c ⟨u, hu⟩
    obtain ⟨hl', hs', hu', hd', h⟩ := makeStep_ok (EM.withValues v) c.S st c.x0 u hu
    show ((EM.withValues v).makeStep c.S st c.x0).1.t0 = _
    rw [h]; rfl
  obtain ⟨F, hF, hs⟩ := machine_function (·.t0) (stepM EM) (fun o => ∃ u, o = .ok u) EM.tStep ht hadv (fun _ => 0, fun _ => 0) _ P.mpc
    (fun o ho => hok o (by rw [h3]; exact List.mem_append_right _ ho))
  rw [z1, mpc_runF] at hF
  refine ⟨fun t => (F t).1, fun t => (F t).2, ?_, ?_, ?_⟩
  · rw [h2, ← hF]
  · rw [h3, ← hF]
  · rw [h1, ← z2, hs]
    congr 2
    rw [List.length_zip, hl, min_self]

/-- **C107** (controller): functions without memory, which fill their templates with values that depend on the time only, are functions of time whatever else the
program does; also refused calls. -/
theorem C107_mpc_time (tvpFun : K → Nat → Vec K d.ntv) (pFun : K → Nat → Vec K d.np) (ops : List (UserOp K d ne ns EM.nLagr EE.nLagr W Ref))
    (hreg : ∀ op ∈ ops, registers .mpcTvp op = 0 ∧ registers .mpcP op = 0) : ∀ (P : Prog K d ne ns W Ref)
    (_ : ∀ t w, let a := P.mpcTvp t w; let b := P.mpcP t a.2; R.tvp b.2 a.1 = tvpFun t ∧ R.p b.2 b.1 = pFun t),
    let E : MpcEnv K d := { EM with tvpFun := tvpFun, pFun := pFun }
    (P.run R EM ES EE ops).mpc = E.after P.mpc (mpcSteps ops) ∧ (P.run R EM ES EE ops).mpcOut = P.mpcOut ++ E.outputs P.mpc (mpcSteps ops) := by
  induction ops with
  | nil => exact fun P _ => ⟨rfl, by simp [Prog.run, mpcSteps, MpcEnv.outputs]⟩
  | cons op ops ih =>
    intro P hf E
    have hrun : P.run R EM ES EE (op :: ops) = (P.act R EM ES EE op).run R EM ES EE ops := rfl
    have other : (P.act R EM ES EE op).mpcTvp = P.mpcTvp → (P.act R EM ES EE op).mpcP = P.mpcP → mpcSteps (op :: ops) = mpcSteps ops →
        (P.act R EM ES EE op).mpc = P.mpc → (P.act R EM ES EE op).mpcOut = P.mpcOut → _ := fun e1 e2 e3 e4 e5 => by
      have := ih (fun o ho => hreg o (List.mem_cons_of_mem _ ho)) (P.act R EM ES EE op) (by rw [e1, e2]; exact hf)
      rw [e4, e5] at this
      exact (by rw [hrun, e3]; exact this : (P.run R EM ES EE (op :: ops)).mpc = E.after P.mpc (mpcSteps (op :: ops)) ∧
        (P.run R EM ES EE (op :: ops)).mpcOut = P.mpcOut ++ E.outputs P.mpc (mpcSteps (op :: ops)))
    cases op with
    | mpcStep S x0 =>
      have hnext : ∀ Q : Prog K d ne ns W Ref, Q.mpcTvp = P.mpcTvp → Q.mpcP = P.mpcP → Q.mpc = (E.makeStep S P.mpc x0).1 → Q.mpcOut = P.mpcOut ++ [(E.makeStep S P.mpc x0).2] →
          (Q.run R EM ES EE ops).mpc = E.after P.mpc (mpcSteps (.mpcStep S x0 :: ops)) ∧
          (Q.run R EM ES EE ops).mpcOut = P.mpcOut ++ E.outputs P.mpc (mpcSteps (.mpcStep S x0 :: ops)) := by
        intro Q e1 e2 e3 e4
        obtain ⟨g1, g2⟩ := ih (fun o ho => hreg o (List.mem_cons_of_mem _ ho)) Q (by rw [e1, e2]; exact hf)
        rw [e3] at g1 g2
        rw [e4] at g2
        refine ⟨g1, ?_⟩
        rw [g2]
        simp [mpcSteps, MpcEnv.outputs, E]
      rw [hrun]
      by_cases ha : P.mpc.setup = true ∧ x0.length = d.nx
      · obtain ⟨q1, q2⟩ := hf P.mpc.t0 P.world
        have hv := congrArg (fun v => stepM EM v P.mpc ⟨x0, S⟩) (Prod.ext q1 q2 :
          (R.tvp (P.mpcP P.mpc.t0 (P.mpcTvp P.mpc.t0 P.world).2).2 (P.mpcTvp P.mpc.t0 P.world).1,
            R.p (P.mpcP P.mpc.t0 (P.mpcTvp P.mpc.t0 P.world).2).2 (P.mpcP P.mpc.t0 (P.mpcTvp P.mpc.t0 P.world).2).1) = (tvpFun P.mpc.t0, pFun P.mpc.t0))
        apply hnext
        · simp [Prog.act, ha]
        · simp [Prog.act, ha]
        · simp only [Prog.act, ha, and_self, if_true]
          exact congrArg Prod.fst hv
        · simp only [Prog.act, ha, and_self, if_true]
          exact congrArg (fun r => P.mpcOut ++ [r.2]) hv
      · have hr := C13_refused E S P.mpc x0 (by
          by_cases hs : P.mpc.setup = true
          · exact Or.inr fun h => ha ⟨hs, h⟩
          · exact Or.inl (by simpa using hs))
        apply hnext
        · simp [Prog.act, ha]
        · simp [Prog.act, ha]
        · rw [hr]; simp [Prog.act, ha]
        · rw [hr]; simp [Prog.act, ha]
    | setMpcTvp f => exact absurd (hreg _ (List.mem_cons_self ..)).1 (by simp [registers])
    | setMpcP f => exact absurd (hreg _ (List.mem_cons_self ..)).2 (by simp [registers])
    | edit e => exact other rfl rfl rfl rfl rfl
    | setSimTvp f => exact other rfl rfl rfl rfl rfl
    | setSimP f => exact other rfl rfl rfl rfl rfl
    | setMheTvp f => exact other rfl rfl rfl rfl rfl
    | setMheP f => exact other rfl rfl rfl rfl rfl
    | setMheY f => exact other rfl rfl rfl rfl rfl
    | simInit root => exact other rfl rfl rfl rfl rfl
    | simStep c =>
      by_cases ha : P.sim.setup = true ∧ (argInput d.nu c.u).isSome ∧ (argVec d.nw c.w).isSome ∧ (argVec d.nv c.v).isSome
      · exact other (by simp [Prog.act, ha]) (by simp [Prog.act, ha]) rfl (by simp [Prog.act, ha]) (by simp [Prog.act, ha])
      · exact other (by simp [Prog.act, ha]) (by simp [Prog.act, ha]) rfl (by simp [Prog.act, ha]) (by simp [Prog.act, ha])
    | mheStep S y0 =>
      have key : (P.act R EM ES EE (.mheStep S y0)).mpcTvp = P.mpcTvp ∧ (P.act R EM ES EE (.mheStep S y0)).mpcP = P.mpcP ∧
          (P.act R EM ES EE (.mheStep S y0)).mpc = P.mpc ∧ (P.act R EM ES EE (.mheStep S y0)).mpcOut = P.mpcOut := by
        simp only [Prog.act]
        split
        · split
          · exact ⟨rfl, rfl, rfl, rfl⟩
          · split <;> exact ⟨rfl, rfl, rfl, rfl⟩
        · exact ⟨rfl, rfl, rfl, rfl⟩
      exact other key.1 key.2.1 rfl key.2.2.1 key.2.2.2

end DoMpc
