import Verif.Props.MheSens
import Verif.Props.FlatSensEx

set_option linter.unusedSectionVars false
set_option linter.unusedSimpArgs false

/-!
# C100, C101: examples

`x⁺ = x`, `y = x + v`, one step, cost `(x₀ - x_prev)² + v²`, the state scaled by 2.  The estimate is `(x_prev + y)/2`.
-/
namespace DoMpc.FlatMheEx
open FlatSpec Diff Diff.Spec Filter Topology

/-- one state, one measurement with noise -/
abbrev dm : Dims := ⟨1, 0, 0, 0, 0, 0, 1, 1, 0⟩
/-- `x⁺ = x`, `y = x + v` -/
def model : DaeModel ℝ dm := ⟨fun x _ _ _ _ _ => x, fun _ _ _ _ _ _ => 0, fun x _ _ _ _ v => x + v, fun _ _ _ _ _ => 0⟩
/-- the names -/
def names : MheNames := ⟨⟨[("x", 1)], [], [], [], []⟩, [], [("v", 1)], [("y", 1)], [("default", 0)], []⟩
/-- the estimator -/
noncomputable def cfg : MheCfg ℝ dm 0 0 where
  N := 1
  model := model
  ifcn := discreteIfcn model 2 1 1 1
  sel := fun i => i.elim0
  sx := 2
  su := 1
  sz := 1
  sp := 1
  xlb := fun _ => .ninf
  xub := fun _ => .pinf
  ulb := fun _ => .ninf
  uub := fun _ => .pinf
  zlb := fun _ => .ninf
  zub := fun _ => .pinf
  plb := fun _ => .ninf
  pub := fun _ => .pinf
  nl := []
  stage := fun _ v _ _ => v 0 ^ 2
  arrival := fun x xp _ _ _ => (x 0 - xp 0) ^ 2

theorem names_ok : OkMhe names dm 0 0 := ⟨rfl, rfl, rfl, rfl, rfl, rfl, rfl, rfl, rfl⟩
theorem f_x0 : (cfg.optX names).f "_x" [0, 0] = some [0] := by decide +kernel
theorem f_x1 : (cfg.optX names).f "_x" [1, 0] = some [1] := by decide +kernel
theorem f_v : (cfg.optX names).f "_v" [0] = some [2] := by decide +kernel
theorem f_xp : (cfg.optP names).f "_x_prev" [] = some [0] := by decide +kernel
theorem f_y : (cfg.optP names).f "_y_meas" [0] = some [1] := by decide +kernel

theorem x_zero (v : Nat → ℝ) : (cfg.ofX names v).x 0 0 = fun _ => v 0 := by
  funext j
  have hj : j = (0 : Fin 1) := Subsingleton.elim (α := Fin 1) _ _
  subst hj
  show (vecOf ((cfg.optX names).read v "_x" [0, 0]) : Vec ℝ 1) 0 = _
  rw [read_f _ v _ _ _ f_x0]; rfl
theorem x_one (v : Nat → ℝ) : (cfg.ofX names v).x 1 0 = fun _ => v 1 := by
  funext j
  have hj : j = (0 : Fin 1) := Subsingleton.elim (α := Fin 1) _ _
  subst hj
  show (vecOf ((cfg.optX names).read v "_x" [1, 0]) : Vec ℝ 1) 0 = _
  rw [read_f _ v _ _ _ f_x1]; rfl
theorem v_zero (v : Nat → ℝ) : (cfg.ofX names v).v 0 = fun _ => v 2 := by
  funext j
  have hj : j = (0 : Fin 1) := Subsingleton.elim (α := Fin 1) _ _
  subst hj
  show (vecOf ((cfg.optX names).read v "_v" [0]) : Vec ℝ 1) 0 = _
  rw [read_f _ v _ _ _ f_v]; rfl
theorem p_zero (q : Nat → ℝ) : (cfg.ofP names q).xPrev = fun _ => q 0 := by
  funext j
  have hj : j = (0 : Fin 1) := Subsingleton.elim (α := Fin 1) _ _
  subst hj
  show (vecOf ((cfg.optP names).read q "_x_prev" []) : Vec ℝ 1) 0 = _
  rw [read_f _ q _ _ _ f_xp]; rfl
theorem y_zero (q : Nat → ℝ) : (cfg.ofP names q).yMeas 0 = fun _ => q 1 := by
  funext j
  have hj : j = (0 : Fin 1) := Subsingleton.elim (α := Fin 1) _ _
  subst hj
  show (vecOf ((cfg.optP names).read q "_y_meas" [0]) : Vec ℝ 1) 0 = _
  rw [read_f _ q _ _ _ f_y]; rfl

theorem flatObj (v q : Nat → ℝ) : cfg.flatObj names v q = (2 * v 0 - q 0) ^ 2 + v 2 ^ 2 := by
  unfold MheCfg.flatObj MheCfg.obj
  show (((cfg.ofX names v).x 0 0 0 * 2 - (cfg.ofP names q).xPrev 0) ^ 2 + (cfg.ofX names v).v 0 0 ^ 2) + 0 = _
  rw [x_zero, v_zero, p_zero, add_zero]
  ring

theorem flatRows (v q : Nat → ℝ) : cfg.flatRows names v q = .ok [⟨.fin 0, v 0 - v 1, .fin 0⟩, ⟨.fin 0, 2 * v 1 + v 2 - q 1, .fin 0⟩] := by
  unfold MheCfg.flatRows MheCfg.rows
  show Except.ok [Row.eq0 ((cfg.ofX names v).x 0 0 0 * 2 / 2 - (cfg.ofX names v).x 1 0 0), Row.eq0 ((cfg.ofX names v).x 1 0 0 * 2 + (cfg.ofX names v).v 0 0 - (cfg.ofP names q).yMeas 0 0)] = _
  rw [x_zero, x_one, v_zero, y_zero]
  show Except.ok [Row.eq0 (v 0 * 2 / 2 - v 1), Row.eq0 (v 1 * 2 + v 2 - q 1)] = _
  rw [mul_comm (v 1), mul_div_cancel_right₀ _ (two_ne_zero)]
  rfl

/-- the NLP -/
def N : Nlp ℝ where
  nx := 3
  ng := 2
  np := 2
  depX := fun _ => true
  depP := fun _ => true
  lbx := fun _ => none
  ubx := fun _ => none
  lbg := fun _ => some 0
  ubg := fun _ => some 0
  hxx := fun _ _ _ i j => if i = j then (if i = 0 then 8 else if i = 2 then 2 else 0) else 0
  hxp := fun _ _ _ i k => if i = 0 ∧ k = 0 then -4 else 0
  jac := fun _ _ c j => if c = 0 then (if j = 0 then 1 else if j = 1 then -1 else 0) else if j = 0 then 0 else if j = 1 then 2 else 1
  jacP := fun _ _ c k => if c = 1 ∧ k = 1 then -1 else 0

/-- the gradient of the Lagrangian -/
def grad : (Fin 3 → ℝ) × (Fin 2 → ℝ) × (Fin 2 → ℝ) → Fin 3 → ℝ :=
  fun z => ![8 * z.1 0 - 4 * z.2.2 0 + z.2.1 0, -(z.2.1 0) + 2 * z.2.1 1, 2 * z.1 2 + z.2.1 1]
/-- the constraints -/
def g : (Fin 3 → ℝ) × (Fin 2 → ℝ) → Fin 2 → ℝ := fun z => ![z.1 0 - z.1 1, 2 * z.1 1 + z.1 2 - z.2 1]

theorem obj_deriv (x : Fin 3 → ℝ) (l p : Fin 2 → ℝ) : ∃ D : (Fin 3 → ℝ) →L[ℝ] ℝ,
    HasFDerivAt (fun x : Fin 3 → ℝ => cfg.flatObj names (ofFin x) (ofFin p) + ∑ c : Fin 2, l c * g (x, p) c) D x ∧
    ∀ dx, D dx = ∑ i : Fin 3, grad (x, l, p) i * dx i := by
  have e : (fun x : Fin 3 → ℝ => cfg.flatObj names (ofFin x) (ofFin p) + ∑ c : Fin 2, l c * g (x, p) c) =
      fun x => (2 * x 0 - p 0) ^ 2 + x 2 ^ 2 + (l 0 * (x 0 - x 1) + l 1 * (2 * x 1 + x 2 - p 1)) := by
    funext x
    rw [flatObj, Fin.sum_univ_two]
    rfl
  have h0 : ∀ i : Fin 3, HasFDerivAt (fun x : Fin 3 → ℝ => x i) (ContinuousLinearMap.proj (R := ℝ) (φ := fun _ : Fin 3 => ℝ) i) x := fun i => hasFDerivAt_apply i x
  have key := (((((h0 0).const_mul 2).sub_const (p 0)).pow 2).add ((h0 2).pow 2)).add
    ((((h0 0).sub (h0 1)).const_mul (l 0)).add (((((h0 1).const_mul 2).add (h0 2)).sub_const (p 1)).const_mul (l 1)))
  refine ⟨_, (congrArg (fun f => HasFDerivAt f _ x) e).mpr key, fun dx => ?_⟩
  rw [Fin.sum_univ_three]
  simp [grad]
  ring

theorem grad_contDiff : ContDiff ℝ 1 grad := by
  rw [contDiff_pi]
  intro i
  fin_cases i
  · show ContDiff ℝ 1 (fun z : (Fin 3 → ℝ) × (Fin 2 → ℝ) × (Fin 2 → ℝ) => 8 * z.1 0 - 4 * z.2.2 0 + z.2.1 0)
    fun_prop
  · show ContDiff ℝ 1 (fun z : (Fin 3 → ℝ) × (Fin 2 → ℝ) × (Fin 2 → ℝ) => -(z.2.1 0) + 2 * z.2.1 1)
    fun_prop
  · show ContDiff ℝ 1 (fun z : (Fin 3 → ℝ) × (Fin 2 → ℝ) × (Fin 2 → ℝ) => 2 * z.1 2 + z.2.1 1)
    fun_prop

theorem g_contDiff : ContDiff ℝ 1 g := by
  rw [contDiff_pi]
  intro i
  fin_cases i
  · show ContDiff ℝ 1 (fun z : (Fin 3 → ℝ) × (Fin 2 → ℝ) => z.1 0 - z.1 1)
    fun_prop
  · show ContDiff ℝ 1 (fun z : (Fin 3 → ℝ) × (Fin 2 → ℝ) => 2 * z.1 1 + z.1 2 - z.2 1)
    fun_prop

theorem isNlp : IsNlpOfMhe cfg names N grad g := by
  refine ⟨by decide +kernel, by decide +kernel, ?_, ?_, fun x p => ?_, fun x l p => ?_⟩
  · show [cfg.lbx.x 0 0 0, cfg.lbx.x 1 0 0, .ninf] = [.ninf, .ninf, .ninf]
    have h2 : ¬ (2 : ℝ) < 0 := by norm_num
    simp [MheCfg.lbx, MheCfg.updateBounds, Bound.divBy, cfg, MheBounds.const, h2]
  · show [cfg.ubx.x 0 0 0, cfg.ubx.x 1 0 0, .pinf] = [.pinf, .pinf, .pinf]
    have h2 : ¬ (2 : ℝ) < 0 := by norm_num
    simp [MheCfg.ubx, MheCfg.updateBounds, Bound.divBy, cfg, MheBounds.const, h2]
  · rw [flatRows]
    rfl
  · exact obj_deriv x l p

theorem depends : DependsCorrect N := by
  refine ⟨?_, ?_, ?_, ?_, ?_, ?_, ?_⟩
  all_goals first
    | (intro x x' l p p' _ _; exact ⟨rfl, rfl, rfl, rfl⟩)
    | (intros; rename_i h; cases h)

theorem smooth (x l p : Nat → ℝ) : Smooth N grad g x l p := by
  refine ⟨?_, ?_, ⟨fun i => ?_, fun c => ?_⟩, fun x x' l p h => ?_, fun x x' p h => ?_, fun z i h => ?_⟩
  · exact grad_contDiff.contDiffAt
  · exact g_contDiff.contDiffAt
  · change Fin 3 at i
    obtain ⟨D, h1, h2⟩ := FlatEx.lin_deriv (fun z : (Fin 3 → ℝ) × (Fin 2 → ℝ) × (Fin 2 → ℝ) => grad z i) (by
      constructor
      · intro a b; fin_cases i <;> simp [grad] <;> ring
      · intro r a; fin_cases i <;> simp [grad] <;> ring) (toFin _ x, toFin _ l, toFin _ p)
    refine ⟨D, h1, fun dx dl dp => (h2 _).trans ?_⟩
    show grad (dx, dl, dp) i = ∑ j : Fin 3, N.hxx x l p i j * dx j + ∑ c : Fin 2, N.jac x p c i * dl c + ∑ k : Fin 2, N.hxp x l p i k * dp k
    rw [Fin.sum_univ_three, Fin.sum_univ_two, Fin.sum_univ_two]
    fin_cases i <;> simp [grad, N] <;> ring
  · change Fin 2 at c
    obtain ⟨D, h1, h2⟩ := FlatEx.lin_deriv (fun z : (Fin 3 → ℝ) × (Fin 2 → ℝ) => g z c) (by
      constructor
      · intro a b; fin_cases c <;> simp [g] <;> ring
      · intro r a; fin_cases c <;> simp [g] <;> ring) (toFin _ x, toFin _ p)
    refine ⟨D, h1, fun dx dp => (h2 _).trans ?_⟩
    show g (dx, dp) c = ∑ j : Fin 3, N.jac x p c j * dx j + ∑ k : Fin 2, N.jacP x p c k * dp k
    rw [Fin.sum_univ_three, Fin.sum_univ_two]
    fin_cases c <;> simp [g, N] <;> ring
  · have : x = x' := funext fun i => h i rfl
    rw [this]
  · have : x = x' := funext fun i => h i rfl
    rw [this]
  · cases h

/-- the solution for the parameters `q` -/
noncomputable def X (q : Fin 2 → ℝ) : Fin 3 → ℝ := ![(q 0 + q 1) / 4, (q 0 + q 1) / 4, (q 1 - q 0) / 2]
/-- its multipliers -/
noncomputable def LG (q : Fin 2 → ℝ) : Fin 2 → ℝ := ![-2 * (q 1 - q 0), -(q 1 - q 0)]

theorem kkt (q : Fin 2 → ℝ) : KktPoint N grad g (X q) (LG q) (fun _ => 0) q := by
  have hg : ∀ c : Fin 2, g (X q, q) c = 0 := by
    intro c
    fin_cases c <;> simp [g, X] <;> ring
  refine ⟨fun i => ?_, fun c b hb => ?_, fun c b hb => ?_, fun i b hb => ?_, fun i b hb => ?_, fun c _ => ?_, fun c _ => ?_, fun i h => ?_, fun i h => ?_⟩
  · change Fin 3 at i
    fin_cases i <;> simp [grad, X, LG] <;> ring
  · exact le_of_eq ((Option.some.inj hb).symm.trans (hg c).symm)
  · exact le_of_eq ((hg c).trans (Option.some.inj hb))
  · cases hb
  · cases hb
  · exact congrArg some (hg c).symm
  · exact congrArg some (hg c).symm
  · exact absurd h (lt_irrefl _)
  · exact absurd h (lt_irrefl _)

/-- the previous state 0, the measurement 4 -/
def Q : MheP ℝ dm 0 0 := ⟨fun _ => 0, fun _ => 0, fun _ => 0, fun _ _ => 0, fun _ _ => 4⟩

theorem catP : cfg.catP names Q = [0, 4] := by
  show [Q.xPrev 0, Q.yMeas 0 0] = _
  rfl

/-- the solution as `differentiate` gets it -/
noncomputable def sol : Sol ℝ := ⟨ofFin (X ![0, 4]), fun _ => 0, ofFin (LG ![0, 4]), fun _ => 0⟩

/-- the settings -/
noncomputable def sets : Settings ℝ := ⟨1 / 10, false, false⟩

theorem run_ok : differentiate N sets exactSolver exactSolver sol (cfg.catP names Q) = .ok (core N sets exactSolver exactSolver sol fun i => (cfg.catP names Q).getD i 0) := by
  unfold differentiate
  rw [catP, show N.isReduced = false by decide +kernel]
  simp [N, sets]

theorem params : mheParams cfg names 2 Q = ![0, 4] := by
  funext k
  unfold mheParams toFin
  rw [catP]
  fin_cases k <;> rfl

theorem allActive (c : Nat) : AtBound sets.tol (sol.g c) (N.lbg c) (N.ubg c) := ⟨0, Or.inl rfl, by simp [sol, sets]⟩

theorem noBound (i : Nat) : ¬ AtBound sets.tol (sol.x i) (N.lbx i) (N.ubx i) := by
  rintro ⟨b, h | h, -⟩ <;> cases h

/-- the result of the call -/
noncomputable def out : Out ℝ := core N sets exactSolver exactSolver sol fun i => (cfg.catP names Q).getD i 0

theorem status_ok : ∃ st', differentiateSt N sets Checks.default exactSolver exactSolver sol (cfg.catP names Q) Status.init = (.ok out, st') ∧
    st'.licq = some true ∧ st'.sc = some true := by
  have h' := st_of_ok N sets Checks.default exactSolver exactSolver sol (cfg.catP names Q) Status.init _ run_ok
  obtain ⟨b, hb, hbi⟩ := C91_licq N depends _ _ exactSolver exactSolver _ _ _ _ _ h' rfl
  obtain ⟨b', hb', hbi'⟩ := C91_sc_partial N _ _ exactSolver exactSolver _ _ _ _ _ h' rfl
  have hbt : b = true := by
    refine hbi.2 fun muG muX h1 _ h3 => ?_
    have hx : ∀ i < 3, muX i = 0 := fun i hi => h3 i hi (noBound i)
    refine ⟨fun c hc => ?_, hx⟩
    have e2 := h1 2 (by decide)
    have e0 := h1 0 (by decide)
    rw [hx 2 (by decide)] at e2
    rw [hx 0 (by decide)] at e0
    simp [N, Finset.sum_range_succ] at e0 e2
    have hc' : c < 2 := hc
    interval_cases c
    · exact e0
    · exact e2
  have hbt' : b' = true := by
    refine hbi'.2 ⟨fun c hc _ => ?_, fun i _ h => absurd h.2 (noBound i)⟩
    have hc' : c < 2 := hc
    interval_cases c
    · show (1 / 10 : ℝ) ≤ |-2 * ((4 : ℝ) - 0)|
      norm_num
    · show (1 / 10 : ℝ) ≤ |-((4 : ℝ) - 0)|
      norm_num
  subst hbt
  subst hbt'
  exact ⟨_, h', hb, hb'⟩

theorem do_ok : doDifferentiate N (cfg.scalingFlat names) sets exactSolver exactSolver sol (cfg.catP names Q) =
    .ok (rescale (cfg.scalingFlat names) out) := by
  unfold doDifferentiate
  rw [run_ok]
  rfl

theorem sol_x : toFin 3 sol.x = X ![0, 4] := by funext i; exact ofFin_val _ _ i.2
theorem sol_g : toFin 2 sol.lamG = LG ![0, 4] := by funext i; exact ofFin_val _ _ i.2

theorem second_order : SecondOrder N sol.x sol.lamG (fun i => (cfg.catP names Q).getD i 0) (fun c => AtBound sets.tol (sol.g c) (N.lbg c) (N.ubg c))
    (fun i => AtBound sets.tol (sol.x i) (N.lbx i) (N.ubx i)) := by
  intro dd hG _ hex
  have e0 := hG 0 (by decide) (allActive 0)
  have e1 := hG 1 (by decide) (allActive 1)
  simp [N, Finset.sum_range_succ] at e0 e1
  simp [N, Finset.sum_range_succ]
  have : dd 0 ^ 2 + dd 2 ^ 2 ≠ 0 := by
    intro hz
    have z1 : dd 0 = 0 := by nlinarith [sq_nonneg (dd 0), sq_nonneg (dd 2)]
    have z2 : dd 2 = 0 := by nlinarith [sq_nonneg (dd 0), sq_nonneg (dd 2)]
    obtain ⟨i, hi, -, hne⟩ := hex
    have hi' : i < 3 := hi
    interval_cases i
    · exact hne z1
    · exact hne (by linarith)
    · exact hne z2
  have hpos : 0 < dd 0 ^ 2 + dd 2 ^ 2 := lt_of_le_of_ne (by positivity) (Ne.symm this)
  nlinarith [sq_nonneg (dd 0)]

theorem g_sol : g (toFin 3 sol.x, mheParams cfg names 2 Q) = fun _ => 0 := by
  rw [sol_x, params]
  funext c
  fin_cases c <;> simp [g, X] <;> norm_num

theorem kkt_sol : KktPoint N grad g (toFin 3 sol.x) (toFin 2 sol.lamG) (fun _ => 0) (mheParams cfg names 2 Q) := by
  rw [sol_x, sol_g, params]
  exact kkt _

/-- what the solver returns for the measurement `η` -/
noncomputable def W (η : Fin 1 → ℝ) : MheX ℝ dm 0 := cfg.ofX names (ofFin (X ![0, η 0]))

theorem catP_meas (η : Fin 1 → ℝ) : cfg.catP names { Q with yMeas := Function.update Q.yMeas 0 η } = [0, η 0] := by
  show [Q.xPrev 0, Function.update Q.yMeas 0 η 0 0] = _
  rw [Function.update_self]
  rfl

theorem W_flat (η : Fin 1 → ℝ) : cfg.catX names (W η) = [(0 + η 0) / 4, (0 + η 0) / 4, (η 0 - 0) / 2] := by
  unfold W
  show [(cfg.ofX names _).x 0 0 0, (cfg.ofX names _).x 1 0 0, (cfg.ofX names _).v 0 0] = _
  rw [x_zero, x_one, v_zero]
  rfl

theorem feasible_flat (v : Nat → ℝ) (q : Nat → ℝ) : cfg.FlatFeasible names v q → v 0 = v 1 ∧ v 2 = q 1 - 2 * v 1 := by
  rintro ⟨rs, hr, h, -⟩
  rw [flatRows] at hr
  obtain rfl := Except.ok.inj hr
  have h1 := h _ (List.mem_cons_self ..)
  have h2 := h _ (List.mem_cons_of_mem _ (List.mem_cons_self ..))
  have a1 : (0 : ℝ) ≤ v 0 - v 1 ∧ v 0 - v 1 ≤ 0 := h1
  have a2 : (0 : ℝ) ≤ 2 * v 1 + v 2 - q 1 ∧ 2 * v 1 + v 2 - q 1 ≤ 0 := h2
  constructor <;> linarith [a1.1, a1.2, a2.1, a2.2]

/-- `W η` solves the estimation problem for the measurement `η` -/
theorem W_solves (η : Fin 1 → ℝ) : SolvesMhe cfg (W η) { Q with yMeas := Function.update Q.yMeas 0 η } := by
  refine (C100_minimiser cfg names names_ok List.nodup_nil (discrete_ownPoints _ _ _ _ _) { Q with yMeas := Function.update Q.yMeas 0 η } (ofFin (X ![0, η 0]))).1 ?_
  rw [catP_meas]
  have hq : (fun p => [0, η 0].getD p 0) = ofFin (![0, η 0] : Fin 2 → ℝ) := by
    funext p
    rcases p with _ | _ | p <;> simp [ofFin]
  refine ⟨?_, fun v' hv' => ?_⟩
  · rw [hq]
    have hk := kkt ![0, η 0]
    exact (mhe_admissible_iff cfg names N grad g isNlp (X ![0, η 0]) ![0, η 0]).1 ⟨hk.lowerG, hk.upperG, hk.lowerX, hk.upperX⟩
  · obtain ⟨e0, e1⟩ := feasible_flat _ _ hv'
    rw [flatObj, flatObj, e1, e0]
    show (2 * ((0 + η 0) / 4) - 0) ^ 2 + ((η 0 - 0) / 2) ^ 2 ≤ (2 * v' 1 - 0) ^ 2 + (η 0 - 2 * v' 1) ^ 2
    nlinarith [sq_nonneg (4 * v' 1 - η 0)]

theorem last_meas : counted cfg.N (-1) = 0 := by decide
theorem W_solves' (η : Fin 1 → ℝ) : SolvesMhe cfg (W η) { Q with yMeas := Function.update Q.yMeas (counted cfg.N (-1)) η } := by
  rw [last_meas]
  exact W_solves η

/-- non-vacuity of `C101_estimator_gain`: all hypotheses hold; the estimate is half of the measurement and the returned gain is 1/2 -/
example : ∃ o o' st', differentiateSt N sets Checks.default exactSolver exactSolver sol (cfg.catP names Q) Status.init = (.ok o, st') ∧
    doDifferentiate N (cfg.scalingFlat names) sets exactSolver exactSolver sol (cfg.catP names Q) = .ok o' ∧ st'.licq = some true ∧ st'.sc = some true ∧
    (∀ η, cfg.xPhys (W η) cfg.N cfg.xLast = fun _ => η 0 / 2) ∧
    sensNum (cfg.optX names) (cfg.optP names) o'.dx "_x" [-1, -1] "_y_meas" [-1] = some [[some (1 / 2)]] := by
  obtain ⟨st', h', hb, hb'⟩ := status_ok
  have hWu : ∀ η : Fin 1 → ℝ, cfg.xPhys (W η) cfg.N cfg.xLast = fun _ => η 0 / 2 := by
    intro η
    funext j
    show (cfg.ofX names _).x 1 0 j * 2 = _
    rw [x_one]
    show (0 + η 0) / 4 * 2 = _
    ring
  obtain ⟨D, hD, hS⟩ := C101_estimator_gain cfg names names_ok List.nodup_nil (discrete_ownPoints _ _ _ _ _) N depends sets (by norm_num [sets])
    Checks.default exactSolver exactSolver exactSolver_solves exactSolver_complete (fun _ => exactSolver_solves) sol Q Status.init _ _ _ h' do_ok rfl rfl hb hb'
    second_order grad g isNlp (smooth _ _ _) g_sol kkt_sol (-1) ⟨by decide, by decide⟩ (fun _ _ _ _ => rfl) W (Eventually.of_forall W_solves')
    (by
      intro i _
      rw [W_flat]
      change Fin 3 at i
      fin_cases i <;> simp [sol, ofFin, X, Q])
    (by
      intro i _
      simp only [W_flat]
      change Fin 3 at i
      fin_cases i
      · exact (show Continuous fun η : Fin 1 → ℝ => (0 + η 0) / 4 by fun_prop).continuousAt
      · exact (show Continuous fun η : Fin 1 → ℝ => (0 + η 0) / 4 by fun_prop).continuousAt
      · exact (show Continuous fun η : Fin 1 → ℝ => (η 0 - 0) / 2 by fun_prop).continuousAt)
  refine ⟨_, _, _, h', do_ok, hb, hb', hWu, hS.trans ?_⟩
  have hlin : HasFDerivAt (fun (η : Fin 1 → ℝ) (_ : Fin 1) => η 0 / 2)
      (ContinuousLinearMap.pi fun _ : Fin 1 => (1 / 2 : ℝ) • ContinuousLinearMap.proj (R := ℝ) (φ := fun _ : Fin 1 => ℝ) 0) (Q.yMeas 0) := by
    rw [hasFDerivAt_pi]
    intro _
    have := ((hasFDerivAt_apply (𝕜 := ℝ) (0 : Fin 1) (Q.yMeas 0 : Fin 1 → ℝ)).const_mul (1 / 2 : ℝ))
    refine this.congr_of_eventuallyEq (Eventually.of_forall fun η => ?_)
    show η 0 / 2 = 1 / 2 * η 0
    ring
  have hDe : D = ContinuousLinearMap.pi fun _ : Fin 1 => (1 / 2 : ℝ) • ContinuousLinearMap.proj (R := ℝ) (φ := fun _ : Fin 1 => ℝ) 0 := by
    refine HasFDerivAt.unique hD ?_
    exact (congrArg (fun f => HasFDerivAt f _ (Q.yMeas 0)) (funext hWu)).mpr hlin
  rw [hDe]
  show some [[some ((1 / 2 : ℝ) • (Pi.single (0 : Fin 1) (1 : ℝ) : Fin 1 → ℝ) 0)]] = _
  simp

theorem X_cont : Continuous X := by
  refine continuous_pi fun i => ?_
  fin_cases i
  · show Continuous fun q : Fin 2 → ℝ => (q 0 + q 1) / 4
    fun_prop
  · show Continuous fun q : Fin 2 → ℝ => (q 0 + q 1) / 4
    fun_prop
  · show Continuous fun q : Fin 2 → ℝ => (q 1 - q 0) / 2
    fun_prop

/-- the solution for all parameters -/
noncomputable def Wq (q : Fin 2 → ℝ) : MheX ℝ dm 0 := cfg.ofX names (ofFin (X q))

theorem Wq_flat (q : Fin 2 → ℝ) : cfg.catX names (Wq q) = [X q 0, X q 1, X q 2] := by
  unfold Wq
  show [(cfg.ofX names _).x 0 0 0, (cfg.ofX names _).x 1 0 0, (cfg.ofX names _).v 0 0] = _
  rw [x_zero, x_one, v_zero]
  rfl

theorem Wq_solves (q : Fin 2 → ℝ) : SolvesMhe cfg (Wq q) (cfg.ofP names (ofFin q)) := by
  refine (C100_minimiser cfg names names_ok List.nodup_nil (discrete_ownPoints _ _ _ _ _) (cfg.ofP names (ofFin q)) (ofFin (X q))).1 ?_
  have hq : (fun p => (cfg.catP names (cfg.ofP names (ofFin q))).getD p 0) = ofFin q := by
    have : cfg.catP names (cfg.ofP names (ofFin q)) = [(cfg.ofP names (ofFin q)).xPrev 0, (cfg.ofP names (ofFin q)).yMeas 0 0] := rfl
    rw [this, p_zero, y_zero]
    funext p
    rcases p with _ | _ | p <;> simp [ofFin]
  rw [hq]
  refine ⟨?_, fun v' hv' => ?_⟩
  · have hk := kkt q
    exact (mhe_admissible_iff cfg names N grad g isNlp (X q) q).1 ⟨hk.lowerG, hk.upperG, hk.lowerX, hk.upperX⟩
  · obtain ⟨e0, e1⟩ := feasible_flat _ _ hv'
    rw [flatObj, flatObj, e1, e0]
    show (2 * ((q 0 + q 1) / 4) - q 0) ^ 2 + ((q 1 - q 0) / 2) ^ 2 ≤ (2 * v' 1 - q 0) ^ 2 + (q 1 - 2 * v' 1) ^ 2
    nlinarith [sq_nonneg (4 * v' 1 - q 0 - q 1)]

theorem Wq_sol (i : Fin 3) : (cfg.catX names (Wq (mheParams cfg names 2 Q))).getD i 0 = sol.x i := by
  rw [Wq_flat, params]
  fin_cases i <;> simp [sol, ofFin]

theorem Wq_cont (i : Fin 3) : Continuous fun q : Fin 2 → ℝ => (cfg.catX names (Wq q)).getD i 0 := by
  simp only [Wq_flat]
  fin_cases i
  · exact (continuous_apply (0 : Fin 3)).comp X_cont
  · exact (continuous_apply (1 : Fin 3)).comp X_cont
  · exact (continuous_apply (2 : Fin 3)).comp X_cont

/-- non-vacuity of `C101_sens_num`: all hypotheses hold; the first row is the derivative of the estimate with respect to the previous state -/
example : ∃ o', doDifferentiate N (cfg.scalingFlat names) sets exactSolver exactSolver sol (cfg.catP names Q) = .ok o' ∧
    ∃ M, sensNum (cfg.optX names) (cfg.optP names) o'.dx "_x" [1, 0] "_x_prev" [] = some M ∧ M.length = 1 ∧
      ∃ D : (Fin 2 → ℝ) →L[ℝ] ℝ, HasFDerivAt (fun q => (cfg.catX names (cfg.unscaled (Wq q))).getD 1 0) D (mheParams cfg names 2 Q) ∧ M[0]? = some [some (D (Pi.single 0 1))] := by
  obtain ⟨st', h', hb, hb'⟩ := status_ok
  obtain ⟨M, hM, hl, hr⟩ := C101_sens_num cfg names names_ok List.nodup_nil (discrete_ownPoints _ _ _ _ _) N depends sets (by norm_num [sets])
    Checks.default exactSolver exactSolver exactSolver_solves exactSolver_complete (fun _ => exactSolver_solves) sol Q Status.init _ _ _ h' do_ok rfl rfl hb hb'
    second_order grad g isNlp (smooth _ _ _) g_sol kkt_sol Wq (Eventually.of_forall Wq_solves)
    (fun i _ => Wq_sol i) (fun i _ => (Wq_cont i).continuousAt)
    "_x" [1, 0] "_x_prev" [] _ _ f_x1 f_xp (fun _ _ => rfl)
  refine ⟨_, do_ok, M, hM, hl, ?_⟩
  have h1 : M.length = 1 := hl
  obtain ⟨hm, D, hD, hb⟩ := hr 0 (by decide) (by omega)
  refine ⟨D, hD, ?_⟩
  rw [List.getElem?_eq_getElem (by omega)]
  refine congrArg some (List.ext_getElem hm fun b h2 h3 => ?_)
  have hb0 : b = 0 := by
    have : b < 1 := h3
    omega
  subst hb0
  exact hb 0 (by decide) h2 (by decide)

/-- non-vacuity of C100: the hypotheses hold for the example; the flat vectors -/
example : OkMhe names dm 0 0 ∧ (cfg.nl.map (·.name)).Nodup ∧ OwnPoints cfg.ifcn ∧ (cfg.optX names).size = 3 ∧ (cfg.optP names).size = 2 ∧
    (∀ w : MheX ℝ dm 0, cfg.catX names w = [w.x 0 0 0, w.x 1 0 0, w.v 0 0]) ∧ cfg.FlatFeasible names (ofFin (X ![0, 4])) (ofFin ![0, 4]) :=
  ⟨names_ok, List.nodup_nil, discrete_ownPoints _ _ _ _ _, by decide +kernel, by decide +kernel, fun _ => rfl,
   (mhe_admissible_iff cfg names N grad g isNlp (X ![0, 4]) ![0, 4]).1 ⟨(kkt ![0, 4]).lowerG, (kkt ![0, 4]).upperG, (kkt ![0, 4]).lowerX, (kkt ![0, 4]).upperX⟩⟩

end DoMpc.FlatMheEx
