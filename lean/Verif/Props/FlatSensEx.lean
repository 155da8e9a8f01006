import Verif.Props.FlatSens
import Verif.Props.DiffStatusEx
import Mathlib.Analysis.Calculus.FDeriv.Pow
import Mathlib.Analysis.Calculus.ContDiff.Operations

set_option linter.unusedSectionVars false
set_option linter.unusedSimpArgs false

/-!
# C99: examples

`x⁺ = x + u`, one step, cost `x₁² + u²`, the input scaled by 2.  The feedback is `u = -x₀/2`.
-/
namespace DoMpc.FlatEx
open FlatSpec Diff Diff.Spec Filter Topology

/-- one state, one input -/
abbrev dm : Dims := ⟨1, 1, 0, 0, 0, 0, 0, 0, 0⟩
/-- `x⁺ = x + u` -/
def model : DaeModel ℝ dm := ⟨fun x u _ _ _ _ => x + u, fun _ _ _ _ _ _ => 0, fun _ _ _ _ _ _ => 0, fun _ _ _ _ _ => 0⟩
/-- the names -/
def names : VarNames := ⟨[("x", 1)], [], [("u", 1)], [], []⟩
/-- the MPC -/
noncomputable def cfg : MpcCfg ℝ dm where
  N := 1
  nRobust := 0
  c := 1
  ifcn := discreteIfcn model 1 2 1 1
  sx := 1
  su := 2
  sz := 1
  xlb := fun _ => .ninf
  xub := fun _ => .pinf
  ulb := fun _ => .ninf
  uub := fun _ => .pinf
  zlb := fun _ => .ninf
  zub := fun _ => .pinf
  xtlb := fun _ => .ninf
  xtub := fun _ => .pinf
  nl := []
  lterm := fun _ u _ _ _ => u 0 ^ 2
  mterm := fun x _ _ => x 0 ^ 2
  rterm := .factor 0

theorem names_ok : Ok names dm := ⟨rfl, rfl, rfl, rfl, rfl⟩
theorem f_x0 : (cfg.optX names).f "_x" [0, 0, 0] = some [0] := by decide +kernel
theorem f_x1 : (cfg.optX names).f "_x" [1, 0, 0] = some [1] := by decide +kernel
theorem f_u : (cfg.optX names).f "_u" [0, 0] = some [2] := by decide +kernel
theorem f_p0 : (cfg.optP names).f "_x0" [] = some [0] := by decide +kernel
theorem f_pu : (cfg.optP names).f "_u_prev" [] = some [1] := by decide +kernel

theorem x_zero (v : Nat → ℝ) : (cfg.ofX names v).x 0 0 0 = fun _ => v 0 := by
  funext j
  have hj : j = (0 : Fin 1) := Subsingleton.elim (α := Fin 1) _ _
  subst hj
  show (vecOf ((cfg.optX names).read v "_x" [0, 0, 0]) : Vec ℝ 1) 0 = _
  rw [read_f _ v _ _ _ f_x0]; rfl
theorem x_one (v : Nat → ℝ) : (cfg.ofX names v).x 1 0 0 = fun _ => v 1 := by
  funext j
  have hj : j = (0 : Fin 1) := Subsingleton.elim (α := Fin 1) _ _
  subst hj
  show (vecOf ((cfg.optX names).read v "_x" [1, 0, 0]) : Vec ℝ 1) 0 = _
  rw [read_f _ v _ _ _ f_x1]; rfl
theorem u_zero (v : Nat → ℝ) : (cfg.ofX names v).u 0 0 = fun _ => v 2 := by
  funext j
  have hj : j = (0 : Fin 1) := Subsingleton.elim (α := Fin 1) _ _
  subst hj
  show (vecOf ((cfg.optX names).read v "_u" [0, 0]) : Vec ℝ 1) 0 = _
  rw [read_f _ v _ _ _ f_u]; rfl
theorem p_zero (q : Nat → ℝ) : (cfg.ofP names q).x0 = fun _ => q 0 := by
  funext j
  have hj : j = (0 : Fin 1) := Subsingleton.elim (α := Fin 1) _ _
  subst hj
  show (vecOf ((cfg.optP names).read q "_x0" []) : Vec ℝ 1) 0 = _
  rw [read_f _ q _ _ _ f_p0]; rfl

theorem loop : cfg.loop = [(0, 0, 0)] := by
  show (List.range 1).flatMap _ = _
  rfl

theorem flatObj (v q : Nat → ℝ) : cfg.flatObj names v q = (2 * v 2) ^ 2 + v 1 ^ 2 := by
  unfold MpcCfg.flatObj MpcCfg.obj
  rw [loop]
  have hU : cfg.sU 0 = 0 := rfl
  have hL : cfg.xLast = 0 := rfl
  simp only [List.map_cons, List.map_nil, List.sum_cons, List.sum_nil, add_zero]
  have h1 : cfg.econAt (cfg.ofX names v) (cfg.ofP names q) 0 0 0 = (2 * v 2) ^ 2 + v 1 ^ 2 := by
    unfold MpcCfg.econAt MpcCfg.omega
    dsimp only
    rw [hU, hL, if_pos (show 0 = cfg.N - 1 from rfl)]
    show 1 / (((1 : Nat)) : ℝ) * ((cfg.uPhys (cfg.ofX names v) 0 0) 0 ^ 2) + 1 / ((1 : Nat) : ℝ) * ((cfg.xPhys (cfg.ofX names v) 1 0 0) 0 ^ 2) = _
    unfold MpcCfg.uPhys MpcCfg.xPhys
    rw [u_zero, x_one]
    show 1 / ((1 : Nat) : ℝ) * ((v 2 * 2) ^ 2) + 1 / ((1 : Nat) : ℝ) * ((v 1 * 1) ^ 2) = _
    push_cast
    ring
  have h2 : cfg.slackAt (cfg.ofX names v) 0 0 = 0 := rfl
  have h3 : cfg.rtermAt (cfg.ofX names v) (cfg.ofP names q) 0 0 0 = 0 := by
    unfold MpcCfg.rtermAt
    show (List.ofFn fun j => (0 : ℝ) * _).sum = 0
    simp
  rw [h1, h2, h3, add_zero, add_zero]

theorem flatRows (v q : Nat → ℝ) : cfg.flatRows names v q = [⟨.fin 0, v 0 - q 0, .fin 0⟩, ⟨.fin 0, v 0 + 2 * v 2 - v 1, .fin 0⟩] := by
  unfold MpcCfg.flatRows MpcCfg.rows
  rw [loop]
  have h1 : cfg.initRows (cfg.ofX names v) (cfg.ofP names q) = [⟨.fin 0, v 0 - q 0, .fin 0⟩] := by
    unfold MpcCfg.initRows
    rw [show cfg.xLast = 0 from rfl, x_zero, p_zero]
    show [Row.eq0 (v 0 - q 0 / 1)] = _
    rw [div_one]; rfl
  have h2 : cfg.dynRows (cfg.ofX names v) (cfg.ofP names q) 0 0 0 = [⟨.fin 0, v 0 + 2 * v 2 - v 1, .fin 0⟩] := by
    unfold MpcCfg.dynRows
    rw [show cfg.child 0 0 0 = 0 by decide +kernel, show cfg.xLast = 0 from rfl, show cfg.sU 0 = 0 from rfl, x_zero, u_zero]
    dsimp only
    rw [x_one]
    show [Row.eq0 ((v 0 * 1 + v 2 * 2) / 1 - v 1)] = _
    rw [show (v 0 * 1 + v 2 * 2) / 1 - v 1 = v 0 + 2 * v 2 - v 1 by ring]
    rfl
  have h3 : cfg.nlRowsAt (cfg.ofX names v) (cfg.ofP names q) 0 0 0 = [] := rfl
  simp only [List.flatMap_cons, List.flatMap_nil, h1, h2, h3, List.append_nil]
  rfl

/-- the NLP -/
def N : Nlp ℝ where
  nx := 3
  ng := 2
  np := 2
  depX := fun _ => true
  depP := fun _ => true
  lbx := fun _ => none
  ubx := fun _ => none
  lbg := fun _ => some 0
  ubg := fun _ => some 0
  hxx := fun _ _ _ i j => if i = j then (if i = 1 then 2 else if i = 2 then 8 else 0) else 0
  hxp := fun _ _ _ _ _ => 0
  jac := fun _ _ c j => if c = 0 then (if j = 0 then 1 else 0) else if j = 0 then 1 else if j = 1 then -1 else 2
  jacP := fun _ _ c k => if c = 0 ∧ k = 0 then -1 else 0

/-- the gradient of the Lagrangian -/
def grad : (Fin 3 → ℝ) × (Fin 2 → ℝ) × (Fin 2 → ℝ) → Fin 3 → ℝ := fun z => ![z.2.1 0 + z.2.1 1, 2 * z.1 1 - z.2.1 1, 8 * z.1 2 + 2 * z.2.1 1]
/-- the constraints -/
def g : (Fin 3 → ℝ) × (Fin 2 → ℝ) → Fin 2 → ℝ := fun z => ![z.1 0 - z.2 0, z.1 0 + 2 * z.1 2 - z.1 1]

theorem obj_deriv (x : Fin 3 → ℝ) (l p : Fin 2 → ℝ) : ∃ D : (Fin 3 → ℝ) →L[ℝ] ℝ,
    HasFDerivAt (fun x : Fin 3 → ℝ => cfg.flatObj names (ofFin x) (ofFin p) + ∑ c : Fin 2, l c * g (x, p) c) D x ∧
    ∀ dx, D dx = ∑ i : Fin 3, grad (x, l, p) i * dx i := by
  have e : (fun x : Fin 3 → ℝ => cfg.flatObj names (ofFin x) (ofFin p) + ∑ c : Fin 2, l c * g (x, p) c) =
      fun x => (2 * x 2) ^ 2 + x 1 ^ 2 + (l 0 * (x 0 - p 0) + l 1 * (x 0 + 2 * x 2 - x 1)) := by
    funext x
    rw [flatObj, Fin.sum_univ_two]
    rfl
  have h0 : ∀ i : Fin 3, HasFDerivAt (fun x : Fin 3 → ℝ => x i) (ContinuousLinearMap.proj (R := ℝ) (φ := fun _ : Fin 3 => ℝ) i) x := fun i => hasFDerivAt_apply i x
  have key := ((((h0 2).const_mul 2).pow 2).add ((h0 1).pow 2)).add
    ((((h0 0).sub_const (p 0)).const_mul (l 0)).add ((((h0 0).add ((h0 2).const_mul 2)).sub (h0 1)).const_mul (l 1)))
  refine ⟨_, (congrArg (fun f => HasFDerivAt f _ x) e).mpr key, fun dx => ?_⟩
  rw [Fin.sum_univ_three]
  simp [grad]
  ring

theorem grad_contDiff : ContDiff ℝ 1 grad := by
  rw [contDiff_pi]
  intro i
  fin_cases i
  · show ContDiff ℝ 1 (fun z : (Fin 3 → ℝ) × (Fin 2 → ℝ) × (Fin 2 → ℝ) => z.2.1 0 + z.2.1 1)
    fun_prop
  · show ContDiff ℝ 1 (fun z : (Fin 3 → ℝ) × (Fin 2 → ℝ) × (Fin 2 → ℝ) => 2 * z.1 1 - z.2.1 1)
    fun_prop
  · show ContDiff ℝ 1 (fun z : (Fin 3 → ℝ) × (Fin 2 → ℝ) × (Fin 2 → ℝ) => 8 * z.1 2 + 2 * z.2.1 1)
    fun_prop

theorem g_contDiff : ContDiff ℝ 1 g := by
  rw [contDiff_pi]
  intro i
  fin_cases i
  · show ContDiff ℝ 1 (fun z : (Fin 3 → ℝ) × (Fin 2 → ℝ) => z.1 0 - z.2 0)
    fun_prop
  · show ContDiff ℝ 1 (fun z : (Fin 3 → ℝ) × (Fin 2 → ℝ) => z.1 0 + 2 * z.1 2 - z.1 1)
    fun_prop

theorem isNlp : IsNlpOf cfg names N grad g := by
  refine ⟨by decide +kernel, by decide +kernel, ?_, ?_, fun x p => ?_, fun x l p => ?_⟩
  · show [cfg.lbx.x 0 0 0 0, cfg.lbx.x 1 0 0 0, cfg.lbx.u 0 0 0] = [.ninf, .ninf, .ninf]
    have h1 : ¬ (1 : ℝ) < 0 := by norm_num
    have h2 : ¬ (2 : ℝ) < 0 := by norm_num
    simp [MpcCfg.lbx, MpcCfg.updateBounds, Bound.divBy, cfg, OptXBounds.const, h1, h2]
  · show [cfg.ubx.x 0 0 0 0, cfg.ubx.x 1 0 0 0, cfg.ubx.u 0 0 0] = [.pinf, .pinf, .pinf]
    have h1 : ¬ (1 : ℝ) < 0 := by norm_num
    have h2 : ¬ (2 : ℝ) < 0 := by norm_num
    simp [MpcCfg.ubx, MpcCfg.updateBounds, Bound.divBy, cfg, OptXBounds.const, h1, h2]
  · rw [flatRows]
    rfl
  · exact obj_deriv x l p

theorem depends : DependsCorrect N := by
  refine ⟨?_, ?_, ?_, ?_, ?_, ?_, ?_⟩
  all_goals first
    | (intro x x' l p p' _ _; exact ⟨rfl, rfl, rfl, rfl⟩)
    | (intros; rename_i h; cases h)

theorem lin_deriv {E : Type} [NormedAddCommGroup E] [NormedSpace ℝ E] [FiniteDimensional ℝ E] (f : E → ℝ) (hf : IsLinearMap ℝ f) (x : E) :
    ∃ D : E →L[ℝ] ℝ, HasFDerivAt f D x ∧ ∀ y, D y = f y :=
  ⟨(hf.mk' f).toContinuousLinearMap, (hf.mk' f).toContinuousLinearMap.hasFDerivAt, fun _ => rfl⟩

theorem smooth (x l p : Nat → ℝ) : Smooth N grad g x l p := by
  refine ⟨?_, ?_, ⟨fun i => ?_, fun c => ?_⟩, fun x x' l p h => ?_, fun x x' p h => ?_, fun z i h => ?_⟩
  · exact grad_contDiff.contDiffAt
  · exact g_contDiff.contDiffAt
  · change Fin 3 at i
    obtain ⟨D, h1, h2⟩ := lin_deriv (fun z : (Fin 3 → ℝ) × (Fin 2 → ℝ) × (Fin 2 → ℝ) => grad z i) (by
      constructor
      · intro a b; fin_cases i <;> simp [grad] <;> ring
      · intro r a; fin_cases i <;> simp [grad] <;> ring) (toFin _ x, toFin _ l, toFin _ p)
    refine ⟨D, h1, fun dx dl dp => (h2 _).trans ?_⟩
    show grad (dx, dl, dp) i = ∑ j : Fin 3, N.hxx x l p i j * dx j + ∑ c : Fin 2, N.jac x p c i * dl c + ∑ k : Fin 2, N.hxp x l p i k * dp k
    rw [Fin.sum_univ_three, Fin.sum_univ_two, Fin.sum_univ_two]
    fin_cases i <;> simp [grad, N] <;> ring
  · change Fin 2 at c
    obtain ⟨D, h1, h2⟩ := lin_deriv (fun z : (Fin 3 → ℝ) × (Fin 2 → ℝ) => g z c) (by
      constructor
      · intro a b; fin_cases c <;> simp [g] <;> ring
      · intro r a; fin_cases c <;> simp [g] <;> ring) (toFin _ x, toFin _ p)
    refine ⟨D, h1, fun dx dp => (h2 _).trans ?_⟩
    show g (dx, dp) c = ∑ j : Fin 3, N.jac x p c j * dx j + ∑ k : Fin 2, N.jacP x p c k * dp k
    rw [Fin.sum_univ_three, Fin.sum_univ_two]
    fin_cases c <;> simp [g, N] <;> ring
  · have : x = x' := funext fun i => h i rfl
    rw [this]
  · have : x = x' := funext fun i => h i rfl
    rw [this]
  · cases h

/-- the solution for the initial state `q 0` -/
noncomputable def X (q : Fin 2 → ℝ) : Fin 3 → ℝ := ![q 0, q 0 / 2, -(q 0) / 4]
/-- its multipliers -/
noncomputable def LG (q : Fin 2 → ℝ) : Fin 2 → ℝ := ![-(q 0), q 0]

theorem kkt (q : Fin 2 → ℝ) : KktPoint N grad g (X q) (LG q) (fun _ => 0) q := by
  have hg : ∀ c : Fin 2, g (X q, q) c = 0 := by
    intro c
    fin_cases c <;> simp [g, X] <;> ring
  refine ⟨fun i => ?_, fun c b hb => ?_, fun c b hb => ?_, fun i b hb => ?_, fun i b hb => ?_, fun c _ => ?_, fun c _ => ?_, fun i h => ?_, fun i h => ?_⟩
  · change Fin 3 at i
    fin_cases i <;> simp [grad, X, LG] <;> ring
  · exact le_of_eq ((Option.some.inj hb).symm.trans (hg c).symm)
  · exact le_of_eq ((hg c).trans (Option.some.inj hb))
  · cases hb
  · cases hb
  · exact congrArg some (hg c).symm
  · exact congrArg some (hg c).symm
  · exact absurd h (lt_irrefl _)
  · exact absurd h (lt_irrefl _)

/-- the measured state 4 -/
def Q : OptP ℝ dm := ⟨fun _ => 4, fun _ => 0, fun _ => 0, fun _ => 0⟩

theorem catP : cfg.catP names Q = [4, 0] := by
  show [Q.x0 0] ++ ([] ++ ([] ++ ([Q.uPrev 0] ++ []))) = _
  rfl

/-- the solution as `differentiate` gets it -/
noncomputable def sol : Sol ℝ := ⟨ofFin (X ![4, 0]), fun _ => 0, ofFin (LG ![4, 0]), fun _ => 0⟩

/-- the settings -/
noncomputable def sets : Settings ℝ := ⟨1 / 10, false, false⟩

theorem run_ok : differentiate N sets exactSolver exactSolver sol (cfg.catP names Q) = .ok (core N sets exactSolver exactSolver sol fun i => (cfg.catP names Q).getD i 0) := by
  unfold differentiate
  rw [catP, show N.isReduced = false by decide +kernel]
  simp [N, sets]

theorem params : flatParams cfg names 2 Q = ![4, 0] := by
  funext k
  unfold flatParams toFin
  rw [catP]
  fin_cases k <;> rfl

theorem allActive (c : Nat) : AtBound sets.tol (sol.g c) (N.lbg c) (N.ubg c) := ⟨0, Or.inl rfl, by simp [sol, sets]⟩

theorem noBound (i : Nat) : ¬ AtBound sets.tol (sol.x i) (N.lbx i) (N.ubx i) := by
  rintro ⟨b, h | h, -⟩ <;> cases h

/-- the result of the call -/
noncomputable def out : Out ℝ := core N sets exactSolver exactSolver sol fun i => (cfg.catP names Q).getD i 0

theorem status_ok : ∃ st', differentiateSt N sets Checks.default exactSolver exactSolver sol (cfg.catP names Q) Status.init = (.ok out, st') ∧
    st'.licq = some true ∧ st'.sc = some true := by
  have h' := st_of_ok N sets Checks.default exactSolver exactSolver sol (cfg.catP names Q) Status.init _ run_ok
  obtain ⟨b, hb, hbi⟩ := C91_licq N depends _ _ exactSolver exactSolver _ _ _ _ _ h' rfl
  obtain ⟨b', hb', hbi'⟩ := C91_sc_partial N _ _ exactSolver exactSolver _ _ _ _ _ h' rfl
  have hbt : b = true := by
    refine hbi.2 fun muG muX h1 _ h3 => ?_
    have hx : ∀ i < 3, muX i = 0 := fun i hi => h3 i hi (noBound i)
    refine ⟨fun c hc => ?_, hx⟩
    have e1 := h1 1 (by decide)
    have e0 := h1 0 (by decide)
    rw [hx 1 (by decide)] at e1
    rw [hx 0 (by decide)] at e0
    simp [N, Finset.sum_range_succ] at e0 e1
    have hc' : c < 2 := hc
    interval_cases c
    · rw [e1] at e0; simpa using e0
    · exact e1
  have hbt' : b' = true := by
    refine hbi'.2 ⟨fun c hc _ => ?_, fun i _ h => absurd h.2 (noBound i)⟩
    have hc' : c < 2 := hc
    interval_cases c
    · show (1 / 10 : ℝ) ≤ |-(4 : ℝ)|
      norm_num
    · show (1 / 10 : ℝ) ≤ |(4 : ℝ)|
      norm_num
  subst hbt
  subst hbt'
  exact ⟨_, h', hb, hb'⟩

theorem do_ok : doDifferentiate N (cfg.scalingFlat names) sets exactSolver exactSolver sol (cfg.catP names Q) =
    .ok (rescale (cfg.scalingFlat names) out) := by
  unfold doDifferentiate
  rw [run_ok]
  rfl

theorem sol_x : toFin 3 sol.x = X ![4, 0] := by funext i; exact ofFin_val _ _ i.2
theorem sol_g : toFin 2 sol.lamG = LG ![4, 0] := by funext i; exact ofFin_val _ _ i.2

theorem X_cont : Continuous X := by
  refine continuous_pi fun i => ?_
  fin_cases i
  · show Continuous fun q : Fin 2 → ℝ => q 0
    fun_prop
  · show Continuous fun q : Fin 2 → ℝ => q 0 / 2
    fun_prop
  · show Continuous fun q : Fin 2 → ℝ => -(q 0) / 4
    fun_prop
theorem LG_cont : Continuous LG := by
  refine continuous_pi fun i => ?_
  fin_cases i
  · show Continuous fun q : Fin 2 → ℝ => -(q 0)
    fun_prop
  · show Continuous fun q : Fin 2 → ℝ => q 0
    fun_prop

theorem second_order : SecondOrder N sol.x sol.lamG (fun i => (cfg.catP names Q).getD i 0) (fun c => AtBound sets.tol (sol.g c) (N.lbg c) (N.ubg c))
    (fun i => AtBound sets.tol (sol.x i) (N.lbx i) (N.ubx i)) := by
  intro dd hG _ hex
  have e0 := hG 0 (by decide) (allActive 0)
  have e1 := hG 1 (by decide) (allActive 1)
  simp [N, Finset.sum_range_succ] at e0 e1
  simp [N, Finset.sum_range_succ]
  rw [e0] at e1
  have : dd 1 ^ 2 + dd 2 ^ 2 ≠ 0 := by
    intro hz
    have z1 : dd 1 = 0 := by nlinarith [sq_nonneg (dd 1), sq_nonneg (dd 2)]
    have z2 : dd 2 = 0 := by nlinarith [sq_nonneg (dd 1), sq_nonneg (dd 2)]
    obtain ⟨i, hi, -, hne⟩ := hex
    have hi' : i < 3 := hi
    interval_cases i
    · exact hne e0
    · exact hne z1
    · exact hne z2
  have hpos : 0 < dd 1 ^ 2 + dd 2 ^ 2 := lt_of_le_of_ne (by positivity) (Ne.symm this)
  nlinarith [sq_nonneg (dd 2)]

theorem g_sol : g (toFin 3 sol.x, flatParams cfg names 2 Q) = fun _ => 0 := by
  rw [sol_x, params]
  funext c
  fin_cases c <;> simp [g, X] <;> norm_num

theorem kkt_sol : KktPoint N grad g (toFin 3 sol.x) (toFin 2 sol.lamG) (fun _ => 0) (flatParams cfg names 2 Q) := by
  rw [sol_x, sol_g, params]
  exact kkt _

/-- non-vacuity of `C99_sens_num_partial`, `C99_feedback_gain_partial`: all hypotheses hold, and the returned gain is -1/2 -/
example : ∃ o o' st', differentiateSt N sets Checks.default exactSolver exactSolver sol (cfg.catP names Q) Status.init = (.ok o, st') ∧
    doDifferentiate N (cfg.scalingFlat names) sets exactSolver exactSolver sol (cfg.catP names Q) = .ok o' ∧ st'.licq = some true ∧ st'.sc = some true ∧
    sensNum (cfg.optX names) (cfg.optP names) o'.dx "_u" [0, 0] "_x0" [] = some [[some (-1 / 2)]] := by
  obtain ⟨st', h', hb, hb'⟩ := status_ok
  obtain ⟨D, hD, hS⟩ := C99_feedback_gain_partial cfg names names_ok List.nodup_nil N depends sets (by norm_num [sets]) Checks.default exactSolver exactSolver
    exactSolver_solves exactSolver_complete (fun _ => exactSolver_solves) sol Q Status.init _ _ _ h' do_ok rfl rfl hb hb' second_order
    grad g isNlp (smooth _ _ _) g_sol kkt_sol
    X LG (fun _ _ => 0) (by show X (flatParams cfg names 2 Q) = toFin 3 sol.x; rw [params, sol_x]) (by show LG (flatParams cfg names 2 Q) = toFin 2 sol.lamG; rw [params, sol_g])
    rfl X_cont.continuousAt LG_cont.continuousAt continuousAt_const (Eventually.of_forall kkt) (by decide) (by decide) (fun _ _ _ _ => rfl)
  refine ⟨_, _, _, h', do_ok, hb, hb', hS.trans ?_⟩
  have hlaw : (fun ξ : Fin 1 → ℝ => (cfg.unscaled (cfg.ofX names (ofFin (X (flatParams cfg names 2 { Q with x0 := ξ }))))).u 0 0) = fun ξ _ => -(ξ 0) / 2 := by
    funext ξ j
    have hp : flatParams cfg names 2 { Q with x0 := ξ } 0 = ξ 0 := by
      rw [flatParams_x0]
      rfl
    show (cfg.ofX names _).u 0 0 j * 2 = _
    rw [u_zero]
    show X (flatParams cfg names 2 { Q with x0 := ξ }) 2 * 2 = _
    show -(flatParams cfg names 2 { Q with x0 := ξ } 0) / 4 * 2 = _
    rw [hp]
    ring
  have hlin : HasFDerivAt (fun (ξ : Fin 1 → ℝ) (_ : Fin 1) => -(ξ 0) / 2)
      (ContinuousLinearMap.pi fun _ : Fin 1 => (-1 / 2 : ℝ) • ContinuousLinearMap.proj (R := ℝ) (φ := fun _ : Fin 1 => ℝ) 0) Q.x0 := by
    rw [hasFDerivAt_pi]
    intro _
    have := ((hasFDerivAt_apply (𝕜 := ℝ) (0 : Fin 1) (Q.x0 : Fin 1 → ℝ)).const_mul (-1 / 2 : ℝ))
    refine this.congr_of_eventuallyEq (Eventually.of_forall fun ξ => ?_)
    show -(ξ 0) / 2 = -1 / 2 * ξ 0
    ring
  have hDe : D = ContinuousLinearMap.pi fun _ : Fin 1 => (-1 / 2 : ℝ) • ContinuousLinearMap.proj (R := ℝ) (φ := fun _ : Fin 1 => ℝ) 0 := by
    refine HasFDerivAt.unique hD ?_
    exact (congrArg (fun f => HasFDerivAt f _ Q.x0) hlaw).mpr hlin
  rw [hDe]
  show some [[some ((-1 / 2 : ℝ) • (Pi.single (0 : Fin 1) (1 : ℝ) : Fin 1 → ℝ) 0)]] = _
  simp

/-- **C99** fails for the query of the class documentation (`_nlpdifferentiator.py:755`, `indexf['_x', 0, 0]` as second index): `opt_p` has no entry
`_x`, so this raises for every MPC.  The docstring of `sens_num` itself uses `_x0`. -/
theorem C99_fails_documented_index {d : Dims} {α : Type} (cfg : MpcCfg ℝ d) (V : VarNames) (dxdp : Nat → Nat → α) :
    sensNum (cfg.optX V) (cfg.optP V) dxdp "_u" [0, 0] "_x" [0, 0] = none := by
  have h : (cfg.optP V).f "_x" [0, 0] = none := by
    rw [← Option.not_isSome_iff_eq_none, C98_accepted _ (optP_distinct cfg V)]
    rintro ⟨e, he, hn, -⟩
    simp only [MpcCfg.optP, List.mem_cons, List.not_mem_nil, or_false] at he
    rcases he with rfl | rfl | rfl | rfl <;> simp at hn
  unfold sensNum
  rw [h]
  rcases (cfg.optX V).f "_u" [0, 0] with _ | _ <;> rfl

/-- non-vacuity of C98 (power indices): two entries, three repeats each, a block of two variables; the last repeat, counted from the end -/
example : let S : SStruct := [⟨"a", [], [("q", 2)]⟩, ⟨"b", [2, 3], [("r", 1), ("s", 2)]⟩]
    Distinct S ∧ S.size = 20 ∧ S.f "b" [1, -1] = some [17, 18, 19] ∧ S.fSub "b" [-1, 0] "s" = some [12, 13] ∧ Exists S "b" [1, -1] ∧ ¬ Exists S "b" [2, 0] ∧
      S.f "b" [1] = none := by
  refine ⟨by simp [Distinct], by decide, by decide +kernel, by decide +kernel, ⟨⟨"b", [2, 3], [("r", 1), ("s", 2)]⟩, by simp, rfl, ?_⟩, ?_, by decide +kernel⟩
  · exact .cons ⟨by decide, by decide⟩ (.cons ⟨by decide, by decide⟩ .nil)
  · rintro ⟨e, he, hn, h⟩
    simp only [List.mem_cons, List.not_mem_nil, or_false] at he
    rcases he with rfl | rfl
    · simp at hn
    · cases h with
      | cons h _ => exact absurd h.2 (by decide)

/-- non-vacuity of C98 (MPC): the hypotheses of `C98_same_problem`, `C98_minimiser`, `C98_unscaled` hold for the example; the flat vector has 3 entries -/
example : 0 < cfg.c ∧ Ok names dm ∧ (cfg.nl.map (·.name)).Nodup ∧ OwnPoints cfg.ifcn ∧ (cfg.optX names).size = 3 ∧
    ∀ w : OptX ℝ dm, cfg.catX names w = [w.x 0 0 0 0, w.x 1 0 0 0, w.u 0 0 0] :=
  ⟨by decide, names_ok, List.nodup_nil, discrete_ownPoints _ _ _ _ _, by decide +kernel, fun _ => rfl⟩

end DoMpc.FlatEx
