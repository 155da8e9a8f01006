import Verif.Props.GuaranteesColl
import Verif.Props.LoopRuns
import Mathlib.Algebra.Polynomial.Degree.Lemmas

/-! # Properties C76, C77, C78: the hypotheses can be met, and C77 fails without its condition on the collocation points -/
set_option linter.unusedSectionVars false
namespace DoMpc
open Spec Polynomial

/-! ## linear polynomials -/

theorem linear_poly {p : ℚ[X]} (h : p.natDegree ≤ 1) : p.eval 1 = p.eval 0 + (derivative p).eval 1 := by
  rw [eq_X_add_C_of_natDegree_le_one h]
  simp
  ring

/-- from `a` to `b` in unit time -/
noncomputable def line {n : Nat} (a b : Vec ℚ n) : Fin n → ℚ[X] := fun e => C (a e) + C (b e - a e) * X

theorem line_degree {n : Nat} (a b : Vec ℚ n) (e : Fin n) : (line a b e).natDegree ≤ 1 := by
  unfold line
  compute_degree

theorem line_value {n : Nat} (a b : Vec ℚ n) (t : ℚ) : valueAt (line a b) t = fun e => a e + (b e - a e) * t := by
  funext e; simp [valueAt, line]

theorem line_slope {n : Nat} (a b : Vec ℚ n) (t : ℚ) : slopeAt (line a b) t = fun e => b e - a e := by
  funext e; simp [slopeAt, line]

/-- points 0 and 1 -/
def unitTau : Nat → ℚ := fun j => (j : ℚ)

/-! ## a double integrator that overshoots -/

namespace OvershootEx

abbrev dm : Dims := ⟨2, 1, 0, 0, 0, 0, 0, 2, 0⟩
/-- position and speed, `s' = v`, `v' = u`, both measured -/
def model : DaeModel ℚ dm where
  rhs := fun x u _ _ _ _ => ![x 1, u 0]
  alg := fun _ _ z _ _ _ => z
  meas := fun x _ _ _ _ _ => x
  aux := fun _ _ _ _ _ => Fin.elim0
/-- two elements of degree one per sampling interval of length 1 -/
def sch : Scheme ℚ := ⟨1, 2, unitTau, 1⟩
/-- half an interval -/
def half (x : Vec ℚ 2) (u : Vec ℚ 1) : Vec ℚ 2 := ![x 0 + (x 1 + u 0 / 2) / 2, x 1 + u 0 / 2]
/-- two intervals; position within ±1, speed within ±4, input within ±3; terminal set: both within ±1; default `cons_check_colloc_points` -/
def cfg (F : Ifcn ℚ dm) : MpcCfg ℚ dm where
  N := 2
  nRobust := 0
  c := 1
  ifcn := F
  sx := fun _ => 1
  su := fun _ => 1
  sz := fun _ => 1
  xlb := ![.fin (-1), .fin (-4)]
  xub := ![.fin 1, .fin 4]
  ulb := fun _ => .fin (-3)
  uub := fun _ => .fin 3
  zlb := fun _ => .ninf
  zub := fun _ => .pinf
  xtlb := fun _ => .fin (-1)
  xtub := fun _ => .fin 1
  nl := []
  lterm := fun _ _ _ _ _ => 0
  mterm := fun _ _ _ => 0
  rterm := .factor fun _ => 0
def mpc (F : Ifcn ℚ dm) : MpcEnv ℚ dm where
  model := model
  cfg := cfg F
  tStep := 1
  tvpFun := fun _ _ => Fin.elim0
  pFun := fun _ _ => Fin.elim0
  nOptX := 0
  nOptP := 0
  nOptAux := 0
  nLagr := 0
  flatX := fun _ => Fin.elim0
  flatP := fun _ => Fin.elim0
  flatAux := fun _ _ => Fin.elim0
def sim : SimEnv ℚ dm where
  model := model
  plant := .continuous fun x z u _ _ _ => (half (half x u) u, z)
  tStep := 1
  tvpFun := fun _ => Fin.elim0
  pFun := fun _ => Fin.elim0
def x0 : Vec ℚ 2 := ![-1, 2]
def start (F : Ifcn ℚ dm) : Loop ℚ dm := ⟨(mpc F).fresh 0 x0 (fun _ => 0) Fin.elim0, SimSt.fresh x0 Fin.elim0, [-1, 2]⟩

theorem constraints {F : Ifcn ℚ dm} (hF : setupCollocation model (fun _ => 1) (fun _ => 1) (fun _ => 1) 1 1 2 unitTau 1 = .ok F) :
    (mpc F).cfg.OnScheme (mpc F).model sch where
  setup := hF
  tau0 := by simp [sch, unitTau]
  tauInj := by intro i _ j _ h; simpa [sch, unitTau] using h
  cpos := Nat.one_pos
  sx := fun _ => (one_pos : (0 : ℚ) < 1)
  su := fun _ => (one_pos : (0 : ℚ) < 1)
  sz := fun _ => (one_pos : (0 : ℚ) < 1)
  noColl := rfl
  names := List.nodup_nil
  noAlg := Or.inl rfl
  slack := rfl

/-- where the collocation equations lead to -/
theorem interval_end {x x' : Vec ℚ 2} {u : Vec ℚ 1} {tv : Vec ℚ 0} {p : Vec ℚ 0} {P : Nat → Fin 2 → ℚ[X]} {ζ : Nat → Nat → Vec ℚ 0}
    (h : sch.Interval model x u tv p x' P ζ) : valueAt (P 0) 1 = half x u ∧ x' = half (half x u) u := by
  have el : ∀ (a : Vec ℚ 2) (i : Nat), i < 2 → valueAt (P i) 0 = a → valueAt (P i) 1 = half a u := by
    intro a i hi ha
    have hd := h.degree i hi
    have ho := h.ode i hi 1 le_rfl le_rfl
    have hs : ∀ e, valueAt (P i) 1 e = a e + (1 / 2) * model.rhs (valueAt (P i) 1) u (ζ i 1) tv p 0 e := by
      intro e
      have h1 := linear_poly (hd e)
      have h2 := congrFun ho e
      have ht : sch.tau 1 = 1 := by simp [sch, unitTau]
      rw [ht] at h2
      have h3 : (derivative (P i e)).eval 1 = sch.tStep / (sch.ni : Nat) * model.rhs (valueAt (P i) 1) u (ζ i 1) tv p 0 e := h2
      have h4 := congrFun ha e
      have h5 : (P i e).eval 0 = a e := h4
      show (P i e).eval 1 = _
      rw [h1, h3, h5]
      simp [sch]
    have h1 := hs 1
    have h0 := hs 0
    simp only [model, Matrix.cons_val_zero, Matrix.cons_val_one] at h0 h1
    funext e
    fin_cases e
    · simp only [half]
      simp
      rw [h0, h1]; ring
    · simp only [half]
      simp
      rw [h1]; ring
  have e1 := el x 0 (by decide) h.start
  refine ⟨e1, ?_⟩
  rw [← h.final]
  exact el (half x u) 1 (by decide) (by rw [← e1]; exact h.join 0 (by decide))

/-- the trajectory with the input `u` -/
noncomputable def traj (x : Vec ℚ 2) (u : Vec ℚ 1) : Nat → Fin 2 → ℚ[X] := fun i => if i = 0 then line x (half x u) else line (half x u) (half (half x u) u)

theorem traj_interval (x : Vec ℚ 2) (u : Vec ℚ 1) (tv : Vec ℚ 0) (p : Vec ℚ 0) (ζ : Nat → Nat → Vec ℚ 0) :
    sch.Interval model x u tv p (half (half x u) u) (traj x u) ζ where
  degree := by intro i _ e; unfold traj; split_ifs <;> exact line_degree _ _ _
  start := by unfold traj; rw [if_pos rfl, line_value]; simp
  ode := by
    intro i _ j h1 h2
    have hj : j = 1 := by have : j ≤ 1 := h2; omega
    subst hj
    have key : ∀ a : Vec ℚ 2, slopeAt (line a (half a u)) (sch.tau 1) = (sch.tStep / (sch.ni : ℚ)) • model.rhs (valueAt (line a (half a u)) (sch.tau 1)) u (ζ i 1) tv p 0 := by
      intro a
      rw [line_slope, line_value]
      have ht : sch.tau 1 = 1 := by simp [sch, unitTau]
      rw [ht]
      funext e
      fin_cases e <;> simp [half, model, sch] <;> ring
    unfold traj
    split_ifs
    · exact key x
    · exact key (half x u)
  algebraic := fun i _ j _ => Subsingleton.elim (α := Fin 0 → ℚ) _ _
  join := by
    intro i hi
    have : i = 0 := by have : i + 1 < 2 := hi; omega
    subst this
    unfold traj
    rw [if_neg (by omega), if_pos rfl, line_value, line_value]
    funext e; simp
  final := by
    show valueAt (traj x u 1) 1 = _
    unfold traj
    rw [if_neg (by omega), line_value]
    funext e; simp

/-- state bounds hold along a trajectory iff they hold in the middle and at the end -/
theorem traj_inside (lb ub : Fin 2 → Bound ℚ) {x : Vec ℚ 2} {u : Vec ℚ 1} (h1 : Within lb ub (half x u)) (h2 : Within lb ub (half (half x u) u)) :
    sch.Inside (d := dm) lb ub (traj x u) := by
  intro i hi j hj hne
  have hi : i < 2 := hi
  have hj : j ≤ 1 := hj
  have t0 : sch.tau 0 = 0 := by simp [sch, unitTau]
  have t1 : sch.tau 1 = 1 := by simp [sch, unitTau]
  have : (i = 0 ∧ j = 1) ∨ (i = 1 ∧ j = 0) ∨ (i = 1 ∧ j = 1) := by omega
  unfold traj
  rcases this with ⟨rfl, rfl⟩ | ⟨rfl, rfl⟩ | ⟨rfl, rfl⟩
  · rw [if_pos rfl, t1, line_value]; simpa using h1
  · rw [if_neg (by omega), t0, line_value]; simpa using h1
  · rw [if_neg (by omega), t1, line_value]; simpa using h2

theorem matches_ (F : Ifcn ℚ dm) : ContinuousPlantMatches sch (mpc F) sim where
  model := rfl
  continuous := ⟨_, rfl, fun z0 x u tv p x' P ζ h => (interval_end h).2.symm⟩
  tvp := fun _ => rfl
  params := fun _ => ⟨0, by simp [MayOccur, mpc, cfg], rfl⟩
  time := rfl
  measured := fun _ _ _ _ _ => rfl

theorem within_x {x : Vec ℚ 2} : Within (n := 2) (![.fin (-1), .fin (-4)] : Fin 2 → Bound ℚ) ![.fin 1, .fin 4] x ↔ (-1 ≤ x 0 ∧ x 0 ≤ 1) ∧ -4 ≤ x 1 ∧ x 1 ≤ 4 := by
  unfold Within
  rw [Fin.forall_fin_two]
  rfl

theorem within_t {x : Vec ℚ 2} : Within (fun _ : Fin 2 => Bound.fin (-1 : ℚ)) (fun _ => .fin 1) x ↔ (-1 ≤ x 0 ∧ x 0 ≤ 1) ∧ -1 ≤ x 1 ∧ x 1 ≤ 1 := by
  unfold Within
  rw [Fin.forall_fin_two]
  rfl

theorem invariantSet (F : Ifcn ℚ dm) : InvariantTerminalSetAlong sch (mpc F) where
  inside := by
    intro x hx
    obtain ⟨h0, h1⟩ := within_t.mp hx
    exact within_x.mpr ⟨h0, by linarith [h1.1], by linarith [h1.2]⟩
  noSlack := fun call hcall => by simp [mpc, cfg] at hcall
  invariant := by
    intro t x hx
    obtain ⟨⟨a1, a2⟩, b1, b2⟩ := within_t.mp hx
    suffices h : ∃ u : ℚ, (-3 ≤ u ∧ u ≤ 3) ∧ ((-1 ≤ x 0 + (x 1 + u / 2) / 2 ∧ x 0 + (x 1 + u / 2) / 2 ≤ 1) ∧ -4 ≤ x 1 + u / 2 ∧ x 1 + u / 2 ≤ 4) ∧
        ((-1 ≤ x 0 + (x 1 + u / 2) / 2 + (x 1 + u / 2 + u / 2) / 2 ∧ x 0 + (x 1 + u / 2) / 2 + (x 1 + u / 2 + u / 2) / 2 ≤ 1) ∧
          -1 ≤ x 1 + u / 2 + u / 2 ∧ x 1 + u / 2 + u / 2 ≤ 1) by
      obtain ⟨u, h1, h2, h3⟩ := h
      have hh : half x (fun _ => u) = ![x 0 + (x 1 + u / 2) / 2, x 1 + u / 2] := rfl
      have hhh : half (half x (fun _ => u)) (fun _ => u) = ![x 0 + (x 1 + u / 2) / 2 + (x 1 + u / 2 + u / 2) / 2, x 1 + u / 2 + u / 2] := rfl
      refine ⟨fun _ => u, half (half x fun _ => u) fun _ => u, traj x fun _ => u, fun _ _ => Fin.elim0, traj_interval _ _ _ _ _, fun _ => h1,
        fun i _ j _ _ e => e.elim0, fun _ => traj_inside _ _ ?_ ?_, fun call hcall => by simp [mpc, cfg] at hcall, ?_⟩
      · rw [hh]; exact within_x.mpr h2
      · rw [hhh]; exact within_x.mpr ⟨h3.1, by show (-4 : ℚ) ≤ x 1 + u / 2 + u / 2; linarith [h3.2.1], by show x 1 + u / 2 + u / 2 ≤ 4; linarith [h3.2.2]⟩
      · rw [hhh]; exact within_t.mpr h3
    rcases le_total 0 (x 0) with h0 | h0 <;> rcases le_total 0 (x 1) with h1 | h1
    · exact ⟨-2 * x 1, by constructor <;> linarith, ⟨⟨by linarith, by linarith⟩, by linarith, by linarith⟩, ⟨by linarith, by linarith⟩, by linarith, by linarith⟩
    · exact ⟨-x 1, by constructor <;> linarith, ⟨⟨by linarith, by linarith⟩, by linarith, by linarith⟩, ⟨by linarith, by linarith⟩, by linarith, by linarith⟩
    · exact ⟨-x 1, by constructor <;> linarith, ⟨⟨by linarith, by linarith⟩, by linarith, by linarith⟩, ⟨by linarith, by linarith⟩, by linarith, by linarith⟩
    · exact ⟨-2 * x 1, by constructor <;> linarith, ⟨⟨by linarith, by linarith⟩, by linarith, by linarith⟩, ⟨by linarith, by linarith⟩, by linarith, by linarith⟩

/-- coast, then brake: the position is 5/4 in the middle of the second interval -/
noncomputable def plan : CollPolicy ℚ dm where
  X := fun k _ => if k = 0 then x0 else if k = 1 then ![1, 2] else ![3/4, -1]
  U := fun k _ _ => if k = 0 then 0 else -3
  E := fun _ _ _ _ => 0
  P := fun k _ => if k = 0 then traj x0 (fun _ => 0) else traj ![1, 2] (fun _ => -3)
  ζ := fun _ _ _ _ => Fin.elim0

theorem coast : half (half x0 fun _ => 0) (fun _ => 0) = ![1, 2] := by
  funext e; fin_cases e <;> simp [half, x0] <;> norm_num

theorem brake : half (half ![1, 2] fun _ => -3) (fun _ => -3) = ![3/4, -1] := by
  funext e; fin_cases e <;> simp [half] <;> norm_num

theorem coast_half : half x0 (fun _ => 0) = ![0, 2] := by
  funext e; fin_cases e <;> simp [half, x0]

theorem plan_admissible (F : Ifcn ℚ dm) (q : OptP ℚ dm) (hq : q.x0 = x0) :
    ((mpc F).cfg.collProblem (mpc F).model sch.deg sch.ni sch.tau sch.tStep q).Admissible plan where
  start := hq.symm
  dynamics := by
    intro k hk h hh r hr
    have hk : k < 2 := hk
    have : k = 0 ∨ k = 1 := by omega
    rcases this with rfl | rfl
    · have := traj_interval x0 (fun _ => 0) (q.tvp 0) (q.p r) (fun _ _ => Fin.elim0)
      rw [coast] at this
      exact this
    · have := traj_interval ![1, 2] (fun _ => -3) (q.tvp 1) (q.p r) (fun _ _ => Fin.elim0)
      rw [brake] at this
      exact this
  states := by
    intro k h1 h2 h hh
    have : k = 1 := by have : k < 2 := h2; omega
    subst this
    have : Within (n := 2) (![.fin (-1), .fin (-4)] : Fin 2 → Bound ℚ) ![.fin 1, .fin 4] (![1, 2] : Vec ℚ 2) := within_x.mpr (by norm_num)
    exact this
  inside := by
    intro _ k hk h hh
    have : k = 0 := by have : k + 1 < 2 := hk; omega
    subst this
    exact traj_inside _ _ (by rw [coast_half]; exact within_x.mpr (by norm_num)) (by rw [coast]; exact within_x.mpr (by norm_num))
  terminal := by
    intro h _
    have : Within (fun _ : Fin 2 => Bound.fin (-1 : ℚ)) (fun _ => .fin 1) (![3/4, -1] : Vec ℚ 2) := within_t.mpr (by norm_num)
    exact this
  inputs := by
    intro k _ h _ j
    show (-3 : ℚ) ≤ (if k = 0 then 0 else -3) ∧ (if k = 0 then (0 : ℚ) else -3) ≤ 3
    split_ifs <;> norm_num
  algebraic := fun k _ h _ i _ j _ _ e => e.elim0
  constraints := fun _ _ _ _ _ _ call hcall => by simp [MpcCfg.collProblem, MpcCfg.problem, mpc, cfg] at hcall
  slacks := fun _ _ _ _ call hcall => by simp [MpcCfg.collProblem, MpcCfg.problem, mpc, cfg] at hcall
  oneInput := fun h => by simp [MpcCfg.collProblem, MpcCfg.problem, mpc, cfg] at h

/-- from position 1 with speed 2 there is no way that stays inside -/
theorem stuck {F : Ifcn ℚ dm} (hc : (mpc F).cfg.OnScheme (mpc F).model sch) (q : OptP ℚ dm) (hq : q.x0 = ![1, 2]) : ¬ ∃ w, (mpc F).cfg.Feasible w q := by
  rintro ⟨w, hw⟩
  obtain ⟨P, hadm⟩ := C12_feasible_is_admissible_collocation hc w q hw
  have h0 : IsHistory (mpc F).cfg.c (mpc F).cfg.nRobust 0 [] := ⟨by simp, by simp⟩
  have h1 : IsHistory (mpc F).cfg.c (mpc F).cfg.nRobust 1 [] := isHistory_zero.mpr rfl
  have hd := hadm.dynamics 0 (by show 0 < 2; omega) [] h0 0 (mayOccur_zero.mpr rfl)
  have hi := hadm.inputs 0 (by show 0 < 2; omega) [] h0 (0 : Fin 1)
  have hin := hadm.inside rfl 0 (by show 0 + 1 < 2; omega) [] h1 0 (by show 0 < 2; omega) 1 (by show 1 ≤ 1; omega) (by omega) (0 : Fin 2)
  have he := congrFun (interval_end hd).1 0
  have hs : (mpc F).cfg.X w 0 [] = ![1, 2] := by rw [← hq]; exact hadm.start
  have ht : sch.tau 1 = 1 := by simp [sch, unitTau]
  have hi1 : (-3 : ℚ) ≤ (mpc F).cfg.U w 0 [] 0 := hi.1
  have hin2 : valueAt (P 0 [] 0) (sch.tau 1) 0 ≤ 1 := hin.2
  rw [ht] at hin2
  have he' : valueAt (P 0 [] 0) 1 0 = half ((mpc F).cfg.X w 0 []) ((mpc F).cfg.U w 0 []) 0 := he
  rw [he', hs] at hin2
  have : (1 : ℚ) + (2 + (mpc F).cfg.U w 0 [] 0 / 2) / 2 ≤ 1 := hin2
  linarith

open Classical in
/-- a solver that returns the plan where it is feasible, and some feasible point otherwise -/
noncomputable def solver (F : Ifcn ℚ dm) (a : SolverArgs ℚ dm) : SolverResult ℚ dm 0 where
  x := if (mpc F).cfg.Feasible ((mpc F).cfg.encodeColl sch.deg sch.ni sch.tau plan) a.p then (mpc F).cfg.encodeColl sch.deg sch.ni sch.tau plan
    else if h : ∃ w, (mpc F).cfg.Feasible w a.p then h.choose else (mpc F).cfg.encodeColl sch.deg sch.ni sch.tau plan
  lamG := Fin.elim0
  lamX := []
  stats := []

theorem findsFeasible (F : Ifcn ℚ dm) : FindsFeasible (mpc F).cfg (solver F) := by
  intro a h
  unfold solver
  dsimp only
  split_ifs with h1
  · exact h1
  · exact h.choose_spec

end OvershootEx

namespace OvershootEx

/-- every objective value is zero: there is no cost -/
theorem free (F : Ifcn ℚ dm) (w : OptX ℚ dm) (q : OptP ℚ dm) : (mpc F).cfg.obj w q = 0 := by
  unfold MpcCfg.obj
  apply List.sum_eq_zero
  intro v hv
  obtain ⟨ksb, -, rfl⟩ := List.mem_map.mp hv
  have e1 : (mpc F).cfg.econAt w q ksb.1 ksb.2.1 ksb.2.2 = 0 := by
    simp [MpcCfg.econAt, mpc, cfg]
  have e2 : (mpc F).cfg.slackAt w ksb.1 ksb.2.1 = 0 := by
    show epsTerm [] _ = 0
    rfl
  have e3 : (mpc F).cfg.rtermAt w q ksb.1 ksb.2.1 ksb.2.2 = 0 := by
    simp [MpcCfg.rtermAt, mpc, cfg]
  rw [e1, e2, e3]
  norm_num

theorem findsOptimum (F : Ifcn ℚ dm) : FindsOptimum (mpc F).cfg (solver F) :=
  fun a h => ⟨findsFeasible F a h, fun w _ => by rw [free, free]⟩

theorem terminalCost (F : Ifcn ℚ dm) : TerminalCostAlong sch (mpc F) where
  inside := (invariantSet F).inside
  noSlack := (invariantSet F).noSlack
  decrease := fun t x hx => let ⟨u, x', P, ζ, h⟩ := (invariantSet F).invariant t x hx
    ⟨u, x', P, ζ, h, by simp [mpc, cfg]⟩

theorem regularCost {F : Ifcn ℚ dm} (hF : setupCollocation model (fun _ => 1) (fun _ => 1) (fun _ => 1) 1 1 2 unitTau 1 = .ok F) :
    (mpc F).cfg.CollRegular (mpc F).model sch.deg sch.ni sch.tau sch.tStep where
  toCollConstraints := constraints hF
  horizon := two_pos
  lterm := fun _ _ _ _ _ _ => rfl
  rterm := fun f h => by simp [mpc, cfg] at h

/-- one iteration of the loop: the first problem is feasible, the second is not -/
theorem overshoot {F : Ifcn ℚ dm} (hF : setupCollocation model (fun _ => 1) (fun _ => 1) (fun _ => 1) 1 1 2 unitTau 1 = .ok F) :
    ∃ l', Loop.iterate (mpc F) sim [solver F] (start F) = some l' ∧ (∃ w, (mpc F).cfg.Feasible w ((start F).asked (mpc F)).p) ∧
      ¬ ∃ w, (mpc F).cfg.Feasible w (l'.asked (mpc F)).p := by
  have hc := constraints hF
  obtain ⟨l', hl', -⟩ := C79_loop_runs (mpc F) sim (by simp [mpc]) (fun _ _ _ _ _ => rfl) [solver F]
    (by
      intro S hS a s hs
      have e : S = solver F := List.mem_singleton.mp hS
      rw [e] at hs
      exact absurd hs List.not_mem_nil) (start F) (fresh_ready _ _ _ _ _ _ _ rfl)
  have hstart : ((start F).asked (mpc F)).p.x0 = x0 := by
    funext e; fin_cases e <;> rfl
  obtain ⟨hf, -, hU, -⟩ := admissible_is_feasible_coll hc ((start F).asked (mpc F)).p plan (plan_admissible F _ hstart)
  refine ⟨l', hl', ⟨_, hf⟩, ?_⟩
  simp only [Loop.iterate, Option.bind_eq_some_iff] at hl'
  obtain ⟨l1, h1, h2⟩ := hl'
  simp only [Option.some.injEq] at h2
  subst h2
  obtain ⟨-, -, -, e4, e5, -, -⟩ := loop_step (matches_ F).measured (matches_ F).time h1
  apply stuck hc
  rw [asked_state e5, e4]
  have hu : (mpc F).cfg.uPhys (solver F ((start F).asked (mpc F))).x 0 0 = fun _ => 0 := by
    have : (solver F ((start F).asked (mpc F))).x = (mpc F).cfg.encodeColl sch.deg sch.ni sch.tau plan := by
      unfold solver
      dsimp only
      rw [if_pos hf]
    rw [this]
    have := hU 0 (by show 0 < 2; omega) [] ⟨by simp, by simp⟩
    have hz : (mpc F).cfg.U ((mpc F).cfg.encodeColl sch.deg sch.ni sch.tau plan) 0 [] = (mpc F).cfg.uPhys ((mpc F).cfg.encodeColl sch.deg sch.ni sch.tau plan) 0 0 := by
      simp [MpcCfg.U, number]
    rw [← hz, this]; rfl
  rw [hu]
  exact coast

theorem measured_start (F : Ifcn ℚ dm) : (start F).x = List.ofFn (start F).sim.x0 := by simp [start, SimSt.fresh, x0]

end OvershootEx

open OvershootEx in
/-- **C77 fails** with the default `cons_check_colloc_points`: the state bounds are imposed on the collocation points of all intervals but the last, so a plan
may leave the bounds on its way into the terminal set, and one step later the same way is forbidden.  Nominal controller of a double integrator, plant equal to
the model, consistent predictions, control invariant terminal set, a solver that finds a feasible point of every feasible problem: the
first problem is feasible, the second is not. -/
theorem C77_fails_collocation_points :
    ∃ (s : Scheme ℚ) (d : Dims) (EM : MpcEnv ℚ d) (ES : SimEnv ℚ d) (S : SolverArgs ℚ d → SolverResult ℚ d EM.nLagr) (l l' : Loop ℚ d),
      EM.cfg.OnScheme EM.model s ∧ 0 < EM.cfg.N ∧ EM.cfg.nRobust = 0 ∧ EM.cfg.consColloc = true ∧ ContinuousPlantMatches s EM ES ∧
      ConsistentPredictions EM ∧ InvariantTerminalSetAlong s EM ∧ FindsFeasible EM.cfg S ∧ l.x = List.ofFn l.sim.x0 ∧ l.mpc.t0 = l.sim.t0 ∧
      Loop.iterate EM ES [S] l = some l' ∧ (∃ w, EM.cfg.Feasible w (l.asked EM).p) ∧ ¬ ∃ w, EM.cfg.Feasible w (l'.asked EM).p := by
  obtain ⟨⟨F, hF, _⟩, _⟩ := C11_bookkeeping model (fun _ => 1) (fun _ => 1) (fun _ => 1) 1 1 2 unitTau 1 two_pos
  obtain ⟨l', hl', hf, hn⟩ := overshoot hF
  exact ⟨sch, dm, mpc F, sim, solver F, start F, l', constraints hF, by show 0 < 2; omega, rfl, rfl, matches_ F, ⟨fun _ _ _ => rfl, fun _ => rfl⟩, invariantSet F,
    findsFeasible F, measured_start F, rfl, hl', hf, hn⟩

open OvershootEx in
/-- **C78 fails** with the default `cons_check_colloc_points`: with a terminal cost that falls by the stage cost inside the terminal set, a solver that
finds a global minimiser of every feasible problem, a plant equal to the model and consistent predictions, the problem after the first step has no
feasible plan at all, so no cost to go bounds what the closed loop will cost. -/
theorem C78_fails_collocation_points :
    ∃ (s : Scheme ℚ) (d : Dims) (EM : MpcEnv ℚ d) (ES : SimEnv ℚ d) (S : SolverArgs ℚ d → SolverResult ℚ d EM.nLagr) (l l' : Loop ℚ d),
      EM.cfg.CollRegular EM.model s.deg s.ni s.tau s.tStep ∧ EM.cfg.nRobust = 0 ∧ EM.cfg.consColloc = true ∧ ContinuousPlantMatches s EM ES ∧
      ConsistentPredictions EM ∧ TerminalCostAlong s EM ∧ EM.cfg.rterm = .factor (fun _ => 0) ∧ EM.cfg.nl = [] ∧ FindsOptimum EM.cfg S ∧
      l.x = List.ofFn l.sim.x0 ∧ l.mpc.t0 = l.sim.t0 ∧
      Loop.iterate EM ES [S] l = some l' ∧ (∃ w, EM.cfg.Feasible w (l.asked EM).p) ∧ ¬ ∃ w, EM.cfg.Feasible w (l'.asked EM).p := by
  obtain ⟨⟨F, hF, _⟩, _⟩ := C11_bookkeeping model (fun _ => 1) (fun _ => 1) (fun _ => 1) 1 1 2 unitTau 1 two_pos
  obtain ⟨l', hl', hf, hn⟩ := overshoot hF
  exact ⟨sch, dm, mpc F, sim, solver F, start F, l', regularCost hF, rfl, rfl, matches_ F, ⟨fun _ _ _ => rfl, fun _ => rfl⟩, terminalCost F, rfl, rfl,
    findsOptimum F, measured_start F, rfl, hl', hf, hn⟩

/-! ## an integrator -/

namespace IntegratorEx

abbrev dm : Dims := ⟨1, 1, 0, 0, 1, 0, 0, 1, 0⟩
/-- `x' = u + p`, measured -/
def model : DaeModel ℚ dm where
  rhs := fun _ u _ _ p _ => u + p
  alg := fun _ _ z _ _ _ => z
  meas := fun x _ _ _ _ _ => x
  aux := fun _ _ _ _ _ => Fin.elim0
def sch : Scheme ℚ := ⟨1, 1, unitTau, 1⟩
/-- two intervals, `c` realisations, robust horizon `nR`; states within ±5, terminal set ±1, cost `x²`, scaled -/
def cfg (F : Ifcn ℚ dm) (c nR : Nat) : MpcCfg ℚ dm where
  N := 2
  nRobust := nR
  c := c
  ifcn := F
  sx := fun _ => 2
  su := fun _ => 3
  sz := fun _ => 1
  xlb := fun _ => .fin (-5)
  xub := fun _ => .fin 5
  ulb := fun _ => .ninf
  uub := fun _ => .pinf
  zlb := fun _ => .ninf
  zub := fun _ => .pinf
  xtlb := fun _ => .fin (-1)
  xtub := fun _ => .fin 1
  nl := []
  lterm := fun x _ _ _ _ => x 0 ^ 2
  mterm := fun x _ _ => x 0 ^ 2
  rterm := .factor fun _ => 0
/-- parameters of the realisations: zero, or ±1/2 -/
def par (robust : Bool) (r : Nat) : Vec ℚ 1 := fun _ => if robust then (if r = 0 then 1/2 else -1/2) else 0
def mpc (F : Ifcn ℚ dm) (c nR : Nat) (robust : Bool) : MpcEnv ℚ dm where
  model := model
  cfg := cfg F c nR
  tStep := 1
  tvpFun := fun _ _ => Fin.elim0
  pFun := fun _ => par robust
  nOptX := 0
  nOptP := 0
  nOptAux := 0
  nLagr := 0
  flatX := fun _ => Fin.elim0
  flatP := fun _ => Fin.elim0
  flatAux := fun _ _ => Fin.elim0
/-- the parameter of the plant changes at time 2 -/
def sim (robust : Bool) : SimEnv ℚ dm where
  model := model
  plant := .continuous fun x z u _ p _ => (x + u + p, z)
  tStep := 1
  tvpFun := fun _ => Fin.elim0
  pFun := fun t => if t < 2 then par robust 0 else par robust 1
def start (F : Ifcn ℚ dm) (c nR : Nat) (robust : Bool) : Loop ℚ dm :=
  ⟨(mpc F c nR robust).fresh 0 (fun _ => 8) (fun _ => 0) Fin.elim0, SimSt.fresh (fun _ => 8) Fin.elim0, [8]⟩

theorem regular {F : Ifcn ℚ dm} (hF : setupCollocation model (fun _ => 2) (fun _ => 3) (fun _ => 1) 1 1 1 unitTau 1 = .ok F) (c nR : Nat) (b : Bool) (hc : 0 < c) :
    (mpc F c nR b).cfg.OnScheme (mpc F c nR b).model sch where
  setup := hF
  tau0 := by simp [sch, unitTau]
  tauInj := by intro i _ j _ h; simpa [sch, unitTau] using h
  cpos := hc
  sx := fun _ => (by decide +kernel : (0 : ℚ) < 2)
  su := fun _ => (by decide +kernel : (0 : ℚ) < 3)
  sz := fun _ => (by decide +kernel : (0 : ℚ) < 1)
  noColl := rfl
  names := List.nodup_nil
  noAlg := Or.inl rfl
  slack := rfl

theorem interval_end {x x' u : Vec ℚ 1} {tv : Vec ℚ 0} {p : Vec ℚ 1} {P : Nat → Fin 1 → ℚ[X]} {ζ : Nat → Nat → Vec ℚ 0}
    (h : sch.Interval model x u tv p x' P ζ) : x' = x + u + p := by
  rw [← h.final, ← h.start]
  funext e
  have h1 := linear_poly (h.degree 0 Nat.one_pos e)
  have h2 := congrFun (h.ode 0 Nat.one_pos 1 le_rfl le_rfl) e
  have ht : sch.tau 1 = 1 := by simp [sch, unitTau]
  rw [ht] at h2
  have h3 : (derivative (P 0 e)).eval 1 = sch.tStep / (sch.ni : Nat) * (u e + p e) := h2
  show (P 0 e).eval 1 = (P 0 e).eval 0 + u e + p e
  rw [h1, h3]
  simp [sch]; ring

theorem line_interval {x x' u : Vec ℚ 1} (tv : Vec ℚ 0) {p : Vec ℚ 1} (ζ : Nat → Nat → Vec ℚ 0) (h : x' = x + u + p) :
    sch.Interval model x u tv p x' (fun _ => line x x') ζ where
  degree := fun _ _ e => line_degree _ _ e
  start := by rw [line_value]; simp
  ode := by
    intro i _ j _ _
    rw [line_slope, h]
    funext e
    simp [sch, model]
    ring
  algebraic := fun i _ j _ => Subsingleton.elim (α := Fin 0 → ℚ) _ _
  join := by intro i hi; exact absurd hi (by simp [sch])
  final := by rw [line_value]; simp

theorem matches_ (F : Ifcn ℚ dm) (c nR : Nat) (b : Bool) (h : b = true → 2 ≤ c ∧ 1 ≤ nR) (hc : 0 < c) : ContinuousPlantMatches sch (mpc F c nR b) (sim b) where
  model := rfl
  continuous := ⟨_, rfl, fun z0 x u tv p x' P ζ h => (interval_end h).symm⟩
  tvp := fun _ => rfl
  params := fun t => by
    have e0 : MayOccur c nR 0 [] 0 := by unfold MayOccur; split_ifs; exacts [hc, rfl]
    by_cases ht : t < 2
    · exact ⟨0, e0, by simp [sim, mpc, ht]⟩
    · cases b with
      | false => exact ⟨0, e0, by show (if t < 2 then par false 0 else par false 1) = par false 0; rw [if_neg ht]; rfl⟩
      | true =>
        refine ⟨1, ?_, by simp [sim, mpc, ht]⟩
        show MayOccur c nR 0 [] 1
        unfold MayOccur
        rw [if_pos (show 0 < nR from (h rfl).2)]
        exact (h rfl).1
  time := rfl
  measured := fun _ _ _ _ _ => rfl

theorem within1 {a b : ℚ} {x : Vec ℚ 1} : Within (fun _ => .fin a) (fun _ => .fin b) x ↔ a ≤ x 0 ∧ x 0 ≤ b := by
  unfold Within
  constructor
  · intro h; exact h 0
  · intro h j; rw [Subsingleton.elim j 0]; exact h

theorem inside_end (lb ub : Fin 1 → Bound ℚ) {x x' u : Vec ℚ 1} {tv : Vec ℚ 0} {p : Vec ℚ 1} {P : Nat → Fin 1 → ℚ[X]} {ζ : Nat → Nat → Vec ℚ 0}
    (h : sch.Interval model x u tv p x' P ζ) (hx : Within lb ub x') : sch.Inside (d := dm) lb ub P := by
  intro i hi j hj hne
  have hi : i < 1 := hi
  have hj : j ≤ 1 := hj
  have hj1 : j = 1 := by omega
  have hi0 : i = 0 := by omega
  subst hj1 hi0
  have ht : sch.tau 1 = 1 := by simp [sch, unitTau]
  rw [ht]
  have := h.final
  rw [← this] at hx
  exact hx

theorem noOvershoot (F : Ifcn ℚ dm) (c nR : Nat) (tv : Vec ℚ 0) (p : Vec ℚ 1) : NoOvershoot sch (cfg F c nR) model tv p := by
  intro x u x' P ζ h _ _ ht
  refine inside_end _ _ h ?_
  have := within1.mp ht
  exact within1.mpr ⟨by linarith [this.1], by linarith [this.2]⟩

/-- go to zero (if the parameter is zero) -/
theorem keeps (F : Ifcn ℚ dm) (c nR : Nat) (tv : Vec ℚ 0) (p : Vec ℚ 1) (hp : -1 ≤ p 0 ∧ p 0 ≤ 1) (x : Vec ℚ 1) :
    KeepsTerminalAlong sch (cfg F c nR) model tv p x (-x) p (fun _ => line x p) (fun _ _ => Fin.elim0) := by
  have hi : sch.Interval model x (-x) tv p p (fun _ => line x p) (fun _ _ => Fin.elim0) := line_interval _ _ (by simp)
  refine ⟨hi, fun j => ⟨trivial, trivial⟩, fun i _ j _ _ e => e.elim0, fun _ => inside_end _ _ hi ?_, fun call hcall => by simp [cfg] at hcall, within1.mpr hp⟩
  exact within1.mpr ⟨by linarith [hp.1], by linarith [hp.2]⟩

theorem par_small (b : Bool) (r : Nat) : -1 ≤ par b r 0 ∧ par b r 0 ≤ 1 := by
  unfold par
  split_ifs <;> norm_num

theorem robustSet (F : Ifcn ℚ dm) (c nR : Nat) (b : Bool) : RobustInvariantTerminalSetAlong sch (mpc F c nR b) where
  inside := fun x h => by
    have := within1.mp h
    exact within1.mpr ⟨by linarith [this.1], by linarith [this.2]⟩
  noSlack := fun call hcall => by simp [mpc, cfg] at hcall
  invariant := fun t x _ => ⟨-x, fun r _ => ⟨_, _, _, keeps F c nR _ _ (par_small b r) x⟩⟩

theorem terminalCost (F : Ifcn ℚ dm) : TerminalCostAlong sch (mpc F 1 0 false) where
  inside := (robustSet F 1 0 false).inside
  noSlack := fun call hcall => by simp [mpc, cfg] at hcall
  decrease := fun t x _ => ⟨-x, _, _, _, keeps F 1 0 _ _ (par_small false 0) x, by simp [mpc, cfg, par]⟩

/-- go to zero as far as the parameters allow, and stay -/
noncomputable def plan (q : OptP ℚ dm) : CollPolicy ℚ dm where
  X := fun k h => if k = 0 then q.x0 else q.p (h.getLastD 0)
  U := fun k h => if k = 0 then -q.x0 else -q.p (h.getLastD 0)
  E := fun _ _ _ _ => 0
  P := fun k h _ => line (if k = 0 then q.x0 else q.p (h.dropLast.getLastD 0)) (q.p (h.getLastD 0))
  ζ := fun _ _ _ _ => Fin.elim0

theorem plan_X (q : OptP ℚ dm) {k : Nat} (hk : k ≠ 0) (h : List Nat) : (plan q).X k h = q.p (h.getLastD 0) := by
  unfold plan; simp [hk]

/-- with robust horizon 2, or without uncertainty -/
theorem plan_admissible (F : Ifcn ℚ dm) (c nR : Nat) (b : Bool) (hc : 0 < c) (hb : 2 ≤ nR ∨ b = false) (q : OptP ℚ dm) (hp : q.p = par b) :
    ((mpc F c nR b).cfg.collProblem (mpc F c nR b).model sch.deg sch.ni sch.tau sch.tStep q).Admissible (plan q) := by
  have hcst : b = false → ∀ r r', q.p r = q.p r' := by
    rintro rfl r r'; rw [hp]; rfl
  have hdyn : ∀ k < 2, ∀ h, IsHistory c nR k h → ∀ r, MayOccur c nR k h r → sch.Interval model ((plan q).X k h) ((plan q).U k h) (q.tvp k) (q.p r)
      ((plan q).X (k + 1) (extend nR k h r)) ((plan q).P k (extend nR k h r)) ((plan q).ζ k (extend nR k h r)) := by
    intro k hk h hh r hr
    have hlast : q.p ((extend nR k h r).getLastD 0) = q.p r := by
      rcases hb with hb | hb
      · unfold extend; rw [if_pos (by omega)]; simp
      · exact hcst hb _ _
    have hX : (plan q).X (k + 1) (extend nR k h r) = q.p r := by
      rw [plan_X q (by omega), hlast]
    have hprev : k ≠ 0 → q.p ((extend nR k h r).dropLast.getLastD 0) = q.p (h.getLastD 0) := by
      intro _
      rcases hb with hb | hb
      · unfold extend; rw [if_pos (by omega)]; simp
      · exact hcst hb _ _
    have hP : (plan q).P k (extend nR k h r) = fun _ => line ((plan q).X k h) (q.p r) := by
      funext i
      show line (if k = 0 then q.x0 else q.p ((extend nR k h r).dropLast.getLastD 0)) (q.p ((extend nR k h r).getLastD 0)) =
        line (if k = 0 then q.x0 else q.p (h.getLastD 0)) (q.p r)
      rw [hlast]
      split_ifs with h0
      · rfl
      · rw [hprev h0]
    rw [hX, hP]
    refine line_interval _ _ ?_
    show q.p r = (if k = 0 then q.x0 else q.p (h.getLastD 0)) + (if k = 0 then -q.x0 else -q.p (h.getLastD 0)) + q.p r
    split_ifs <;> simp
  refine ⟨rfl, hdyn, ?_, ?_, ?_, ?_, fun k _ h _ i _ j _ _ e => e.elim0, fun _ _ _ _ _ _ call hcall => by simp [MpcCfg.collProblem, MpcCfg.problem, mpc, cfg] at hcall,
    fun _ _ _ _ call hcall => by simp [MpcCfg.collProblem, MpcCfg.problem, mpc, cfg] at hcall,
    fun h => by simp [MpcCfg.collProblem, MpcCfg.problem, mpc, cfg] at h⟩
  · intro k h1 h2 h hh
    have : Within (fun _ => .fin (-5)) (fun _ => .fin 5) ((plan q).X k h) := by
      have e : (plan q).X k h = q.p (h.getLastD 0) := plan_X q (by omega) _
      rw [e, hp]
      have := par_small b (h.getLastD 0)
      exact within1.mpr ⟨by linarith [this.1], by linarith [this.2]⟩
    exact this
  · intro _ k hk h hh
    have hk0 : k = 0 := by have : k + 1 < 2 := hk; omega
    subst hk0
    have hh : IsHistory c nR (0 + 1) h := hh
    obtain ⟨h', r, hh', hr, he⟩ := exists_extend (k := 0) hh
    have := hdyn 0 (by omega) h' hh' r hr
    rw [he] at this
    refine inside_end _ _ this ?_
    have e : (plan q).X (0 + 1) h = q.p (h.getLastD 0) := plan_X q (by omega) _
    rw [e, hp]
    have := par_small b (h.getLastD 0)
    exact within1.mpr ⟨by linarith [this.1], by linarith [this.2]⟩
  · intro h hh
    have : Within (fun _ => .fin (-1)) (fun _ => .fin 1) ((plan q).X 2 h) := by
      have e : (plan q).X 2 h = q.p (h.getLastD 0) := plan_X q (by omega) _
      rw [e, hp]
      exact within1.mpr (par_small b _)
    exact this
  · exact fun k _ h _ j => ⟨trivial, trivial⟩

theorem regularCost {F : Ifcn ℚ dm} (hF : setupCollocation model (fun _ => 2) (fun _ => 3) (fun _ => 1) 1 1 1 unitTau 1 = .ok F) :
    (mpc F 1 0 false).cfg.CollRegular (mpc F 1 0 false).model sch.deg sch.ni sch.tau sch.tStep where
  toCollConstraints := regular hF 1 0 false one_pos
  horizon := two_pos
  lterm := fun _ _ _ _ _ _ => rfl
  rterm := fun f h => by simp [mpc, cfg] at h

/-- go to zero and stay, for any parameter -/
noncomputable def best (q : OptP ℚ dm) : CollPolicy ℚ dm where
  X := fun k _ => if k = 0 then q.x0 else 0
  U := fun k _ => if k = 0 then -q.x0 - q.p 0 else -q.p 0
  E := fun _ _ _ _ => 0
  P := fun k _ _ => line (if k = 0 then q.x0 else 0) 0
  ζ := fun _ _ _ _ => Fin.elim0

theorem best_admissible (F : Ifcn ℚ dm) (q : OptP ℚ dm) :
    ((mpc F 1 0 false).cfg.collProblem (mpc F 1 0 false).model sch.deg sch.ni sch.tau sch.tStep q).Admissible (best q) := by
  have hdyn : ∀ k < 2, ∀ h r, IsHistory 1 0 k h → MayOccur 1 0 k h r → sch.Interval model ((best q).X k h) ((best q).U k h) (q.tvp k) (q.p r)
      ((best q).X (k + 1) h) ((best q).P k h) ((best q).ζ k h) := by
    intro k hk h r hh hr
    rw [isHistory_zero] at hh
    subst hh
    have hr0 : q.p r = q.p 0 := by rw [mayOccur_zero.mp hr]
    have hX : (best q).X (k + 1) [] = 0 := by simp [best]
    rw [hX, hr0]
    refine line_interval _ _ ?_
    show (0 : Vec ℚ 1) = (if k = 0 then q.x0 else 0) + (if k = 0 then -q.x0 - q.p 0 else -q.p 0) + q.p 0
    split_ifs <;> (funext e; simp) <;> ring
  have hz : ∀ {a b : ℚ}, a ≤ 0 → 0 ≤ b → Within (fun _ => .fin a) (fun _ => .fin b) (0 : Vec ℚ 1) := fun h1 h2 => within1.mpr ⟨h1, h2⟩
  have hX : ∀ k h, k ≠ 0 → (best q).X k h = 0 := fun k h hk => by simp [best, hk]
  refine ⟨rfl, ?_, ?_, ?_, ?_, fun k _ h _ j => ⟨trivial, trivial⟩, fun k _ h _ i _ j _ _ e => e.elim0,
    fun _ _ _ _ _ _ call hcall => by simp [MpcCfg.collProblem, MpcCfg.problem, mpc, cfg] at hcall,
    fun _ _ _ _ call hcall => by simp [MpcCfg.collProblem, MpcCfg.problem, mpc, cfg] at hcall,
    fun h => by simp [MpcCfg.collProblem, MpcCfg.problem, mpc, cfg] at h⟩
  · intro k hk h hh r hr
    have := hdyn k hk h r hh hr
    have e : extend 0 k h r = h := by simp [extend]
    simp only [mpc, cfg, MpcCfg.collProblem, MpcCfg.problem, e]
    exact this
  · intro k h1 h2 h hh
    rw [hX k h (by omega)]
    exact hz (by norm_num : (-5 : ℚ) ≤ 0) (by norm_num : (0 : ℚ) ≤ 5)
  · intro _ k hk h hh
    have hk0 : k = 0 := by have : k + 1 < 2 := hk; omega
    subst hk0
    have hh : IsHistory 1 0 (0 + 1) h := hh
    rw [isHistory_zero] at hh
    subst hh
    have := hdyn 0 (by omega) [] 0 (isHistory_zero.mpr rfl) (mayOccur_zero.mpr rfl)
    refine inside_end _ _ this ?_
    rw [hX _ _ (by omega)]
    exact hz (by norm_num : (-5 : ℚ) ≤ 0) (by norm_num : (0 : ℚ) ≤ 5)
  · intro h hh
    have : Within (fun _ => .fin (-1)) (fun _ => .fin 1) ((best q).X 2 h) := by
      rw [hX _ _ (by omega)]
      exact hz (by norm_num) (by norm_num)
    exact this

theorem cost_eq (F : Ifcn ℚ dm) (q : OptP ℚ dm) (π : CollPolicy ℚ dm) :
    ((mpc F 1 0 false).cfg.collProblem (mpc F 1 0 false).model sch.deg sch.ni sch.tau sch.tStep q).policyCost π =
      π.X 0 [] 0 ^ 2 + π.X 1 [] 0 ^ 2 + π.X 2 [] 0 ^ 2 := by
  unfold CollStage.policyCost
  rw [cost_nominal _ rfl]
  simp [MpcCfg.collProblem, MpcCfg.problem, mpc, cfg, MpcCfg.changeTerm, slackCost, CollPolicy.atNodes, List.range_succ]

noncomputable def bestSolver (F : Ifcn ℚ dm) (a : SolverArgs ℚ dm) : SolverResult ℚ dm 0 where
  x := (mpc F 1 0 false).cfg.encodeColl sch.deg sch.ni sch.tau (best a.p)
  lamG := Fin.elim0
  lamX := []
  stats := []

theorem findsOptimum {F : Ifcn ℚ dm} (hR : (mpc F 1 0 false).cfg.CollRegular (mpc F 1 0 false).model sch.deg sch.ni sch.tau sch.tStep) :
    FindsOptimum (mpc F 1 0 false).cfg (bestSolver F) := by
  intro a _
  obtain ⟨h1, h2⟩ := C12_admissible_is_feasible_collocation hR a.p _ (best_admissible F a.p)
  refine ⟨h1, fun w hw => ?_⟩
  obtain ⟨Q, hadm⟩ := C12_feasible_is_admissible_collocation hR.toCollConstraints w a.p hw
  have hob := C12_objective_collocation hR w a.p ⟨(mpc F 1 0 false).cfg.X w, (mpc F 1 0 false).cfg.U w, (mpc F 1 0 false).cfg.E w, Q,
    fun k h i j => (mpc F 1 0 false).cfg.Z w (i * (sch.deg + 1) + j) k h⟩ (fun _ _ _ => rfl) (fun _ _ _ _ => rfl) (fun _ _ _ => rfl)
  have hx : (mpc F 1 0 false).cfg.X w 0 [] = a.p.x0 := hadm.start
  show (mpc F 1 0 false).cfg.obj ((mpc F 1 0 false).cfg.encodeColl sch.deg sch.ni sch.tau (best a.p)) a.p ≤ _
  rw [h2, hob, cost_eq, cost_eq]
  have e0 : (best a.p).X 0 [] = a.p.x0 := rfl
  have e1 : (best a.p).X 1 [] = 0 := rfl
  have e2 : (best a.p).X 2 [] = 0 := rfl
  rw [e0, e1, e2]
  dsimp only
  rw [hx]
  have := sq_nonneg ((mpc F 1 0 false).cfg.X w 1 [] 0)
  have := sq_nonneg ((mpc F 1 0 false).cfg.X w 2 [] 0)
  simp only [Pi.zero_apply]
  linarith

end IntegratorEx

/-- a solver that finds a feasible point if there is one -/
noncomputable def anySolver {K : Type} [Field K] [LinearOrder K] {d : Dims} (EM : MpcEnv K d) (a : SolverArgs K d) : SolverResult K d EM.nLagr where
  x := open Classical in if h : ∃ w, EM.cfg.Feasible w a.p then h.choose else a.x0
  lamG := 0
  lamX := []
  stats := []

theorem anySolver_finds {K : Type} [Field K] [LinearOrder K] {d : Dims} (EM : MpcEnv K d) : FindsFeasible EM.cfg (anySolver EM) := by
  intro a h
  unfold anySolver
  simp only [dif_pos h]
  exact h.choose_spec

open IntegratorEx in
/-- Non-vacuity of C76 and of the robust part of C77: robust horizon 2, two realisations, the plant's parameter changes between them; a hundred iterations. -/
example : ∃ F l', (mpc F 2 2 true).cfg.OnScheme (mpc F 2 2 true).model sch ∧ ContinuousPlantMatches sch (mpc F 2 2 true) (sim true) ∧
    ConsistentRealisations (mpc F 2 2 true) ∧ RobustInvariantTerminalSetAlong sch (mpc F 2 2 true) ∧ (mpc F 2 2 true).cfg.consColloc = true ∧
    Loop.iterate (mpc F 2 2 true) (sim true) (List.replicate 100 (anySolver (mpc F 2 2 true))) (start F 2 2 true) = some l' ∧
    SolverFeasible (mpc F 2 2 true) (sim true) (List.replicate 100 (anySolver (mpc F 2 2 true))) (start F 2 2 true) := by
  obtain ⟨⟨F, hF, _⟩, _⟩ := C11_bookkeeping model (fun _ => 2) (fun _ => 3) (fun _ => 1) 1 1 1 unitTau 1 one_pos
  have hc := regular hF 2 2 true two_pos
  obtain ⟨l', hl', -⟩ := C79_loop_runs (mpc F 2 2 true) (sim true) (by simp [mpc]) (fun _ _ _ _ _ => rfl) (List.replicate 100 (anySolver (mpc F 2 2 true)))
    (by
      intro S hS a s hs
      rw [List.eq_of_mem_replicate hS] at hs
      exact absurd hs List.not_mem_nil) (start F 2 2 true) (fresh_ready _ _ _ _ _ _ _ rfl)
  have hm := matches_ F 2 2 true (fun _ => ⟨le_rfl, one_le_two⟩) two_pos
  have hcon : ConsistentRealisations (mpc F 2 2 true) := ⟨fun _ _ _ => rfl, fun _ _ _ => rfl⟩
  refine ⟨F, l', hc, hm, hcon, robustSet F 2 2 true, rfl, hl', ?_⟩
  refine (C77_robust_recursive_feasibility_partial hc le_rfl two_pos rfl hm hcon (robustSet F 2 2 true)
    (Or.inr fun t r _ => noOvershoot F 2 2 _ _) _ ?_ _ l' rfl rfl hl' ⟨_, (admissible_is_feasible_coll hc _ _
      (plan_admissible F 2 2 true two_pos (Or.inl le_rfl) _ rfl)).1⟩).1
  intro S hS
  rw [List.eq_of_mem_replicate hS]
  exact anySolver_finds _

open IntegratorEx in
/-- Non-vacuity of C77 (nominal) and C78: all hypotheses hold for the example, the first problem is feasible and a hundred iterations succeed. -/
example : ∃ F l' w0, (mpc F 1 0 false).cfg.CollRegular (mpc F 1 0 false).model sch.deg sch.ni sch.tau sch.tStep ∧
    ContinuousPlantMatches sch (mpc F 1 0 false) (sim false) ∧ ConsistentPredictions (mpc F 1 0 false) ∧ TerminalCostAlong sch (mpc F 1 0 false) ∧
    InvariantTerminalSetAlong sch (mpc F 1 0 false) ∧ (mpc F 1 0 false).cfg.consColloc = true ∧
    (∀ tv p, NoOvershoot sch (mpc F 1 0 false).cfg (mpc F 1 0 false).model tv p) ∧ FindsOptimum (mpc F 1 0 false).cfg (bestSolver F) ∧
    Loop.iterate (mpc F 1 0 false) (sim false) (List.replicate 100 (bestSolver F)) (start F 1 0 false) = some l' ∧
    (mpc F 1 0 false).cfg.Feasible w0 ((start F 1 0 false).asked (mpc F 1 0 false)).p := by
  obtain ⟨⟨F, hF, _⟩, _⟩ := C11_bookkeeping model (fun _ => 2) (fun _ => 3) (fun _ => 1) 1 1 1 unitTau 1 one_pos
  have hR := regularCost hF
  obtain ⟨l', hl', -⟩ := C79_loop_runs (mpc F 1 0 false) (sim false) (by simp [mpc]) (fun _ _ _ _ _ => rfl) (List.replicate 100 (bestSolver F))
    (by
      intro S hS a s hs
      rw [List.eq_of_mem_replicate hS] at hs
      exact absurd hs List.not_mem_nil) (start F 1 0 false) (fresh_ready _ _ _ _ _ _ _ rfl)
  have hT := terminalCost F
  exact ⟨F, l', _, hR, matches_ F 1 0 false (fun h => by cases h) one_pos, ⟨fun _ _ _ => rfl, fun _ => rfl⟩, hT,
    ⟨hT.inside, hT.noSlack, fun t x hx => let ⟨u, x', P, ζ, h, _⟩ := hT.decrease t x hx; ⟨u, x', P, ζ, h⟩⟩, rfl, fun tv p => noOvershoot F 1 0 tv p,
    findsOptimum hR, hl', (C12_admissible_is_feasible_collocation hR _ _ (best_admissible F _)).1⟩

end DoMpc
