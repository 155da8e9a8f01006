import Verif.Props.ScalingMhe
import Verif.Props.MheOptimal
import Verif.Props.Stability
import Mathlib.Algebra.Field.Rat
import Mathlib.Algebra.Order.Ring.Unbundled.Rat

/-! # Property C104: examples and the counterexample -/
namespace DoMpc
open Spec

namespace ScaleEx

abbrev dm : Dims := { nx := 1, nu := 1, nz := 0, ntv := 0, np := 0 }
/-- `x⁺ = x + u` -/
def model : DaeModel ℚ dm where
  rhs := fun x u _ _ _ _ => x + u
  alg := fun _ _ z _ _ _ => z
  meas := fun _ _ _ _ _ _ => Fin.elim0
  aux := fun _ _ _ _ _ => Fin.elim0
/-- one step, terminal cost `x²`, default penalty with weight `r`, input scaled with `s`, state with `2 s` -/
def cfg (s r : ℚ) : MpcCfg ℚ dm where
  N := 1
  nRobust := 0
  c := 1
  ifcn := discreteIfcn model (fun _ => 2 * s) (fun _ => s) (fun _ => 1) 1
  sx := fun _ => 2 * s
  su := fun _ => s
  sz := fun _ => 1
  xlb := fun _ => .ninf
  xub := fun _ => .pinf
  ulb := fun _ => .fin (-3)
  uub := fun _ => .pinf
  zlb := fun _ => .ninf
  zub := fun _ => .pinf
  xtlb := fun _ => .ninf
  xtub := fun _ => .pinf
  nl := []
  lterm := fun _ _ _ _ _ => 0
  mterm := fun x _ _ => x 0 ^ 2
  rterm := .factor fun _ => r

theorem other {s s' : ℚ} (hs : 0 < s) (hs' : 0 < s') (r r' : ℚ) : OtherScaling model (cfg s r) (cfg s' r') where
  same := rfl
  positive := ⟨fun _ => mul_pos two_pos hs, fun _ => hs, fun _ => one_pos⟩
  positive' := ⟨fun _ => mul_pos two_pos hs', fun _ => hs', fun _ => one_pos⟩
  model := Or.inl ⟨rfl, rfl⟩

theorem regular {s : ℚ} (hs : 0 < s) (r : ℚ) : (cfg s r).Regular model where
  discrete := rfl
  cpos := Nat.one_pos
  sx := fun _ => mul_pos two_pos hs
  su := fun _ => hs
  sz := fun _ => one_pos
  noColl := rfl
  names := List.nodup_nil
  horizon := Nat.one_pos
  noAlg := Or.inl rfl
  slack := rfl
  rterm := fun f h => by simp [cfg] at h

/-- the state 2, the last input 0 -/
def q : OptP ℚ dm := ⟨fun _ => 2, fun _ => Fin.elim0, fun _ => Fin.elim0, fun _ => 0⟩

/-- apply `v` -/
def plan (v : ℚ) : Policy ℚ dm where
  X := fun k _ _ => if k = 0 then 2 else 2 + v
  U := fun _ _ _ => v
  Z := fun _ _ => Fin.elim0
  E := fun _ _ _ _ => 0

theorem admissible (s r : ℚ) {v : ℚ} (hv : -3 ≤ v) : ((cfg s r).problem model q).Admissible (plan v) where
  dynamics := by
    refine ⟨rfl, fun k hk h hh r hr => ⟨Subsingleton.elim (α := Fin 0 → ℚ) _ _, ?_⟩⟩
    have : k = 0 := by have : k < 1 := hk; omega
    subst this
    funext j
    simp [plan, MpcCfg.problem, model]
  states := fun k h1 h2 => by have : k < 1 := h2; omega
  terminal := fun h _ _ => ⟨trivial, trivial⟩
  inputs := fun _ _ _ _ _ => ⟨hv, trivial⟩
  algebraic := fun _ _ _ _ j => j.elim0
  constraints := fun _ _ _ _ _ _ call hcall => by simp [MpcCfg.problem, cfg] at hcall
  slacks := fun _ _ _ _ call hcall => by simp [MpcCfg.problem, cfg] at hcall
  oneInput := fun _ _ _ _ _ _ _ => rfl

theorem cost_eq (s r : ℚ) (π : Policy ℚ dm) : ((cfg s r).problem model q).cost π = π.X 1 [] 0 ^ 2 + r * (π.U 0 [] 0 / s) ^ 2 := by
  rw [cost_nominal _ rfl]
  simp [MpcCfg.problem, cfg, MpcCfg.changeTerm, slackCost, inputBefore, q]

/-- the cost of a feasible point in terms of its input -/
theorem cost_of {s : ℚ} (hs : 0 < s) (r : ℚ) (w : OptX ℚ dm) (hw : (cfg s r).Feasible w q) :
    (cfg s r).obj w q = (2 + w.u 0 0 0 * s) ^ 2 + r * w.u 0 0 0 ^ 2 := by
  have hadm := C12_feasible_is_admissible _ _ (regular hs r) w q hw
  have hob := C12_objective_is_policy_cost _ _ (regular hs r) w q
  rw [hob, cost_eq]
  have h1 := (hadm.dynamics.2 0 (by show 0 < 1; omega) [] (isHistory_zero.mpr rfl) 0 (mayOccur_zero.mpr rfl)).2
  have h0 := hadm.dynamics.1
  have hU : ((cfg s r).policy w).U 0 [] 0 = w.u 0 0 0 * s := by
    show (cfg s r).U w 0 [] 0 = _
    simp [MpcCfg.U, number, MpcCfg.uPhys, cfg]
  have hx1 : ((cfg s r).policy w).X 1 [] 0 = 2 + w.u 0 0 0 * s := by
    have e : extend ((cfg s r).problem model q).nR 0 [] 0 = [] := extend_zero _ _ _
    rw [e] at h1
    have h2 : ((cfg s r).policy w).X (0 + 1) [] 0 = ((cfg s r).policy w).X 0 [] 0 + ((cfg s r).policy w).U 0 [] 0 := congrFun h1 0
    rw [h2, hU, h0]
    rfl
  rw [hx1, hU, mul_div_assoc, div_self hs.ne', mul_one]

theorem plan_cost {s : ℚ} (hs : 0 < s) (r v : ℚ) (hv : -3 ≤ v) : ∃ w, (cfg s r).Feasible w q ∧ (cfg s r).obj w q = (2 + v) ^ 2 + r * (v / s) ^ 2 ∧ w.u 0 0 0 * s = v := by
  obtain ⟨h1, h2⟩ := C12_admissible_is_feasible _ _ (regular hs r) q _ (admissible s r hv)
  refine ⟨_, h1, ?_, ?_⟩
  · rw [h2, cost_eq]
    simp [plan]
  · have := encode_U (cfg s r) model (regular hs r).constraints (plan v) q (admissible s r hv) (k := 0) (h := []) (by show 0 < 1; omega) (isHistory_zero.mpr rfl)
    have := congrFun this 0
    simpa [MpcCfg.U, number, MpcCfg.uPhys, cfg, plan] using this

end ScaleEx

open ScaleEx in
/-- **C104**: false with the default penalty on input changes: it weighs the *scaled* changes (`controller/_mpc.py:1251-1255`), so that the same weight `set_rterm(u = 1)` gives
the input -1 if the input is not scaled, and another one if `scaling['_u','u'] = 2`. -/
theorem C104_fails_default_penalty : ∃ (m : DaeModel ℚ ScaleEx.dm) (cfg cfg' : MpcCfg ℚ ScaleEx.dm) (q : OptP ℚ ScaleEx.dm) (u : Vec ℚ 1),
    OtherScaling m cfg cfg' ∧ cfg.rterm = cfg'.rterm ∧ BestInput cfg q u ∧ ¬ BestInput cfg' q u := by
  refine ⟨model, cfg 1 1, cfg 2 1, q, fun _ => -1, other one_pos two_pos 1 1, rfl, ?_, ?_⟩
  · obtain ⟨w, h1, h2, h3⟩ := plan_cost one_pos 1 (-1) (by norm_num)
    refine ⟨w, ⟨h1, fun v hv => ?_⟩, fun j => ?_⟩
    · rw [h2, cost_of one_pos 1 v hv]
      nlinarith [sq_nonneg (v.u 0 0 0 + 1)]
    · rw [Subsingleton.elim (α := Fin 1) j 0]
      exact h3.symm
  · rintro ⟨w, ⟨h1, h2⟩, h3⟩
    obtain ⟨v, g1, g2, -⟩ := plan_cost two_pos 1 (-8/5) (by norm_num)
    have hc := h2 v g1
    have hu : (-1 : ℚ) = w.u 0 0 0 * 2 := h3 0
    rw [g2, cost_of two_pos 1 w h1] at hc
    have hw : w.u 0 0 0 = -1/2 := by linarith
    rw [hw] at hc
    norm_num at hc

open ScaleEx in
/-- non-vacuity of `C104_inputs_partial`: scalings 1 and 2, weights 1 and 4, and the best input exists -/
example : OtherScaling model (cfg 1 1) (cfg 2 4) ∧ SameChangePenalty (cfg 1 1) (cfg 2 4) ∧ BestInput (cfg 2 4) q fun _ => -1 := by
  have ho := other one_pos two_pos 1 4
  have hs : SameChangePenalty (cfg 1 1) (cfg 2 4) := ⟨fun _ => 1, fun _ => 4, rfl, rfl, fun _ => by show (1 : ℚ) / 1 ^ 2 = 4 / 2 ^ 2; norm_num⟩
  refine ⟨ho, hs, (C104_inputs_partial _ _ _ ho hs q _).1 ?_⟩
  obtain ⟨w, h1, h2, h3⟩ := plan_cost one_pos 1 (-1) (by norm_num)
  refine ⟨w, ⟨h1, fun v hv => ?_⟩, fun j => ?_⟩
  · rw [h2, cost_of one_pos 1 v hv]
    nlinarith [sq_nonneg (v.u 0 0 0 + 1)]
  · rw [Subsingleton.elim (α := Fin 1) j 0]
    exact h3.symm

open ScaleEx in
/-- non-vacuity of `OtherScaling` with collocation, two elements of degree 2 -/
example (tau : Nat → ℚ) : ∃ F F', OtherScaling model { cfg 1 0 with ifcn := F } { cfg 3 0 with ifcn := F' } := by
  obtain ⟨⟨F, hF, -⟩, -⟩ := C11_bookkeeping model (fun _ => 2 * 1) (fun _ => 1) (fun _ => 1) 1 2 2 tau 1 two_pos
  obtain ⟨⟨F', hF', -⟩, -⟩ := C11_bookkeeping model (fun _ => 2 * 3) (fun _ => 3) (fun _ => 1) 1 2 2 tau 1 two_pos
  refine ⟨F, F', rfl, ⟨fun _ => by norm_num [cfg], fun _ => by norm_num [cfg], fun _ => by norm_num [cfg]⟩,
    ⟨fun _ => by norm_num [cfg], fun _ => by norm_num [cfg], fun _ => by norm_num [cfg]⟩, Or.inr ⟨2, 2, tau, 1, hF, hF'⟩⟩

open MheOptEx in
/-- non-vacuity of `C104_estimates`: the estimator of `MheOptEx` (state scaling 2) and the same with state scaling 5; the first problem of the run there has the best
estimate 3 with both -/
example : OtherMheScaling E.cfg { E.cfg with sx := fun _ => 5, ifcn := discreteIfcn E.cfg.model (fun _ => 5) E.cfg.su E.cfg.sz E.cfg.pScaling } ∧
    BestEstimate { E.cfg with sx := fun _ => 5, ifcn := discreteIfcn E.cfg.model (fun _ => 5) E.cfg.su E.cfg.sz E.cfg.pScaling } (E.args st [3, 1]).p fun _ => 3 := by
  have ho : OtherMheScaling E.cfg { E.cfg with sx := fun _ => 5, ifcn := discreteIfcn E.cfg.model (fun _ => 5) E.cfg.su E.cfg.sz E.cfg.pScaling } :=
    ⟨rfl, ⟨fun _ => (by decide +kernel : (0 : ℚ) < 2), fun _ => one_pos, fun j => j.elim0⟩,
      ⟨fun _ => (by decide +kernel : (0 : ℚ) < 5), fun _ => one_pos, fun j => j.elim0⟩, Or.inl ⟨rfl, rfl⟩⟩
  refine ⟨ho, (C104_estimates _ _ ho _ _).1 ?_⟩
  have hs : E.cfg.Solves (S (E.args st [3, 1])).x (E.args st [3, 1]).p :=
    solves _ (by decide +kernel) (by decide +kernel) (by decide +kernel) (by decide +kernel) (by decide +kernel)
  exact ⟨_, hs, by decide +kernel⟩

end DoMpc
