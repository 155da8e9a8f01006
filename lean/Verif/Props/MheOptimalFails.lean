import Verif.Props.MheOptimal

/-! # C72, C73 with a scaled estimated parameter

`C25_fails_scaled_parameters` shows that the solver's problem is not the documented one.  Here: it changes what `make_step` returns.  The model is
`x⁺ = x + p + w`, `y = x + p + v`, the costs are the squares, and the window has one interval. -/
set_option linter.unusedSectionVars false
namespace DoMpc
open Spec
namespace MheFails
open MheExample

/-- scaling 2 for the estimated parameter -/
abbrev c : MheCfg ℚ dd 1 0 := cfg 1 1 2 [] true false 10
/-- exact prior `x = 0`, `p = 2` and exact measurement `y = x₁ + p = 4` -/
abbrev q : MheP ℚ dd 1 0 := ⟨fun _ => 0, fun _ => 2, Fin.elim0, fun _ => Fin.elim0, fun k _ => if k = 0 then 4 else 0⟩
/-- the minimiser of the solver's problem -/
def best : MheX ℚ dd 1 :=
  ⟨fun k _ _ => if k = 0 then 4 / 21 else 8 / 3, fun _ _ => Fin.elim0, fun _ => Fin.elim0, fun _ _ => 4 / 21, fun _ _ => 4 / 21, fun _ _ _ => 0, fun _ => 8 / 7⟩

theorem rows_iff (o : MheX ℚ dd 1) : (∃ rs, c.rows o q = .ok rs ∧ ∀ r ∈ rs, r.Holds) ↔
    c.X o 1 0 = c.X o 0 0 + c.pEstPhys o 0 + o.w 0 0 ∧ c.X o 1 0 + c.pEstPhys o 0 / 2 + o.v 0 0 = 4 := by
  rw [C25_rows_iff_as_coded mm c rfl (by intro i; exact one_pos) rfl rfl rfl]
  have hp : (o.pEst * c.sp) 0 = c.pEstPhys o 0 := rfl
  have hp2 : o.pEst 0 = c.pEstPhys o 0 / 2 := by
    show o.pEst 0 = o.pEst 0 * 2 / 2
    ring
  constructor
  · rintro ⟨h1, h2⟩
    have e1 := congrFun (h1 0 one_pos).2 0
    have e2 := congrFun (h2 0 one_pos) 0
    refine ⟨e1, ?_⟩
    change c.X o 1 0 + o.pEst 0 + o.v 0 0 = 4 at e2
    rw [← hp2]; exact e2
  · rintro ⟨h1, h2⟩
    refine ⟨fun k hk => ⟨Subsingleton.elim (α := Fin 0 → ℚ) _ _, ?_⟩, fun k hk => ?_⟩
    · obtain rfl : k = 0 := Nat.lt_one_iff.mp hk
      funext i
      rw [Subsingleton.elim (α := Fin 1) i 0]
      exact h1
    · obtain rfl : k = 0 := Nat.lt_one_iff.mp hk
      funext i
      rw [Subsingleton.elim (α := Fin 1) i 0]
      show c.X o 1 0 + o.pEst 0 + o.v 0 0 = 4
      rw [hp2]; exact h2

theorem obj_eq (o : MheX ℚ dd 1) : c.obj o q = c.X o 0 0 ^ 2 + (c.pEstPhys o 0 - 2) ^ 2 + o.w 0 0 ^ 2 + o.v 0 0 ^ 2 := by
  have : c.obj o q = ((c.X o 0 0 - 0) ^ 2 + (c.pEstPhys o 0 - 2) ^ 2) + (o.w 0 0 ^ 2 + o.v 0 0 ^ 2) + epsTerm [] (o.eps (c.kEps 0)) := rfl
  rw [this]
  simp [epsTerm, slackVars]
  ring

theorem best_feasible : c.Feasible best q := by
  obtain ⟨rs, h1, h2⟩ := (rows_iff best).2 (by constructor <;> decide +kernel)
  refine ⟨rs, h1, h2, ?_, fun k _ i _ j => j.elim0, fun k _ j => j.elim0, fun k _ sl hsl => ?_, fun j => ?_⟩
  · intro k hk i hi j
    have : (c.lbx.x k i j) = .ninf := by
      show Bound.divBy (.ninf : Bound ℚ) 1 = _
      decide +kernel
    rw [this]
    have : (c.ubx.x k i j) = .fin 10 := by
      show Bound.divBy (.fin 10 : Bound ℚ) 1 = _
      decide +kernel
    rw [this]
    refine ⟨trivial, ?_⟩
    show (if k = 0 then (4 : ℚ) / 21 else 8 / 3) ≤ 10
    split_ifs <;> norm_num
  · simp [slackVars] at hsl
  · have : (c.lbx.pEst j) = .ninf := by
      show Bound.divBy (.ninf : Bound ℚ) 2 = _
      decide +kernel
    rw [this]
    have : (c.ubx.pEst j) = .pinf := by
      show Bound.divBy (.pinf : Bound ℚ) 2 = _
      decide +kernel
    rw [this]
    exact ⟨trivial, trivial⟩

/-- the minimum of the solver's problem -/
theorem lower (o : MheX ℚ dd 1) (h : c.Feasible o q) :
    c.obj o q = 4 / 21 + (c.X o 0 0 - 4 / 21) ^ 2 + (c.pEstPhys o 0 - 16 / 7) ^ 2 + (o.w 0 0 - 4 / 21) ^ 2 + (o.v 0 0 - 4 / 21) ^ 2 := by
  obtain ⟨rs, h1, h2, -⟩ := h
  obtain ⟨e1, e2⟩ := (rows_iff o).1 ⟨rs, h1, h2⟩
  rw [obj_eq]
  rw [e1] at e2
  have : o.v 0 0 = 4 - (c.X o 0 0 + c.pEstPhys o 0 + o.w 0 0) - c.pEstPhys o 0 / 2 := by linarith
  rw [this]
  ring

theorem best_solves : c.Solves best q := by
  refine ⟨best_feasible, fun o' ho' => ?_⟩
  rw [lower o' ho', lower best best_feasible]
  have e : (c.X best 0 0 - 4 / 21) ^ 2 + (c.pEstPhys best 0 - 16 / 7) ^ 2 + (best.w 0 0 - 4 / 21) ^ 2 + (best.v 0 0 - 4 / 21) ^ 2 = 0 := by
    decide +kernel
  have := sq_nonneg (c.X o' 0 0 - 4 / 21)
  have := sq_nonneg (c.pEstPhys o' 0 - 16 / 7)
  have := sq_nonneg (o'.w 0 0 - 4 / 21)
  have := sq_nonneg (o'.v 0 0 - 4 / 21)
  linarith

theorem solves_unique (o : MheX ℚ dd 1) (h : c.Solves o q) : c.X o 1 0 = 8 / 3 ∧ c.pEstPhys o 0 = 16 / 7 := by
  have hle := h.2 best best_feasible
  rw [lower o h.1, lower best best_feasible] at hle
  have e : (c.X best 0 0 - 4 / 21) ^ 2 + (c.pEstPhys best 0 - 16 / 7) ^ 2 + (best.w 0 0 - 4 / 21) ^ 2 + (best.v 0 0 - 4 / 21) ^ 2 = 0 := by
    decide +kernel
  have a1 := sq_nonneg (c.X o 0 0 - 4 / 21)
  have a2 := sq_nonneg (c.pEstPhys o 0 - 16 / 7)
  have a3 := sq_nonneg (o.w 0 0 - 4 / 21)
  have a4 := sq_nonneg (o.v 0 0 - 4 / 21)
  have z1 := sub_eq_zero.1 ((pow_eq_zero_iff two_ne_zero).1 (show (c.X o 0 0 - 4 / 21) ^ 2 = 0 by linarith))
  have z2 := sub_eq_zero.1 ((pow_eq_zero_iff two_ne_zero).1 (show (c.pEstPhys o 0 - 16 / 7) ^ 2 = 0 by linarith))
  have z3 := sub_eq_zero.1 ((pow_eq_zero_iff two_ne_zero).1 (show (o.w 0 0 - 4 / 21) ^ 2 = 0 by linarith))
  obtain ⟨rs, h1, h2, -⟩ := h.1
  obtain ⟨e1, -⟩ := (rows_iff o).1 ⟨rs, h1, h2⟩
  refine ⟨?_, z2⟩
  rw [e1, z1, z2, z3]; norm_num

/-- the plant: `x = 0, 2, 4, …`, `p = 2` -/
def plant (k : Nat) : Vec ℚ 1 := fun _ => 2 * k

theorem definite : c.task.DefiniteCosts := by
  refine ⟨?_, ?_, by simp [MheCfg.task]⟩
  · intro w v tv p
    refine ⟨add_nonneg (sq_nonneg _) (sq_nonneg _), ?_⟩
    change w 0 ^ 2 + v 0 ^ 2 = 0 ↔ _
    rw [add_eq_zero_iff_of_nonneg (sq_nonneg _) (sq_nonneg _), sq_eq_zero_iff, sq_eq_zero_iff]
    constructor
    · rintro ⟨h1, h2⟩
      exact ⟨funext fun i => by rw [Subsingleton.elim i 0]; exact h1, funext fun i => by rw [Subsingleton.elim i 0]; exact h2⟩
    · rintro ⟨rfl, rfl⟩; exact ⟨rfl, rfl⟩
  · intro x xp p pp g
    refine ⟨add_nonneg (sq_nonneg _) (sq_nonneg _), ?_⟩
    change (x 0 - xp 0) ^ 2 + (p 0 - pp 0) ^ 2 = 0 ↔ _
    rw [add_eq_zero_iff_of_nonneg (sq_nonneg _) (sq_nonneg _), sq_eq_zero_iff, sq_eq_zero_iff, sub_eq_zero, sub_eq_zero]
    constructor
    · rintro ⟨h1, h2⟩
      exact ⟨funext fun i => by rw [Subsingleton.elim i 0]; exact h1, funext fun i => by rw [Subsingleton.elim i 0]; exact h2⟩
    · rintro ⟨rfl, rfl⟩; exact ⟨rfl, rfl⟩

theorem observed : c.task.InputsObserved :=
  ⟨fun _ _ _ _ _ _ _ _ _ => Subsingleton.elim (α := Fin 0 → ℚ) _ _, fun _ _ _ _ _ _ _ _ => Subsingleton.elim (α := Fin 0 → ℚ) _ _⟩

theorem plant_run (n : Nat) (hn : n ≤ 5) :
    c.task.NoiseFreeRun n plant (fun _ => Fin.elim0) (fun _ => Fin.elim0) (fun _ => Fin.elim0) (fun _ => 2) Fin.elim0 := by
  refine ⟨?_, fun k _ call hc => absurd hc (by simp [MheCfg.task]), ?_, fun k _ => ⟨fun j => j.elim0, fun j => j.elim0⟩, fun j => ⟨trivial, trivial⟩⟩
  · intro k _
    refine ⟨Subsingleton.elim (α := Fin 0 → ℚ) _ _, ?_⟩
    funext i
    show 2 * ((k + 1 : ℕ) : ℚ) = 2 * (k : ℚ) + 2 + 0
    push_cast; ring
  · intro k hk j
    refine ⟨trivial, ?_⟩
    show 2 * (k : ℚ) ≤ 10
    have : (k : ℚ) ≤ 5 := by exact_mod_cast le_trans hk hn
    linarith

/-- what happened explains the data -/
theorem exact_admissible :
    c.task.Admissible q.toData ⟨plant, fun _ => Fin.elim0, fun _ => Fin.elim0, fun _ => 0, fun _ => 0, fun _ _ _ => 0, fun _ => 2⟩ := by
  obtain ⟨r1, -, r3, r4, r5⟩ := plant_run 1 (by decide)
  refine ⟨r1, ?_, fun k _ call hc => absurd hc (by simp [MheCfg.task]), r3, fun k _ j => j.elim0, fun k _ j => j.elim0,
    fun k _ call hc => absurd hc (by simp [MheCfg.task]), fun h => Bool.noConfusion h, r5⟩
  intro k hk
  obtain rfl : k = 0 := Nat.lt_one_iff.mp hk
  funext i
  show 2 * ((1 : ℕ) : ℚ) + 2 + 0 = 4
  norm_num

/-- the only best explanation of the data in the sense of the documentation is what happened -/
theorem documented (e : Explanation ℚ dd 1) (h : c.task.Optimal q.toData e) : e.X 1 0 = 2 ∧ e.p 0 = 2 := by
  have hc := h.2 _ exact_admissible
  have e0 : c.task.cost q.toData ⟨plant, fun _ => Fin.elim0, fun _ => Fin.elim0, fun _ => 0, fun _ => 0, fun _ _ _ => 0, fun _ => 2⟩ = 0 := by
    decide +kernel
  have e1 : c.task.cost q.toData e = (e.X 0 0 - 0) ^ 2 + (e.p 0 - 2) ^ 2 + ((e.W 0 0 ^ 2 + e.V 0 0 ^ 2 + slackCost [] (e.E 0)) + 0) := rfl
  have e2 : slackCost ([] : List (NlCall ℚ dd)) (e.E 0) = 0 := rfl
  rw [e0, e1, e2] at hc
  have a1 := sq_nonneg (e.X 0 0 - 0)
  have a2 := sq_nonneg (e.p 0 - 2)
  have a3 := sq_nonneg (e.W 0 0)
  have a4 := sq_nonneg (e.V 0 0)
  have z1 := (pow_eq_zero_iff two_ne_zero).1 (show (e.X 0 0 - 0) ^ 2 = 0 by linarith)
  have z2 := sub_eq_zero.1 ((pow_eq_zero_iff two_ne_zero).1 (show (e.p 0 - 2) ^ 2 = 0 by linarith))
  have z3 := (pow_eq_zero_iff two_ne_zero).1 (show e.W 0 0 ^ 2 = 0 by linarith)
  have hd := congrFun (h.1.1 0 one_pos).2 0
  change e.X 1 0 = e.X 0 0 + e.p 0 + e.W 0 0 at hd
  refine ⟨?_, z2⟩
  rw [hd, z2, z3]
  rw [sub_zero] at z1
  rw [z1]; norm_num

/-- the estimator -/
def E : MheEnv ℚ dd 1 0 where
  cfg := c
  tStep := 1
  tvpFun := fun _ _ => Fin.elim0
  pFun := fun _ => Fin.elim0
  nOptX := 1
  nOptP := 1
  nOptAux := 0
  nLagr := 1
  flatX := fun o => o.x 1 0
  flatP := fun q => q.xPrev
  flatAux := fun _ _ => Fin.elim0
/-- its state after `setup` with `x0 = 0`, `p_est0 = 2` -/
def st : MheSt ℚ dd 1 0 := E.fresh 0 (fun _ => 0) Fin.elim0 Fin.elim0 (fun _ => 2)

/-- `make_step` with the exact measurement -/
theorem step (S : MheArgs ℚ dd 1 0 → MheResult ℚ dd 1 1) :
    ∃ a, (E.queries st [⟨S, [4]⟩])[0]? = some a ∧ a.p = q ∧ E.outputs st [⟨S, [4]⟩] = [.ok (c.X (S a).x 1)] ∧
      (E.after st [⟨S, [4]⟩]).pEst0 = c.pEstPhys (S a).x := by
  refine ⟨_, rfl, ?_, rfl, rfl⟩
  have h : ∀ a b : MheP ℚ dd 1 0, a.xPrev = b.xPrev → a.pEstPrev = b.pEstPrev → a.pSet = b.pSet → a.tvp = b.tvp → a.yMeas = b.yMeas → a = b := by
    rintro ⟨⟩ ⟨⟩ rfl rfl rfl rfl rfl; rfl
  refine h _ _ ?_ rfl rfl rfl ?_
  · funext i
    show (0 : ℚ) * 1 = 0
    norm_num
  · funext k i
    rw [Subsingleton.elim (α := Fin 1) i 0]
    show setAt (fun _ _ => (0 : ℚ)) 0 (rowVec [4]) k 0 = if k = 0 then (4 : ℚ) else 0
    unfold setAt
    split_ifs <;> rfl

/-- **C72, C73 fail with a scaled estimated parameter** (scaling 2).  The plant is the model without noise, costs are definite, the priors `x = 0`, `p = 2`
and the measurement are exact; the only best explanation is the exact one, with state `x₁ = 2` and `p = 2`.  But every solver that returns a global minimiser
makes `make_step` return `8/3`, with the estimated parameter `16/7`. -/
theorem C73_fails_scaled_parameters :
    E.cfg.task.DefiniteCosts ∧ E.cfg.task.InputsObserved ∧
    E.cfg.task.NoiseFreeRun 1 plant (fun _ => Fin.elim0) (fun _ => Fin.elim0) (fun _ => Fin.elim0) (fun _ => 2) Fin.elim0 ∧
    E.cfg.X st.optX 1 = plant 0 ∧ st.pEst0 = (fun _ => 2) ∧
    [4] = List.ofFn (E.cfg.task.measured plant (fun _ => Fin.elim0) (fun _ => Fin.elim0) (fun _ => Fin.elim0) (fun _ => 2) Fin.elim0 0) ∧
    (∃ S : MheArgs ℚ dd 1 0 → MheResult ℚ dd 1 1, ∀ a, (E.queries st [⟨S, [4]⟩])[0]? = some a → E.cfg.Solves (S a).x a.p) ∧
    ∀ S : MheArgs ℚ dd 1 0 → MheResult ℚ dd 1 1, (∀ a, (E.queries st [⟨S, [4]⟩])[0]? = some a → E.cfg.Solves (S a).x a.p) →
      ∃ x, E.outputs st [⟨S, [4]⟩] = [.ok x] ∧ x 0 = 8 / 3 ∧ (E.after st [⟨S, [4]⟩]).pEst0 0 = 16 / 7 ∧ plant 1 0 = 2 := by
  refine ⟨definite, observed, plant_run 1 (by decide), ?_, rfl, ?_, ⟨fun _ => ⟨best, fun _ => 0, [], []⟩, fun a ha => ?_⟩, fun S hS => ?_⟩
  · funext i
    show (0 : ℚ) * 1 = 2 * ((0 : ℕ) : ℚ)
    norm_num
  · have : E.cfg.task.measured plant (fun _ => Fin.elim0) (fun _ => Fin.elim0) (fun _ => Fin.elim0) (fun _ => 2) Fin.elim0 0 = fun _ => 4 := by
      funext i
      show 2 * ((1 : ℕ) : ℚ) + 2 + 0 = 4
      norm_num
    rw [this]; rfl
  · obtain ⟨a', h1, h2, -⟩ := step fun _ => ⟨best, fun _ => 0, [], []⟩
    rw [h1] at ha
    cases ha
    rw [h2]
    exact best_solves
  · obtain ⟨a, h1, h2, h3, h4⟩ := step S
    have hs := hS a h1
    rw [h2] at hs
    obtain ⟨k1, k2⟩ := solves_unique _ hs
    refine ⟨_, h3, k1, by rw [h4]; exact k2, ?_⟩
    show 2 * ((1 : ℕ) : ℚ) = 2
    norm_num

/-- the same for C72: what is returned is the end of no best explanation of the data -/
theorem C72_fails_scaled_parameters (S : MheArgs ℚ dd 1 0 → MheResult ℚ dd 1 1)
    (hS : ∀ a, (E.queries st [⟨S, [4]⟩])[0]? = some a → E.cfg.Solves (S a).x a.p) (x : Vec ℚ 1) (hx : E.outputs st [⟨S, [4]⟩] = [.ok x]) :
    ∃ D, E.IsData D st.t0 [[4]] (E.cfg.X st.optX 1) st.pEst0 ∧ (∃ e, E.cfg.task.Optimal D e) ∧ ∀ e, E.cfg.task.Optimal D e → x ≠ e.X 1 := by
  obtain ⟨a, h1, h2, h3, -⟩ := step S
  have hs := hS a h1
  rw [h2] at hs
  obtain ⟨k1, -⟩ := solves_unique _ hs
  rw [h3] at hx
  cases hx
  refine ⟨q.toData, ⟨?_, rfl, rfl, ?_, rfl⟩, ?_, fun e he heq => ?_⟩
  · show [List.ofFn fun _ : Fin 1 => (4 : ℚ)] = _
    simp
  · funext i
    show (0 : ℚ) = 0 * 1
    norm_num
  · refine ⟨⟨plant, fun _ => Fin.elim0, fun _ => Fin.elim0, fun _ => 0, fun _ => 0, fun _ _ _ => 0, fun _ => 2⟩, exact_admissible, fun e' _ => ?_⟩
    have e0 : c.task.cost q.toData ⟨plant, fun _ => Fin.elim0, fun _ => Fin.elim0, fun _ => 0, fun _ => 0, fun _ _ _ => 0, fun _ => 2⟩ = 0 := by
      decide +kernel
    have e1 : c.task.cost q.toData e' = (e'.X 0 0 - 0) ^ 2 + (e'.p 0 - 2) ^ 2 + ((e'.W 0 0 ^ 2 + e'.V 0 0 ^ 2 + slackCost [] (e'.E 0)) + 0) := rfl
    have e2 : slackCost ([] : List (NlCall ℚ dd)) (e'.E 0) = 0 := rfl
    show c.task.cost q.toData _ ≤ _
    rw [e0]
    show 0 ≤ c.task.cost q.toData e'
    rw [e1, e2]
    positivity
  · have := (documented e he).1
    have h' := congrFun heq 0
    rw [this] at h'
    rw [k1] at h'
    norm_num at h'

end MheFails
end DoMpc
