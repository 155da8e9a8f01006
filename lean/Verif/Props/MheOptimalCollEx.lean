import Verif.Props.MheOptimalColl
import Verif.Props.MheLoopRuns
import Verif.Props.GuaranteesCollEx

/-! # Property C80: the hypotheses can be met, and it fails for measured algebraic states -/
set_option linter.unusedSectionVars false
namespace DoMpc
open Spec Polynomial

/-- an interval of length 1 with one element of degree 1 (points 0 and 1): one implicit Euler step -/
theorem euler_step {d : Dims} {m : DaeModel ℚ d} {x x' : Vec ℚ d.nx} {u : Vec ℚ d.nu} {tv : Vec ℚ d.ntv} {p : Vec ℚ d.np} {w : Vec ℚ d.nw}
    {P : Nat → Fin d.nx → ℚ[X]} {ζ : Nat → Nat → Vec ℚ d.nz}
    (h : IsCollocationSolution m 1 1 unitTau (1 / ((1 : Nat) : ℚ)) x u tv p w x' P ζ) : x' = x + m.rhs x' u (ζ 0 1) tv p w := by
  have ht : unitTau 1 = 1 := by simp [unitTau]
  funext e
  have h1 := linear_poly (h.degree 0 one_pos e)
  have h2 := congrFun (h.ode 0 one_pos 1 le_rfl le_rfl) e
  rw [ht] at h2
  have hf : valueAt (P 0) 1 = x' := h.final
  rw [hf] at h2
  have h3 : (derivative (P 0 e)).eval 1 = m.rhs x' u (ζ 0 1) tv p w e := by
    have : slopeAt (P 0) 1 e = _ := h2
    simpa [slopeAt] using this
  have h4 : (P 0 e).eval 0 = x e := congrFun h.start e
  have h5 : (P 0 e).eval 1 = x' e := congrFun hf e
  rw [h3, h4, h5] at h1
  exact h1

theorem euler_line {d : Dims} {m : DaeModel ℚ d} {x x' : Vec ℚ d.nx} {u : Vec ℚ d.nu} {tv : Vec ℚ d.ntv} {p : Vec ℚ d.np} {w : Vec ℚ d.nw}
    {ζ : Nat → Nat → Vec ℚ d.nz} (h : x' = x + m.rhs x' u (ζ 0 1) tv p w) (a0 : m.alg x u (ζ 0 0) tv p w = 0) (a1 : m.alg x' u (ζ 0 1) tv p w = 0) :
    IsCollocationSolution m 1 1 unitTau (1 / ((1 : Nat) : ℚ)) x u tv p w x' (fun _ => line x x') ζ where
  degree := fun _ _ e => line_degree _ _ e
  start := by rw [line_value]; simp
  ode := by
    intro i hi j h1 h2
    have hj : j = 1 := by omega
    have hi : i = 0 := by omega
    subst hj hi
    have ht : unitTau 1 = 1 := by simp [unitTau]
    rw [ht, line_slope, line_value]
    have e1 : (fun e => x e + (x' e - x e) * 1) = x' := by funext e; ring
    rw [e1]
    funext e
    have := congrFun h e
    simp only [Pi.add_apply] at this
    simp only [Nat.cast_one, ne_eq, one_ne_zero, not_false_eq_true, div_self, one_smul]
    linarith
  algebraic := by
    intro i hi j hj
    have hi : i = 0 := by omega
    subst hi
    have hj : j = 0 ∨ j = 1 := by omega
    rcases hj with rfl | rfl
    · rw [line_value]; simpa [unitTau] using a0
    · rw [line_value]; simpa [unitTau] using a1
  join := fun i hi => by omega
  final := by rw [line_value]; funext e; simp

/-! ## an example -/
namespace MheCollEx
open MheOptEx (dd)

/-- `x' = u + p + w`, `y = (x + v, u)` -/
def model : DaeModel ℚ dd where
  rhs := fun _ u _ _ p w => u + p + w
  alg := fun _ _ _ _ _ _ => Fin.elim0
  meas := fun x u _ _ _ v j => if j = 0 then x 0 + v 0 else u 0
  aux := fun _ _ _ _ _ => Fin.elim0
/-- window of two intervals, state scaling 2, state at most 100, constraint `-x ≤ 0` -/
def cfg (F : Ifcn ℚ dd) : MheCfg ℚ dd 1 0 where
  N := 2
  model := model
  ifcn := F
  sel := fun _ => .inl 0
  sx := fun _ => 2
  su := fun _ => 1
  sz := Fin.elim0
  sp := fun _ => 1
  xlb := fun _ => .ninf
  xub := fun _ => .fin 100
  ulb := fun _ => .fin 0
  uub := fun _ => .pinf
  zlb := fun _ => .ninf
  zub := fun _ => .pinf
  plb := fun _ => .ninf
  pub := fun _ => .fin 5
  nl := [⟨"pos", 1, fun x _ _ _ _ _ => - x 0, .fin 0, false, 0, .pinf⟩]
  stage := fun w v _ _ => w 0 ^ 2 + v 0 ^ 2
  arrival := fun x xp p pp _ => (x 0 - xp 0) ^ 2 + (p 0 - pp 0) ^ 2
def env (F : Ifcn ℚ dd) : MheEnv ℚ dd 1 0 where
  cfg := cfg F
  tStep := 1
  tvpFun := fun _ _ => Fin.elim0
  pFun := fun _ => Fin.elim0
  nOptX := 0
  nOptP := 0
  nOptAux := 0
  nLagr := 0
  flatX := fun _ => Fin.elim0
  flatP := fun _ => Fin.elim0
  flatAux := fun _ _ => Fin.elim0

theorem plain {F : Ifcn ℚ dd} (hF : setupCollocation model (fun _ => 2) (fun _ => 1) Fin.elim0 (fun _ => 1) 1 1 unitTau 1 = .ok F) :
    (cfg F).CollPlain 1 1 unitTau 1 where
  setup := hF
  tau0 := by simp [unitTau]
  tauInj := by intro i _ j _ h; simpa [unitTau] using h
  nlColloc := rfl
  consColloc := rfl
  names := List.nodup_singleton _
  sp := rfl
  sx := fun _ => (two_pos : (0 : ℚ) < 2)
  su := fun _ => (one_pos : (0 : ℚ) < 1)
  sz := fun i => i.elim0
  N := two_pos
  meas := fun _ _ _ _ _ _ _ => rfl

theorem definite (F : Ifcn ℚ dd) : (cfg F).task.DefiniteCosts := by
  have := MheOptEx.definite
  refine ⟨this.1, this.2.1, ?_⟩
  intro call hc hs
  simp only [MheCfg.task, cfg, List.mem_singleton] at hc
  subst hc; simp at hs

theorem determined (F : Ifcn ℚ dd) : ((cfg F).collTask 1 1 unitTau 1).InputsDetermined := by
  constructor
  · intro x x' u u' z z' tv p h
    have := congrFun h 1
    simp [MheCfg.collTask, MheCfg.task, cfg, model] at this
    exact funext fun i => by rw [Subsingleton.elim i 0]; exact this
  · intro x u tv p x1 x2 P1 P2 ζ1 ζ2 h1 h2
    rw [euler_step h1, euler_step h2]
    rfl

/-- the plant: `p = 1`, inputs `1, 0, 1, 0, …`, states `0, 2, 3, 5, 6, …`, up to 90 -/
def u (k : Nat) : Vec ℚ 1 := fun _ => if k % 2 = 0 then 1 else 0
def x : Nat → Vec ℚ 1
  | 0 => 0
  | k + 1 => x k + (u k + 1)
noncomputable def P (k : Nat) : Nat → Fin 1 → ℚ[X] := fun _ => line (x k) (x (k + 1))

theorem x_bounds (k : Nat) : 0 ≤ x k 0 ∧ x k 0 ≤ 2 * k := by
  induction k with
  | zero => simp [x]
  | succ k ih =>
    have : 0 ≤ u k 0 ∧ u k 0 ≤ 1 := by unfold u; split_ifs <;> norm_num
    simp only [x, Pi.add_apply, Pi.one_apply]
    push_cast
    constructor <;> linarith [ih.1, ih.2]

theorem run (F : Ifcn ℚ dd) (n : Nat) (hn : n ≤ 50) :
    ((cfg F).collTask 1 1 unitTau 1).NoiseFree n x u P (fun _ _ _ => Fin.elim0) (fun _ => Fin.elim0) (fun _ => 1) Fin.elim0 where
  dynamics := by
    intro k _
    refine euler_line ?_ (Subsingleton.elim (α := Fin 0 → ℚ) _ _) (Subsingleton.elim (α := Fin 0 → ℚ) _ _)
    funext e
    simp [MheCfg.collTask, MheCfg.task, cfg, model, x, MheCfg.cat]
  constraints := by
    intro k _ call hc i _
    simp only [MheCfg.collTask, MheCfg.task, cfg, List.mem_singleton] at hc
    subst hc
    simp only [Bound.ge]
    have := (x_bounds k).1
    linarith
  states := by
    intro k hk j
    refine ⟨trivial, ?_⟩
    rw [Subsingleton.elim j 0]
    show x k 0 ≤ 100
    have h1 := (x_bounds k).2
    have h2 : (k : ℚ) ≤ 50 := by exact_mod_cast hk.trans hn
    linarith
  inside := by
    intro k hk i hi j hj hij e
    refine ⟨trivial, ?_⟩
    have hi : i < 1 := hi
    have hj : j ≤ 1 := hj
    have hj1 : j = 1 := by omega
    subst hj1
    rw [Subsingleton.elim e 0]
    show valueAt (line (x k) (x (k + 1))) (unitTau 1) 0 ≤ 100
    rw [line_value]
    have h1 := (x_bounds (k + 1)).2
    have h2 : ((k + 1 : Nat) : ℚ) ≤ 50 := by exact_mod_cast (show k + 1 ≤ 50 by omega)
    simp only [unitTau, Nat.cast_one, mul_one]
    linarith
  algebraic := fun k _ i _ j _ e => e.elim0
  inputs := by
    intro k _ j
    refine ⟨?_, trivial⟩
    show (0 : ℚ) ≤ u k j
    unfold u; split_ifs <;> norm_num
  params := by
    intro j
    refine ⟨trivial, ?_⟩
    show (1 : ℚ) ≤ 5
    norm_num

/-- a solver that finds a global minimiser if there is one -/
noncomputable def solver (F : Ifcn ℚ dd) (a : MheArgs ℚ dd 1 0) : MheResult ℚ dd 1 0 where
  x := open Classical in if h : ∃ o, (cfg F).Solves o a.p then h.choose else a.x0
  lamG := Fin.elim0
  lamX := []
  stats := []

theorem solver_finds (F : Ifcn ℚ dd) (a : MheArgs ℚ dd 1 0) (h : ∃ o, (cfg F).Solves o a.p) : (cfg F).Solves (solver F a).x a.p := by
  unfold solver
  simp only [dif_pos h]
  exact h.choose_spec

/-- the estimator with exact priors after the first measurement -/
def st (F : Ifcn ℚ dd) : MheSt ℚ dd 1 0 :=
  { (env F).fresh 0 (fun _ => 0) (fun _ => 0) Fin.elim0 (fun _ => 1) with
    data := ((Data.new ((env F).fields 0)).update [("_y", .arr [2, 1])]).1 }
/-- forty calls with the plant's measurements -/
noncomputable def calls (F : Ifcn ℚ dd) : List (MheCall ℚ dd 1 0 (env F).nLagr) := (List.range 40).map fun i => ⟨solver F, [x (i + 2) 0, u (i + 1) 0]⟩

theorem measured (F : Ifcn ℚ dd) (k : Nat) :
    List.ofFn (((cfg F).collTask 1 1 unitTau 1).measuredAt x u (fun _ _ _ => Fin.elim0) (fun _ => Fin.elim0) (fun _ => 1) Fin.elim0 k) = [x (k + 1) 0, u k 0] := by
  show List.ofFn (n := 2) (fun j => if j = 0 then x (k + 1) 0 + 0 else u k 0) = _
  simp [List.ofFn_succ]

end MheCollEx

open MheCollEx in
/-- Non-vacuity of C80: all hypotheses hold for the run above; the forty calls return the plant's states exactly. -/
example : ∃ F, (cfg F).CollPlain 1 1 unitTau 1 ∧ ∃ xs : List (Vec ℚ 1), (env F).outputs (st F) (calls F) = xs.map .ok ∧
    xs = (List.range 40).map (fun i => x (i + 2)) ∧ ((env F).after (st F) (calls F)).pEst0 = fun _ => 1 := by
  obtain ⟨⟨F, hF, _⟩, _⟩ := C11_bookkeeping model (fun _ => 2) (fun _ => 1) Fin.elim0 (fun _ => 1) 1 1 unitTau 1 one_pos
  have hlen : (calls F).length = 40 := by simp [calls]
  have hfields : (st F).data.fields = (env F).fields 0 := Data.update_fields _ _
  have hw := (mhe_width_standard (env F) 0 (st F).data hfields).2.1
  obtain ⟨xs, hxs⟩ := C81_estimator_runs (env F) (by simp [env]) (st F) 0 hfields rfl (calls F)
    (by
      intro c hc
      obtain ⟨i, -, rfl⟩ := List.mem_map.mp hc
      exact ⟨rfl, fun a s hs => absurd hs List.not_mem_nil⟩)
  refine ⟨F, plain hF, xs, hxs, ?_⟩
  have := C80_exact_estimates_partial (env F) (plain hF) (by simp [env]) (definite F) (determined F) x u P (fun _ _ _ => Fin.elim0) (fun _ => Fin.elim0)
    (fun _ => 1) Fin.elim0 (st F) hw rfl (calls F) xs hxs (run F _ (by rw [hlen]; show 2 - 1 + 40 ≤ 50; decide)) ?_ [] (by simp) ?_ ?_
    (fun _ _ _ _ => Subsingleton.elim (α := Fin 0 → ℚ) _ _) (fun _ _ => Subsingleton.elim (α := Fin 0 → ℚ) _ _) ?_ rfl
  · rw [hlen] at this
    exact this
  · intro i hi a _ h
    obtain ⟨j, -, e⟩ := List.mem_map.mp (List.getElem_mem hi)
    rw [← e]
    exact solver_finds F a h
  · have e : (st F).data.rows "_y" = [[2, 1]] := by
      unfold st
      dsimp only
      rw [update_y _ _ rfl]
      rfl
    rw [e]
    show [[(2 : ℚ), 1]] = [] ++ (List.range 1).map _
    simp only [env, List.range_one, List.map_cons, List.map_nil, measured, List.nil_append]
    simp [x, u]
    norm_num
  · intro i hi
    have e : (calls F)[i].y0 = [x (i + 2) 0, u (i + 1) 0] := by simp [calls]
    rw [e]
    have : (env F).cfg.N - 1 + i = i + 1 := by show 2 - 1 + i = i + 1; omega
    rw [this]
    exact (measured F (i + 1)).symm
  · funext j
    show (0 : ℚ) * 2 = x 0 j
    simp [x]

/-! ## measured algebraic states -/
namespace MheAlgEx

abbrev da : Dims := ⟨1, 0, 1, 0, 0, 0, 1, 1, 0⟩
/-- `x' = 1`, `0 = z - x`, `y = z + v` -/
def model : DaeModel ℚ da where
  rhs := fun _ _ _ _ _ _ => 1
  alg := fun x _ z _ _ _ => z - x
  meas := fun _ _ z _ _ v => z + v
  aux := fun _ _ _ _ _ => Fin.elim0
/-- window of one interval, no bounds -/
def cfg (F : Ifcn ℚ da) : MheCfg ℚ da 0 0 where
  N := 1
  model := model
  ifcn := F
  sel := Fin.elim0
  sx := fun _ => 1
  su := Fin.elim0
  sz := fun _ => 1
  sp := Fin.elim0
  xlb := fun _ => .ninf
  xub := fun _ => .pinf
  ulb := fun _ => .ninf
  uub := fun _ => .pinf
  zlb := fun _ => .ninf
  zub := fun _ => .pinf
  plb := fun _ => .ninf
  pub := fun _ => .pinf
  nl := []
  stage := fun _ v _ _ => v 0 ^ 2
  arrival := fun x xp _ _ _ => (x 0 - xp 0) ^ 2

theorem base {F : Ifcn ℚ da} (hF : setupCollocation model (fun _ => 1) Fin.elim0 (fun _ => 1) Fin.elim0 1 1 unitTau 1 = .ok F) :
    (cfg F).CollBase 1 1 unitTau 1 where
  setup := by
    have : (cfg F).pScaling = Fin.elim0 := Subsingleton.elim (α := Fin 0 → ℚ) _ _
    rw [this]; exact hF
  tau0 := by simp [unitTau]
  tauInj := by intro i _ j _ h; simpa [unitTau] using h
  nlColloc := rfl
  consColloc := rfl
  names := List.nodup_nil
  sp := Subsingleton.elim (α := Fin 0 → ℚ) _ _
  sx := fun _ => (one_pos : (0 : ℚ) < 1)
  su := fun i => i.elim0
  sz := fun _ => (one_pos : (0 : ℚ) < 1)
  N := one_pos

theorem definite (F : Ifcn ℚ da) : (cfg F).task.DefiniteCosts := by
  refine ⟨?_, ?_, fun call hc => by simp [MheCfg.task, cfg] at hc⟩
  · intro w v tv p
    refine ⟨sq_nonneg _, ?_⟩
    change v 0 ^ 2 = 0 ↔ _
    rw [sq_eq_zero_iff]
    constructor
    · intro h
      exact ⟨Subsingleton.elim (α := Fin 0 → ℚ) _ _, funext fun i => by rw [Subsingleton.elim i 0]; exact h⟩
    · rintro ⟨_, rfl⟩; rfl
  · intro x xp p pp g
    refine ⟨sq_nonneg _, ?_⟩
    change (x 0 - xp 0) ^ 2 = 0 ↔ _
    rw [sq_eq_zero_iff, sub_eq_zero]
    constructor
    · intro h
      exact ⟨funext fun i => by rw [Subsingleton.elim i 0]; exact h, Subsingleton.elim (α := Fin 0 → ℚ) _ _⟩
    · rintro ⟨rfl, _⟩; rfl

theorem determined (F : Ifcn ℚ da) : ((cfg F).collTask 1 1 unitTau 1).InputsDetermined := by
  constructor
  · intros; exact Subsingleton.elim (α := Fin 0 → ℚ) _ _
  · intro x u tv p x1 x2 P1 P2 ζ1 ζ2 h1 h2
    rw [euler_step h1, euler_step h2]
    rfl

/-- the plant: `x(t) = z(t) = t` -/
def x (k : Nat) : Vec ℚ 1 := fun _ => k
noncomputable def P (k : Nat) : Nat → Fin 1 → ℚ[X] := fun _ => line (x k) (x (k + 1))
def ζ (k : Nat) : Nat → Nat → Vec ℚ 1 := fun _ j => x (k + j)

theorem run (F : Ifcn ℚ da) (n : Nat) : ((cfg F).collTask 1 1 unitTau 1).NoiseFree n x (fun _ => Fin.elim0) P ζ (fun _ => Fin.elim0) Fin.elim0 Fin.elim0 where
  dynamics := by
    intro k _
    refine euler_line ?_ ?_ ?_
    · funext e
      show ((k + 1 : Nat) : ℚ) = k + 1
      push_cast; ring
    · funext e; show x (k + 0) e - x k e = 0; simp
    · funext e; show x (k + 1) e - x (k + 1) e = 0; simp
  constraints := fun _ _ call hc => by simp [MheCfg.collTask, MheCfg.task, cfg] at hc
  states := fun _ _ _ => ⟨trivial, trivial⟩
  inside := fun _ _ _ _ _ _ _ _ => ⟨trivial, trivial⟩
  algebraic := fun _ _ _ _ _ _ _ => ⟨trivial, trivial⟩
  inputs := fun _ _ j => j.elim0
  params := fun j => j.elim0

/-- what the code makes of it -/
theorem feasible {F : Ifcn ℚ da} (hb : (cfg F).CollBase 1 1 unitTau 1) (o : MheX ℚ da 0) (q : MheP ℚ da 0 0) (hy : q.yMeas 0 = 1) (ho : (cfg F).Feasible o q) :
    (cfg F).X o 1 = (cfg F).X o 0 + 1 ∧ o.v 0 = 1 - (cfg F).X o 0 := by
  obtain ⟨h1, h2, -⟩ := (hb.feasible_iff o q).mp ho
  obtain ⟨P, hP, -⟩ := h1 0 one_pos
  have e1 : (cfg F).X o 1 = (cfg F).X o 0 + 1 := euler_step hP
  refine ⟨e1, ?_⟩
  have ha := hP.algebraic 0 one_pos 0 (Nat.zero_le _)
  have hs : valueAt (P 0) (unitTau 0) = (cfg F).X o 0 := by
    have : unitTau 0 = 0 := by simp [unitTau]
    rw [this]; exact hP.start
  rw [hs] at ha
  have hz : (cfg F).Z o 0 = (cfg F).X o 0 := sub_eq_zero.mp ha
  have hm := h2 0 one_pos
  rw [hy] at hm
  have hm' : (cfg F).Z o 0 + o.v 0 = 1 := hm
  rw [hz] at hm'
  exact eq_sub_of_add_eq' hm'

theorem obj (F : Ifcn ℚ da) (o : MheX ℚ da 0) (q : MheP ℚ da 0 0) (hx : q.xPrev = 0) :
    (cfg F).obj o q = (cfg F).X o 0 0 ^ 2 + o.v 0 0 ^ 2 := by
  simp [MheCfg.obj, cfg, epsTerm, slackVars, MheCfg.X, hx]

/-- half of the error is blamed on the prior -/
def half : MheX ℚ da 0 := ⟨fun k _ _ => k + 1/2, fun _ i _ => i + 1/2, fun _ => Fin.elim0, fun _ => Fin.elim0, fun _ _ => 1/2, fun _ _ _ => 0, Fin.elim0⟩

theorem half_feasible {F : Ifcn ℚ da} (hb : (cfg F).CollBase 1 1 unitTau 1) (q : MheP ℚ da 0 0) (hy : q.yMeas 0 = 1) : (cfg F).Feasible half q := by
  rw [hb.feasible_iff]
  have hx : ∀ k i, (cfg F).xPhys half k i = fun _ => (k : ℚ) + 1/2 := by intro k i; funext e; exact mul_one _
  have hX : ∀ k, (cfg F).X half k = fun _ => (k : ℚ) + 1/2 := fun k => hx k _
  have hz : ∀ k i, (cfg F).zPhys half k i = fun _ => (i : ℚ) + 1/2 := by intro k i; funext e; exact mul_one _
  refine ⟨?_, ?_, fun k _ call hc => by simp [cfg] at hc, fun _ _ _ _ _ => ⟨trivial, trivial⟩, fun _ _ _ _ _ => ⟨trivial, trivial⟩, fun _ _ j => j.elim0,
    fun k _ call hc => by simp [cfg] at hc, fun j => j.elim0⟩
  · intro k hk
    have hk : k = 0 := by have : k < 1 := hk; omega
    subst hk
    refine ⟨fun _ => line ((cfg F).X half 0) ((cfg F).X half 1), ?_, ?_, rfl⟩
    · refine euler_line ?_ ?_ ?_
      · rw [hX, hX]; funext e; show ((0 + 1 : Nat) : ℚ) + 1/2 = ((0 : Nat) : ℚ) + 1/2 + 1; norm_num
      · rw [hX, hz]; exact sub_eq_zero.mpr (by simp)
      · rw [hX, hz]; exact sub_eq_zero.mpr (by simp)
    · intro i hi j hj hij
      have hj1 : j = 1 := by omega
      have hi : i = 0 := by omega
      subst hj1 hi
      rw [line_value, hX, hX, hx]
      funext e
      simp [unitTau]
      norm_num
  · intro k hk
    have hk : k = 0 := by have : k < 1 := hk; omega
    subst hk
    rw [hy]
    show (cfg F).zPhys half 0 0 + half.v 0 = 1
    rw [hz]
    funext e
    show ((0 : Nat) : ℚ) + 1/2 + 1/2 = 1
    norm_num

/-- prior 0, measurement 1: there is a minimiser, and every minimiser ends in 3/2 -/
theorem estimates {F : Ifcn ℚ da} (hb : (cfg F).CollBase 1 1 unitTau 1) (q : MheP ℚ da 0 0) (hx : q.xPrev = 0) (hy : q.yMeas 0 = 1) :
    (∃ o, (cfg F).Solves o q) ∧ ∀ o, (cfg F).Solves o q → (cfg F).X o 1 = fun _ => 3/2 := by
  have hhX : (cfg F).X half 0 0 = 1/2 := by
    show (((0 : Nat) : ℚ) + 1/2) * 1 = 1/2
    norm_num
  have hhv : half.v 0 0 = 1/2 := rfl
  have hf := half_feasible hb q hy
  refine ⟨⟨half, hf, ?_⟩, ?_⟩
  · intro o ho
    obtain ⟨-, h2⟩ := feasible hb o q hy ho
    have h3 : o.v 0 0 = 1 - (cfg F).X o 0 0 := congrFun h2 0
    rw [obj F _ q hx, obj F _ q hx, hhX, hhv, h3]
    nlinarith [sq_nonneg ((cfg F).X o 0 0 - 1/2)]
  · rintro o ⟨ho, hmin⟩
    obtain ⟨h1, h2⟩ := feasible hb o q hy ho
    have h3 : o.v 0 0 = 1 - (cfg F).X o 0 0 := congrFun h2 0
    have h4 := hmin half hf
    rw [obj F _ q hx, obj F _ q hx, hhX, hhv, h3] at h4
    have h5 : ((cfg F).X o 0 0 - 1/2) ^ 2 = 0 := le_antisymm (by nlinarith) (sq_nonneg _)
    have h6 : (cfg F).X o 0 0 = 1/2 := by have := sq_eq_zero_iff.mp h5; linarith
    funext e
    rw [Subsingleton.elim e 0]
    have := congrFun h1 0
    rw [this]
    show (cfg F).X o 0 0 + 1 = 3/2
    rw [h6]; norm_num

end MheAlgEx

open MheAlgEx in
/-- **C80 fails** if the measurements depend on algebraic states: for a continuous-time model the estimator pairs the state at the end of the interval with the algebraic
state at its *beginning*.  `x' = 1`, `0 = z - x`, `y = z + v`; the plant without noise is at 0 and then at 1 and measured exactly, the prior is exact, the costs are definite; the problem has
a global minimiser, and every global minimiser estimates the final state as 3/2 instead of 1. -/
theorem C80_fails_algebraic_measurement : ∃ (F : Ifcn ℚ da) (q : MheP ℚ da 0 0),
    (cfg F).CollBase 1 1 unitTau 1 ∧ (cfg F).task.DefiniteCosts ∧ ((cfg F).collTask 1 1 unitTau 1).InputsDetermined ∧
    ((cfg F).collTask 1 1 unitTau 1).NoiseFree 1 x (fun _ => Fin.elim0) P ζ (fun _ => Fin.elim0) Fin.elim0 Fin.elim0 ∧ q.xPrev = x 0 ∧
    q.yMeas 0 = ((cfg F).collTask 1 1 unitTau 1).measuredAt x (fun _ => Fin.elim0) ζ (fun _ => Fin.elim0) Fin.elim0 Fin.elim0 0 ∧
    (∃ o, (cfg F).Solves o q) ∧ ∀ o, (cfg F).Solves o q → (cfg F).X o 1 = fun _ => 3/2 := by
  obtain ⟨⟨F, hF, _⟩, _⟩ := C11_bookkeeping model (fun _ => 1) Fin.elim0 (fun _ => 1) Fin.elim0 1 1 unitTau 1 one_pos
  have hb := base hF
  let q : MheP ℚ da 0 0 := ⟨0, Fin.elim0, Fin.elim0, fun _ => Fin.elim0, fun _ => 1⟩
  refine ⟨F, q, hb, definite F, determined F, run F 1, ?_, ?_, estimates hb q rfl rfl⟩
  · funext e; simp [x, q]
  · funext e
    show (1 : ℚ) = ((0 + 1 : Nat) : ℚ) + 0
    norm_num

end DoMpc
