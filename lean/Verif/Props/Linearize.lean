import Verif.Model.Linearize
import Verif.Props.LinearModel
import Mathlib.Analysis.Calculus.FDeriv.Prod
import Mathlib.Analysis.Calculus.FDeriv.Add
import Mathlib.Analysis.Calculus.FDeriv.Comp
import Mathlib.Analysis.Calculus.FDeriv.Linear
import Mathlib.Analysis.Calculus.FDeriv.Pow

/-! # C33: linearisation -/
set_option linter.unusedSectionVars false
namespace DoMpc
open Matrix
variable {nx nu ny : Nat}

/-! ## lemmas -/

/-- what linearisation makes of given Jacobians -/
theorem linearizeWith_is (dup) (states : List (String × Nat)) (d : Bool) (hn : (states.map (·.1)).Nodup) (hdef : "default" ∉ states.map (·.1)) (hs : (states.map (·.2)).sum = nx)
    (A : Matrix (Fin nx) (Fin nx) ℝ) (B : Matrix (Fin nx) (Fin nu) ℝ) (C : Matrix (Fin ny) (Fin nx) ℝ) (D : Matrix (Fin ny) (Fin nu) ℝ)
    (hCD : ∀ h : ny = nx, C.submatrix (Fin.cast h.symm) id = 1 → D = 0) :
    ∃ m, linearizeWith (nx := nx) (nu := nu) dup states d (.of A) (.of B) (.of C) (.of D) = .ok m ∧ m.discrete = d ∧ m.Is A B C D := by
  by_cases h : ny = nx
  · subst h
    by_cases hC : C = 1
    · have hD : D = 0 := hCD rfl hC
      subst hC; subst hD
      have : dropTrivial ny nu (.of (1 : Matrix (Fin ny) (Fin ny) ℝ)) (.of (0 : Matrix (Fin ny) (Fin nu) ℝ)) = (none, none) := by
        simp [dropTrivial]
      unfold linearizeWith
      rw [this]
      exact C31_setup_state_feedback dup { states := states } d hn hs rfl rfl hdef A B
    · by_cases hD : D = 0
      · subst hD
        have : dropTrivial ny nu (.of C) (.of (0 : Matrix (Fin ny) (Fin nu) ℝ)) = (some (.of C), none) := by simp [dropTrivial, hC]
        unfold linearizeWith
        rw [this]
        exact C31_setup_no_D dup { states := states } d hn hs rfl rfl A B C
      · have : dropTrivial ny nu (.of C) (.of D) = (some (.of C), some (.of D)) := by simp [dropTrivial, hC, hD]
        unfold linearizeWith
        rw [this]
        exact C31_setup dup { states := states } d hn hs rfl rfl A B C D
  · have : dropTrivial nx nu (.of C) (.of D) = (some (.of C), some (.of D)) := by simp [dropTrivial, h]
    unfold linearizeWith
    rw [this]
    exact C31_setup dup { states := states } d hn hs rfl rfl A B C D

/-- the Jacobians of `A x + B u + c` -/
theorem jacobian_affine {n : Nat} (A : Matrix (Fin n) (Fin nx) ℝ) (B : Matrix (Fin n) (Fin nu) ℝ) (c : Vec ℝ n) (x : Vec ℝ nx) (u : Vec ℝ nu) :
    jacobianX (fun x u => A *ᵥ x + B *ᵥ u + c) x u = A ∧ jacobianU (fun x u => A *ᵥ x + B *ᵥ u + c) x u = B := by
  have hd : ∀ {k : Nat} (M : Matrix (Fin n) (Fin k) ℝ) (w : Vec ℝ n) (y : Vec ℝ k),
      fderiv ℝ (fun y' => M *ᵥ y' + w) y = LinearMap.toContinuousLinearMap (Matrix.toLin' M) := by
    intro k M w y
    have h1 : HasFDerivAt (fun y' : Vec ℝ k => M *ᵥ y') (LinearMap.toContinuousLinearMap (Matrix.toLin' M)) y :=
      (LinearMap.toContinuousLinearMap (Matrix.toLin' M)).hasFDerivAt
    exact (h1.add_const w).fderiv
  constructor
  · unfold jacobianX
    have h : (fun x' : Vec ℝ nx => A *ᵥ x' + B *ᵥ u + c) = fun x' => A *ᵥ x' + (B *ᵥ u + c) := by funext x'; rw [add_assoc]
    rw [h, hd]
    simp
  · unfold jacobianU
    have h : (fun u' : Vec ℝ nu => A *ᵥ x + B *ᵥ u' + c) = fun u' => B *ᵥ u' + (A *ᵥ x + c) := by funext u'; abel
    rw [h, hd]
    simp

/-- `A dx + B du` is the total derivative -/
theorem fderiv_jacobian {n : Nat} (g : Vec ℝ nx → Vec ℝ nu → Vec ℝ n) (x : Vec ℝ nx) (u : Vec ℝ nu)
    (hg : DifferentiableAt ℝ (fun w : Vec ℝ nx × Vec ℝ nu => g w.1 w.2) (x, u)) (d : Vec ℝ nx × Vec ℝ nu) :
    fderiv ℝ (fun w : Vec ℝ nx × Vec ℝ nu => g w.1 w.2) (x, u) d = jacobianX g x u *ᵥ d.1 + jacobianU g x u *ᵥ d.2 := by
  have hx : fderiv ℝ (fun x' => g x' u) x = (fderiv ℝ (fun w : Vec ℝ nx × Vec ℝ nu => g w.1 w.2) (x, u)).comp (ContinuousLinearMap.inl ℝ _ _) := by
    have h1 : HasFDerivAt (fun x' : Vec ℝ nx => (x', u)) (ContinuousLinearMap.inl ℝ _ _) x := hasFDerivAt_prodMk_left x u
    exact (HasFDerivAt.comp (g := fun w : Vec ℝ nx × Vec ℝ nu => g w.1 w.2) x hg.hasFDerivAt h1).fderiv
  have hu : fderiv ℝ (fun u' => g x u') u = (fderiv ℝ (fun w : Vec ℝ nx × Vec ℝ nu => g w.1 w.2) (x, u)).comp (ContinuousLinearMap.inr ℝ _ _) := by
    have h1 : HasFDerivAt (fun u' : Vec ℝ nu => (x, u')) (ContinuousLinearMap.inr ℝ _ _) u := hasFDerivAt_prodMk_right x u
    exact (HasFDerivAt.comp (g := fun w : Vec ℝ nx × Vec ℝ nu => g w.1 w.2) u hg.hasFDerivAt h1).fderiv
  unfold jacobianX jacobianU
  rw [← Matrix.toLin'_apply, ← Matrix.toLin'_apply, Matrix.toLin'_toMatrix', Matrix.toLin'_toMatrix', hx, hu]
  simp only [ContinuousLinearMap.coe_coe, ContinuousLinearMap.comp_apply, ContinuousLinearMap.inl_apply, ContinuousLinearMap.inr_apply]
  rw [← map_add]
  simp

/-! ## the property -/

/-- **C33, partial.**  Linearising a model with right-hand side `A x + B u + c` and measurement `C x + D u + e` at any point returns the linear
model with the matrices `A`, `B`, `C`, `D`.  Missing: `C = I` together with `D ≠ 0` (`C33_fails_identity_C_with_D`). -/
theorem C33_partial (dup) (states : List (String × Nat)) (d : Bool) (hn : (states.map (·.1)).Nodup) (hdef : "default" ∉ states.map (·.1)) (hs : (states.map (·.2)).sum = nx)
    (A : Matrix (Fin nx) (Fin nx) ℝ) (B : Matrix (Fin nx) (Fin nu) ℝ) (c : Vec ℝ nx) (C : Matrix (Fin ny) (Fin nx) ℝ) (D : Matrix (Fin ny) (Fin nu) ℝ)
    (e : Vec ℝ ny) (hCD : ∀ h : ny = nx, C.submatrix (Fin.cast h.symm) id = 1 → D = 0) (xss : Vec ℝ nx) (uss : Vec ℝ nu) :
    ∃ m, linearize dup states d ⟨fun x u => A *ᵥ x + B *ᵥ u + c, fun x u => C *ᵥ x + D *ᵥ u + e⟩ xss uss = .ok m ∧ m.discrete = d ∧ m.Is A B C D := by
  unfold linearize
  simp only [(jacobian_affine A B c xss uss).1, (jacobian_affine A B c xss uss).2, (jacobian_affine C D e xss uss).1, (jacobian_affine C D e xss uss).2]
  exact linearizeWith_is dup states d hn hdef hs A B C D hCD

/-- **C33 (nonlinear models).**  Linearising a differentiable model returns a linear model whose right-hand side and measurement reproduce the
deviations from the operating point to first order. -/
theorem C33_first_order (dup) (states : List (String × Nat)) (d : Bool) (hn : (states.map (·.1)).Nodup) (hdef : "default" ∉ states.map (·.1)) (hs : (states.map (·.2)).sum = nx)
    (m : SmoothModel nx nu ny) (xss : Vec ℝ nx) (uss : Vec ℝ nu)
    (hf : DifferentiableAt ℝ (fun w : Vec ℝ nx × Vec ℝ nu => m.f w.1 w.2) (xss, uss))
    (hh : DifferentiableAt ℝ (fun w : Vec ℝ nx × Vec ℝ nu => m.h w.1 w.2) (xss, uss))
    (hCD : ∀ h : ny = nx, (jacobianX m.h xss uss).submatrix (Fin.cast h.symm) id = 1 → jacobianU m.h xss uss = 0) :
    ∃ (l : LinModel ℝ nx nu) (F : Vec ℝ nx → Vec ℝ nu → Vec ℝ nx) (H : Vec ℝ nx → Vec ℝ nu → Vec ℝ ny), linearize dup states d m xss uss = .ok l ∧ l.discrete = d ∧ (∀ x u, l.f x u = List.ofFn (F x u)) ∧ (∀ x u, l.h x u = List.ofFn (H x u)) ∧
      (fun w : Vec ℝ nx × Vec ℝ nu => m.f w.1 w.2 - m.f xss uss - F (w.1 - xss) (w.2 - uss)) =o[nhds (xss, uss)] (fun w => w - (xss, uss)) ∧
      (fun w : Vec ℝ nx × Vec ℝ nu => m.h w.1 w.2 - m.h xss uss - H (w.1 - xss) (w.2 - uss)) =o[nhds (xss, uss)] (fun w => w - (xss, uss)) := by
  obtain ⟨l, h1, h2, h3⟩ := linearizeWith_is dup states d hn hdef hs (jacobianX m.f xss uss) (jacobianU m.f xss uss) (jacobianX m.h xss uss)
    (jacobianU m.h xss uss) hCD
  refine ⟨l, fun x u => jacobianX m.f xss uss *ᵥ x + jacobianU m.f xss uss *ᵥ u, fun x u => jacobianX m.h xss uss *ᵥ x + jacobianU m.h xss uss *ᵥ u,
    h1, h2, h3.rhs, h3.meas, ?_, ?_⟩
  · have := hf.hasFDerivAt.isLittleO
    refine this.congr_left fun w => ?_
    rw [fderiv_jacobian m.f xss uss hf]
    rfl
  · have := hh.hasFDerivAt.isLittleO
    refine this.congr_left fun w => ?_
    rw [fderiv_jacobian m.h xss uss hh]
    rfl

/-- A scalar nonlinear model, `x⁺ = x² + u`, `y = 3 x + u`, meets the hypotheses. -/
example (xss : Vec ℝ 1) (uss : Vec ℝ 1) :
    let m : SmoothModel 1 1 1 := ⟨fun x u => fun i => x i ^ 2 + u i, fun x u => (3 : ℝ) • x + u⟩
    DifferentiableAt ℝ (fun w : Vec ℝ 1 × Vec ℝ 1 => m.f w.1 w.2) (xss, uss) ∧
    DifferentiableAt ℝ (fun w : Vec ℝ 1 × Vec ℝ 1 => m.h w.1 w.2) (xss, uss) ∧
    (∀ h : 1 = 1, (jacobianX m.h xss uss).submatrix (Fin.cast h.symm) id = 1 → jacobianU m.h xss uss = 0) := by
  refine ⟨?_, ?_, ?_⟩
  · fun_prop
  · fun_prop
  · intro _ h
    have h3 : (fun (x : Vec ℝ 1) (u : Vec ℝ 1) => (3 : ℝ) • x + u) = fun x u => ((3 : ℝ) • (1 : Matrix (Fin 1) (Fin 1) ℝ)) *ᵥ x + (1 : Matrix (Fin 1) (Fin 1) ℝ) *ᵥ u + 0 := by
      funext x u; simp [smul_mulVec]
    simp only [h3, (jacobian_affine _ _ _ xss uss).1] at h
    have := congrFun (congrFun h 0) 0
    simp at this

/-- **C33 is false for `C = I` with feed-through**: the identity `C` is dropped before `D u` is added to it, and the call raises a `TypeError`,
for every such model. -/
theorem C33_fails_identity_C_with_D (dup) (states : List (String × Nat)) (d : Bool) (A : Matrix (Fin nx) (Fin nx) ℝ) (B : Matrix (Fin nx) (Fin nu) ℝ)
    (c e : Vec ℝ nx) (D : Matrix (Fin nx) (Fin nu) ℝ) (hD : D ≠ 0) (xss : Vec ℝ nx) (uss : Vec ℝ nu) :
    linearize dup states d ⟨fun x u => A *ᵥ x + B *ᵥ u + c, fun x u => x + D *ᵥ u + e⟩ xss uss = .error "TypeError" := by
  have h1 : (fun (x : Vec ℝ nx) (u : Vec ℝ nu) => x + D *ᵥ u + e) = fun x u => (1 : Matrix (Fin nx) (Fin nx) ℝ) *ᵥ x + D *ᵥ u + e := by
    funext x u; rw [one_mulVec]
  unfold linearize
  simp only [h1, (jacobian_affine 1 D e xss uss).1, (jacobian_affine 1 D e xss uss).2]
  have : dropTrivial nx nu (.of (1 : Matrix (Fin nx) (Fin nx) ℝ)) (.of D) = (none, some (.of D)) := by simp [dropTrivial, hD]
  unfold linearizeWith
  rw [this]
  rfl

end DoMpc
