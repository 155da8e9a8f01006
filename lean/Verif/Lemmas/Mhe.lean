import Verif.Model.Mhe
import Verif.Lemmas.Mpc
import Verif.Spec.Mhe

/-! Rows and bounds of the estimation problem. -/
set_option linter.unusedSectionVars false
namespace DoMpc
open Spec
variable {K : Type} [Field K] [LinearOrder K] {d : Dims} {ne ns : Nat}

theorem mheNlRows_holds (calls : List (NlCall K d)) (hn : (calls.map (·.name)).Nodup)
    (x : Vec K d.nx) (u : Vec K d.nu) (z : Vec K d.nz) (tv : Vec K d.ntv) (p : Vec K d.np) (e : Eps K) :
    (∀ r ∈ nlRows calls x u z tv p e, r.Holds) ↔
      ∀ call ∈ calls, ∀ i < call.dim, if call.soft then call.ub.ge (call.expr x u z tv p i - e call.name i)
        else call.ub.ge (call.expr x u z tv p i) := by
  unfold nlRows
  simp only [List.mem_flatMap, List.mem_map, List.mem_range, forall_exists_index, and_imp]
  constructor
  · intro H call hc i hi
    have := (H _ call hc i hi rfl).2
    simp only [nlConsValue_eq calls hn call hc] at this
    split_ifs with hs
    · simpa [hs] using this
    · simpa [hs] using this
  · rintro H r call hc i hi rfl
    refine ⟨trivial, ?_⟩
    simp only [nlConsValue_eq calls hn call hc]
    have := H call hc i hi
    split_ifs at this with hs
    · simpa [hs] using this
    · simpa [hs] using this

namespace MheCfg
variable (cfg : MheCfg K d ne ns)

/-- physical trajectories read off the solver's point -/
def X (o : MheX K d ne) (k : Nat) : Vec K d.nx := cfg.xPhys o k cfg.xLast
def U (o : MheX K d ne) (k : Nat) : Vec K d.nu := cfg.uPhys o k
def Z (o : MheX K d ne) (k : Nat) : Vec K d.nz := cfg.zPhys o k 0
/-- the model's parameter vector in physical units -/
def par (o : MheX K d ne) (q : MheP K d ne ns) : Vec K d.np := cfg.cat (cfg.pEstPhys o) q.pSet
/-- slack of interval `k` -/
def E (o : MheX K d ne) (k : Nat) : Eps K := o.eps (cfg.kEps k)

theorem pCat_mul (o : MheX K d ne) (q : MheP K d ne ns) : cfg.pCat o q * cfg.pScaling = cfg.par o q := by
  funext i
  simp only [pCat, pScaling, par, cat, pEstPhys, Pi.mul_apply]
  cases cfg.sel i <;> simp

theorem par_of_one (hsp : cfg.sp = 1) (o : MheX K d ne) (q : MheP K d ne ns) : cfg.par o q = cfg.pCat o q := by
  simp [par, pCat, pEstPhys, hsp]

theorem rows_fold (o : MheX K d ne) (q : MheP K d ne ns) (n : Nat) (h : cfg.nlColloc = false ∨ cfg.ifcn.ncoll ≠ 0) :
    ∃ rs, (List.range n).foldl (fun acc k =>
        match acc with
        | .error e => .error e
        | .ok rs =>
          match cfg.nlRowsAt o q k with
          | .error e => .error e
          | .ok nl => .ok (rs ++ (cfg.dynRows o q k ++ cfg.measRows o q k ++ nl))) (Except.ok []) = Except.ok (ε := String) rs ∧
      ((∀ r ∈ rs, r.Holds) ↔ ∀ k < n, (∀ r ∈ cfg.dynRows o q k, r.Holds) ∧ (∀ r ∈ cfg.measRows o q k, r.Holds) ∧
        ∃ nl, cfg.nlRowsAt o q k = .ok nl ∧ ∀ r ∈ nl, r.Holds) := by
  induction n with
  | zero => exact ⟨[], rfl, by simp⟩
  | succ n ih =>
    obtain ⟨rs, hrs, hiff⟩ := ih
    obtain ⟨nl, hnl⟩ : ∃ nl, cfg.nlRowsAt o q n = .ok nl := by
      unfold nlRowsAt
      rcases h with h | h
      · simp [h]
      · split_ifs <;> exact ⟨_, rfl⟩
    refine ⟨rs ++ (cfg.dynRows o q n ++ cfg.measRows o q n ++ nl), ?_, ?_⟩
    · rw [List.range_succ, List.foldl_append, hrs]
      simp only [List.foldl_cons, List.foldl_nil, hnl]
    · simp only [List.forall_mem_append, hiff]
      constructor
      · rintro ⟨H, ⟨h1, h2⟩, h3⟩ k hk
        rcases Nat.lt_succ_iff_lt_or_eq.mp hk with hk | rfl
        · exact H k hk
        · exact ⟨h1, h2, nl, hnl, h3⟩
      · intro H
        obtain ⟨h1, h2, nl', hnl', h3⟩ := H n (Nat.lt_succ_self n)
        rw [hnl] at hnl'
        injection hnl' with e
        subst e
        exact ⟨fun k hk => H k (Nat.lt_succ_of_lt hk), ⟨h1, h2⟩, h3⟩

theorem rows_spec (o : MheX K d ne) (q : MheP K d ne ns) (h : cfg.nlColloc = false ∨ cfg.ifcn.ncoll ≠ 0) :
    (∃ rs, cfg.rows o q = .ok rs ∧ ∀ r ∈ rs, r.Holds) ↔
      (∀ k < cfg.N, ∀ r ∈ cfg.dynRows o q k, r.Holds) ∧ (∀ k < cfg.N, ∀ r ∈ cfg.measRows o q k, r.Holds) ∧
        (∀ k < cfg.N, ∃ nl, cfg.nlRowsAt o q k = .ok nl ∧ ∀ r ∈ nl, r.Holds) := by
  obtain ⟨rs, hrs, hiff⟩ := cfg.rows_fold o q cfg.N h
  have : cfg.rows o q = .ok rs := hrs
  rw [this]
  constructor
  · rintro ⟨rs', he, H⟩
    injection he with he; subst he
    have := hiff.mp H
    exact ⟨fun k hk => (this k hk).1, fun k hk => (this k hk).2.1, fun k hk => (this k hk).2.2⟩
  · rintro ⟨h1, h2, h3⟩
    exact ⟨rs, rfl, hiff.mpr fun k hk => ⟨h1 k hk, h2 k hk, h3 k hk⟩⟩

variable [IsStrictOrderedRing K]

theorem dynRows_holds (o : MheX K d ne) (q : MheP K d ne ns) (k : Nat) :
    (∀ r ∈ cfg.dynRows o q k, r.Holds) ↔
      cfg.ifcn.SolvesW (o.x k cfg.xLast) (o.x (k+1)) (o.u k) (o.z k) (q.tvp k) (cfg.pCat o q) (o.w k) (o.x (k+1) cfg.xLast) := by
  unfold dynRows Ifcn.SolvesW
  simp only [List.forall_mem_append, ofFn_eq0_holds, sub_eq_zero, List.forall_mem_map, Row.eq0_holds]

theorem measRows_holds (o : MheX K d ne) (q : MheP K d ne ns) (k : Nat) :
    (∀ r ∈ cfg.measRows o q k, r.Holds) ↔
      cfg.model.meas (cfg.X o (k+1)) (cfg.U o k) (cfg.Z o k) (q.tvp k) (cfg.pCat o q) (o.v k) = q.yMeas k := by
  unfold measRows
  simp only [ofFn_eq0_holds, sub_eq_zero]
  rfl

theorem discrete_solvesW (m : DaeModel K d) (sx : Vec K d.nx) (su : Vec K d.nu) (sz : Vec K d.nz) (sp : Vec K d.np)
    (hx : ∀ i, 0 < sx i) (x x' : Vec K d.nx) (ξ : Nat → Vec K d.nx) (u : Vec K d.nu) (ζ : Nat → Vec K d.nz) (tv : Vec K d.ntv)
    (p : Vec K d.np) (w : Vec K d.nw) :
    (discreteIfcn m sx su sz sp).SolvesW x ξ u ζ tv p w x' ↔
      m.alg (x * sx) (u * su) (ζ 0 * sz) tv (p * sp) w = 0 ∧ x' * sx = m.rhs (x * sx) (u * su) (ζ 0 * sz) tv (p * sp) w := by
  unfold Ifcn.SolvesW discreteIfcn
  simp only
  apply and_congr
  · simp only [List.mem_ofFn, forall_exists_index, forall_apply_eq_imp_iff]
    exact ⟨fun H => funext H, fun H j => by rw [H]; rfl⟩
  · constructor
    · intro h; rw [← h]; funext j; simp only [Pi.mul_apply, Pi.div_apply]; exact div_mul_cancel₀ _ (hx j).ne'
    · intro h; rw [← h]; funext j; simp only [Pi.mul_apply, Pi.div_apply]; exact mul_div_cancel_right₀ _ (hx j).ne'

theorem nlRowsAt_holds (hn : (cfg.nl.map (·.name)).Nodup) (hcol : cfg.nlColloc = false) (o : MheX K d ne) (q : MheP K d ne ns) (k : Nat) :
    (∃ nl, cfg.nlRowsAt o q k = .ok nl ∧ ∀ r ∈ nl, r.Holds) ↔
      ∀ call ∈ cfg.nl, ∀ i < call.dim,
        if call.soft then call.ub.ge (call.expr (cfg.X o k) (cfg.U o k) (cfg.Z o k) (q.tvp k) (cfg.pCat o q) i - cfg.E o k call.name i)
        else call.ub.ge (call.expr (cfg.X o k) (cfg.U o k) (cfg.Z o k) (q.tvp k) (cfg.pCat o q) i) := by
  unfold nlRowsAt
  rw [if_neg (by simp [hcol])]
  have h := mheNlRows_holds cfg.nl hn (cfg.X o k) (cfg.U o k) (cfg.Z o k) (q.tvp k) (cfg.pCat o q) (cfg.E o k)
  rw [← h]
  constructor
  · rintro ⟨nl, he, H⟩
    injection he with he
    subst he
    intro r hr
    exact H r (List.mem_append_left _ hr)
  · intro H
    refine ⟨_, rfl, ?_⟩
    rw [List.forall_mem_append]
    exact ⟨H, H⟩

end MheCfg
end DoMpc
