import Verif.Model.Mpc
import Verif.Lemmas.Tree
import Mathlib.Data.List.Nodup
import Mathlib.Tactic.FieldSimp
import Mathlib.Algebra.Field.Basic

/-! Loops over the scenario tree as loops over histories. -/
set_option linter.unusedSectionVars false
namespace DoMpc
open Spec
variable {K : Type} [Field K] [LinearOrder K] {d : Dims}

theorem mem_allHistories (c m : Nat) (h : List Nat) :
    h ∈ allHistories c m ↔ h.length = m ∧ ∀ b ∈ h, b < c := by
  induction m generalizing h with
  | zero =>
    simp only [allHistories, List.mem_singleton, List.length_eq_zero_iff]
    constructor
    · rintro rfl; simp
    · exact fun hh => hh.1
  | succ m ih =>
    simp only [allHistories, List.mem_flatMap, List.mem_map, List.mem_range]
    constructor
    · rintro ⟨h', hh', b, hb, rfl⟩
      rw [ih] at hh'
      refine ⟨by simp [hh'.1], ?_⟩
      intro x hx
      simp only [List.mem_append, List.mem_singleton] at hx
      rcases hx with hx | rfl
      · exact hh'.2 x hx
      · exact hb
    · rintro ⟨hl, hb⟩
      rcases List.eq_nil_or_concat h with rfl | ⟨h2, b2, rfl⟩
      · simp at hl
      · simp only [List.concat_eq_append] at *
        refine ⟨h2, ?_, b2, hb b2 (by simp), rfl⟩
        rw [ih]
        exact ⟨by simpa using hl, fun x hx => hb x (by simp [hx])⟩

theorem mem_allHistories_iff (c nR k : Nat) (h : List Nat) :
    h ∈ allHistories c (min k nR) ↔ IsHistory c nR k h := mem_allHistories c _ h

theorem range_mul_flatMap (n c : Nat) :
    (List.range n).flatMap (fun s => (List.range c).map fun b => s * c + b) = List.range (n * c) := by
  induction n with
  | zero => simp
  | succ n ih =>
    rw [List.range_succ, List.flatMap_append, ih, Nat.succ_mul, List.range_add]
    simp

theorem map_number_allHistories (c m : Nat) : (allHistories c m).map (number c) = List.range (c ^ m) := by
  induction m with
  | zero => simp [allHistories, number]
  | succ m ih =>
    simp only [allHistories, List.map_flatMap, List.map_map]
    have : (fun h => (List.range c).map (number c ∘ fun b => h ++ [b])) =
        (fun s => (List.range c).map fun b => s * c + b) ∘ number c := by
      funext h
      simp only [Function.comp_apply]
      apply List.map_congr_left
      intro b _
      simp [number_append]
    rw [this, pow_succ, ← range_mul_flatMap, ← ih, List.flatMap_map]
    rfl

theorem mem_occurring (c nR k : Nat) (h : List Nat) (r : Nat) :
    r ∈ occurring c nR k h ↔ MayOccur c nR k h r := by
  unfold occurring MayOccur
  split_ifs <;> simp

/-- One node of the loop: the branches are the occurring realisations. -/
theorem branches_map {α : Type} (cfg : MpcCfg K d) (hc : 0 < cfg.c) {k : Nat} (hk : k < cfg.N) {h : List Nat}
    (hh : IsHistory cfg.c cfg.nRobust k h) (F : Nat → Nat → α) :
    (List.range (nBranches cfg.c cfg.nRobust k)).map
        (fun b => F (cfg.child k (number cfg.c h) b) (cfg.cur k (number cfg.c h) b)) =
      (occurring cfg.c cfg.nRobust k h).map fun r => F (number cfg.c (extend cfg.nRobust k h r)) r := by
  have ho := treeTables_offset cfg.N cfg.nRobust cfg.c hc hk (isHistory_number_lt hh)
  have hoff := offset_history hh
  have hcur : ∀ b, cfg.cur k (number cfg.c h) b =
      ((b : Int) + (if k < cfg.nRobust then 0 else ((h.getLastD 0 : Nat) : Int))).toNat := by
    intro b
    unfold MpcCfg.cur MpcCfg.tree
    rw [ho, hoff]
  have hch : ∀ b, b < nBranches cfg.c cfg.nRobust k →
      cfg.child k (number cfg.c h) b = number cfg.c (extend cfg.nRobust k h (cfg.cur k (number cfg.c h) b)) := by
    intro b hb
    unfold MpcCfg.child MpcCfg.tree
    rw [treeTables_child _ _ _ hc hk (isHistory_number_lt hh) hb, Int.toNat_natCast]
    apply child_history hh hb
    rw [hcur b, hoff]
    split_ifs <;> omega
  unfold occurring
  split_ifs with hk'
  · have hB : nBranches cfg.c cfg.nRobust k = cfg.c := by unfold nBranches; rw [if_pos hk']
    rw [hB]
    apply List.map_congr_left
    intro b hb
    have hb' : b < nBranches cfg.c cfg.nRobust k := by rw [hB]; exact List.mem_range.mp hb
    rw [hch b hb']
    have : cfg.cur k (number cfg.c h) b = b := by rw [hcur, if_pos hk']; simp
    rw [this]
  · have hB : nBranches cfg.c cfg.nRobust k = 1 := by unfold nBranches; rw [if_neg hk']
    have : cfg.cur k (number cfg.c h) 0 = h.getLastD 0 := by rw [hcur, if_neg hk']; simp
    have h0 := hch 0 (by rw [hB]; omega)
    rw [this] at h0
    rw [hB]
    simp [h0, this]

/-- The loops of `_prepare_nlp` enumerate histories and occurring realisations. -/
theorem loop_map {α : Type} (cfg : MpcCfg K d) (hc : 0 < cfg.c) (F : Nat → Nat → Nat → Nat → α) :
    cfg.loop.map (fun ksb => F ksb.1 ksb.2.1 (cfg.child ksb.1 ksb.2.1 ksb.2.2) (cfg.cur ksb.1 ksb.2.1 ksb.2.2)) =
      (List.range cfg.N).flatMap fun k => (allHistories cfg.c (min k cfg.nRobust)).flatMap fun h =>
        (occurring cfg.c cfg.nRobust k h).map fun r => F k (number cfg.c h) (number cfg.c (extend cfg.nRobust k h r)) r := by
  unfold MpcCfg.loop
  rw [List.map_flatMap]
  apply List.flatMap_congr
  intro k hk
  rw [List.map_flatMap]
  have hk' : k < cfg.N := List.mem_range.mp hk
  unfold nScenarios
  rw [← map_number_allHistories, List.flatMap_map]
  apply List.flatMap_congr
  intro h hh
  rw [mem_allHistories_iff] at hh
  rw [List.map_map]
  exact branches_map cfg hc hk' hh (F k (number cfg.c h))

theorem loop_forall (cfg : MpcCfg K d) (hc : 0 < cfg.c) (Q : Nat → Nat → Nat → Nat → Prop) :
    (∀ ksb ∈ cfg.loop, Q ksb.1 ksb.2.1 (cfg.child ksb.1 ksb.2.1 ksb.2.2) (cfg.cur ksb.1 ksb.2.1 ksb.2.2)) ↔
      ∀ k < cfg.N, ∀ h, IsHistory cfg.c cfg.nRobust k h → ∀ r, MayOccur cfg.c cfg.nRobust k h r →
        Q k (number cfg.c h) (number cfg.c (extend cfg.nRobust k h r)) r := by
  have := loop_map cfg hc Q
  have h1 : (∀ ksb ∈ cfg.loop, Q ksb.1 ksb.2.1 (cfg.child ksb.1 ksb.2.1 ksb.2.2) (cfg.cur ksb.1 ksb.2.1 ksb.2.2)) ↔
      ∀ P ∈ cfg.loop.map (fun ksb => Q ksb.1 ksb.2.1 (cfg.child ksb.1 ksb.2.1 ksb.2.2) (cfg.cur ksb.1 ksb.2.1 ksb.2.2)), P := by
    simp only [List.forall_mem_map]
  rw [h1, this]
  simp only [List.mem_flatMap, List.mem_map, List.mem_range, mem_allHistories_iff, mem_occurring]
  constructor
  · intro H k hk h hh r hr
    exact H _ ⟨k, hk, h, hh, r, hr, rfl⟩
  · rintro H P ⟨k, hk, h, hh, r, hr, rfl⟩
    exact H k hk h hh r hr

end DoMpc

namespace DoMpc
open Spec
variable {K : Type} [Field K] [LinearOrder K] {d : Dims}

@[simp] theorem Row.eq0_holds [IsStrictOrderedRing K] (v : K) : (Row.eq0 v).Holds ↔ v = 0 := by
  unfold Row.eq0 Row.Holds Bound.le Bound.ge
  constructor
  · intro h; exact le_antisymm h.2 h.1
  · rintro rfl; exact ⟨le_rfl, le_rfl⟩

theorem Bound.divBy_le [IsStrictOrderedRing K] (b : Bound K) {s : K} (hs : 0 < s) (v : K) :
    (b.divBy s).le v ↔ b.le (v * s) := by
  cases b with
  | ninf => simp [Bound.divBy, Bound.le, not_lt.mpr hs.le]
  | pinf => simp [Bound.divBy, Bound.le, not_lt.mpr hs.le]
  | fin a => simp only [Bound.divBy, Bound.le]; exact div_le_iff₀ hs

theorem Bound.divBy_ge [IsStrictOrderedRing K] (b : Bound K) {s : K} (hs : 0 < s) (v : K) :
    (b.divBy s).ge v ↔ b.ge (v * s) := by
  cases b with
  | ninf => simp [Bound.divBy, Bound.ge, not_lt.mpr hs.le]
  | pinf => simp [Bound.divBy, Bound.ge, not_lt.mpr hs.le]
  | fin a => simp only [Bound.divBy, Bound.ge]; exact le_div_iff₀ hs

theorem ofFn_eq0_holds [IsStrictOrderedRing K] {n : Nat} (f : Fin n → K) :
    (∀ r ∈ List.ofFn (fun j => Row.eq0 (f j)), r.Holds) ↔ f = 0 := by
  simp only [List.mem_ofFn, forall_exists_index, forall_apply_eq_imp_iff, Row.eq0_holds]
  exact ⟨fun h => funext h, fun h j => by rw [h]; rfl⟩

/-- interval equations in scaled variables -/
def Ifcn.Solves (F : Ifcn K d) (x : Vec K d.nx) (ξ : Nat → Vec K d.nx) (u : Vec K d.nu) (ζ : Nat → Vec K d.nz)
    (tv : Vec K d.ntv) (p : Vec K d.np) (x' : Vec K d.nx) : Prop :=
  (∀ v ∈ F.g x ξ u ζ tv p 0, v = 0) ∧ F.xf x ξ u ζ tv p 0 = x'

/-- The interval equations with process noise `w`. -/
def Ifcn.SolvesW (F : Ifcn K d) (x : Vec K d.nx) (ξ : Nat → Vec K d.nx) (u : Vec K d.nu) (ζ : Nat → Vec K d.nz)
    (tv : Vec K d.ntv) (p : Vec K d.np) (w : Vec K d.nw) (x' : Vec K d.nx) : Prop :=
  (∀ v ∈ F.g x ξ u ζ tv p w, v = 0) ∧ F.xf x ξ u ζ tv p w = x'


theorem dynRows_holds [IsStrictOrderedRing K] (cfg : MpcCfg K d) (w : OptX K d) (q : OptP K d) (k s b : Nat) :
    (∀ r ∈ cfg.dynRows w q k s b, r.Holds) ↔
      cfg.ifcn.Solves (w.x k s cfg.xLast) (w.x (k+1) (cfg.child k s b)) (w.u k (cfg.sU s)) (w.z k (cfg.child k s b))
        (q.tvp k) (q.p (cfg.cur k s b)) (w.x (k+1) (cfg.child k s b) cfg.xLast) := by
  unfold MpcCfg.dynRows Ifcn.Solves
  simp only [List.forall_mem_append, ofFn_eq0_holds, sub_eq_zero, List.forall_mem_map, Row.eq0_holds]

theorem initRows_holds [IsStrictOrderedRing K] (cfg : MpcCfg K d) (hx : ∀ i, 0 < cfg.sx i) (w : OptX K d) (q : OptP K d) :
    (∀ r ∈ cfg.initRows w q, r.Holds) ↔ cfg.xPhys w 0 0 cfg.xLast = q.x0 := by
  unfold MpcCfg.initRows MpcCfg.xPhys
  rw [ofFn_eq0_holds, sub_eq_zero]
  constructor
  · intro h; rw [h]; funext j; simp only [Pi.mul_apply, Pi.div_apply]; exact div_mul_cancel₀ _ (hx j).ne'
  · intro h; rw [← h]; funext j; simp only [Pi.mul_apply, Pi.div_apply]; rw [mul_div_cancel_right₀ _ (hx j).ne']

theorem rows_holds [IsStrictOrderedRing K] (cfg : MpcCfg K d) (w : OptX K d) (q : OptP K d) :
    (∀ r ∈ cfg.rows w q, r.Holds) ↔ (∀ r ∈ cfg.initRows w q, r.Holds) ∧
      (∀ ksb ∈ cfg.loop, ∀ r ∈ cfg.dynRows w q ksb.1 ksb.2.1 ksb.2.2, r.Holds) ∧
      (∀ ksb ∈ cfg.loop, ∀ r ∈ cfg.nlRowsAt w q ksb.1 ksb.2.1 ksb.2.2, r.Holds) := by
  unfold MpcCfg.rows
  rw [List.forall_mem_append]
  simp only [List.mem_flatMap, List.mem_append]
  constructor
  · rintro ⟨h1, h2⟩
    exact ⟨h1, fun ksb hk r hr => h2 r ⟨ksb, hk, Or.inl hr⟩, fun ksb hk r hr => h2 r ⟨ksb, hk, Or.inr hr⟩⟩
  · rintro ⟨h1, h2, h3⟩
    refine ⟨h1, ?_⟩
    rintro r ⟨ksb, hk, hr | hr⟩
    · exact h2 ksb hk r hr
    · exact h3 ksb hk r hr

/-- the slack subtraction loop subtracts exactly the constraint's own slack -/
theorem nlConsValue_eq (calls : List (NlCall K d)) (hn : (calls.map (·.name)).Nodup) (call : NlCall K d) (hc : call ∈ calls)
    (x : Vec K d.nx) (u : Vec K d.nu) (z : Vec K d.nz) (tv : Vec K d.ntv) (p : Vec K d.np) (e : Eps K) (i : Nat) :
    nlConsValue calls call x u z tv p e i =
      call.expr x u z tv p i - (if call.soft then e call.name i else 0) := by
  have key : ∀ (l : List (NlCall K d)) (v : K), (l.map (·.name)).Nodup →
      (l.filter (·.soft)).foldl (fun v sl => if sl.name = call.name then v - e sl.name i else v) v =
        v - (if ∃ sl ∈ l, sl.soft = true ∧ sl.name = call.name then e call.name i else 0) := by
    intro l
    induction l with
    | nil => intro v _; simp
    | cons a t ih =>
      intro v hnd
      simp only [List.map_cons, List.nodup_cons] at hnd
      by_cases ha : a.soft = true
      · simp only [List.filter_cons, ha, if_true, List.foldl_cons]
        by_cases hna : a.name = call.name
        · rw [if_pos hna, ih _ hnd.2]
          have h1 : ¬ ∃ sl ∈ t, sl.soft = true ∧ sl.name = call.name := by
            rintro ⟨sl, hsl, _, he⟩
            exact hnd.1 (by rw [hna, ← he]; exact List.mem_map_of_mem hsl)
          have h2 : ∃ sl ∈ a :: t, sl.soft = true ∧ sl.name = call.name := ⟨a, by simp, ha, hna⟩
          rw [if_neg h1, if_pos h2, hna]; ring
        · rw [if_neg hna, ih _ hnd.2]
          congr 2
          simp [hna]
      · simp only [List.filter_cons, ha]
        rw [if_neg (by simp), ih _ hnd.2]
        congr 2
        simp [ha]
  unfold nlConsValue slackVars
  rw [key calls _ hn]
  congr 2
  simp only [eq_iff_iff]
  constructor
  · rintro ⟨sl, hsl, hs, he⟩
    have : sl = call := List.inj_on_of_nodup_map hn hsl hc he
    rw [← this]; exact hs
  · intro h; exact ⟨call, hc, h, rfl⟩

theorem epsUb_eq (calls : List (NlCall K d)) (hn : (calls.map (·.name)).Nodup) (call : NlCall K d) (hc : call ∈ calls)
    (hs : call.soft = true) : epsUb calls call.name = call.maxViolation := by
  have key : ∀ (l : List (NlCall K d)) (b : Bound K), (l.map (·.name)).Nodup →
      (call ∈ l ∨ (b = call.maxViolation ∧ ∀ a ∈ l, a.name ≠ call.name)) →
      (l.filter (·.soft)).foldl (fun b sl => if sl.name = call.name then sl.maxViolation else b) b = call.maxViolation := by
    intro l
    induction l with
    | nil => intro b _ h; rcases h with h | h; simp at h; simpa using h.1
    | cons a t ih =>
      intro b hnd h
      simp only [List.map_cons, List.nodup_cons] at hnd
      by_cases hac : a = call
      · subst hac
        simp only [List.filter_cons, hs, if_true, List.foldl_cons]
        apply ih _ hnd.2
        right
        exact ⟨rfl, fun x hx he => hnd.1 (by rw [← he]; exact List.mem_map_of_mem hx)⟩
      · have hne : call ∈ t → a.name ≠ call.name := fun hct he => hnd.1 (by rw [he]; exact List.mem_map_of_mem hct)
        have hna : a.name ≠ call.name := by
          rcases h with h | h
          · simp only [List.mem_cons] at h
            rcases h with h | h
            · exact absurd h.symm hac
            · exact hne h
          · exact h.2 a (by simp)
        have hrest : call ∈ t ∨ (b = call.maxViolation ∧ ∀ a ∈ t, a.name ≠ call.name) := by
          rcases h with h | h
          · simp only [List.mem_cons] at h
            rcases h with h | h
            · exact absurd h.symm hac
            · exact Or.inl h
          · exact Or.inr ⟨h.1, fun x hx => h.2 x (by simp [hx])⟩
        by_cases ha : a.soft = true
        · simp only [List.filter_cons, ha, if_true, List.foldl_cons]
          rw [if_neg hna]; exact ih _ hnd.2 hrest
        · simp only [List.filter_cons, ha]
          rw [if_neg (by simp)]; exact ih _ hnd.2 hrest
  exact key calls _ hn (Or.inl hc)

end DoMpc
