import Verif.Spec.Soft
import Verif.Props.Configured

/-!
# C118: soft constraints
-/
set_option linter.unusedSectionVars false
namespace DoMpc
open Spec
variable {K : Type} [Field K] [LinearOrder K] [IsStrictOrderedRing K] {d : Dims}

theorem ge_anti {b : Bound K} {v v' : K} (h : b.ge v) (hv : v' ≤ v) : b.ge v' := by
  cases b with
  | ninf => exact h
  | fin b => exact le_trans hv h
  | pinf => trivial

theorem sum_lt_of_mem {α : Type} (l : List α) (f g : α → K) (h : ∀ a ∈ l, f a ≤ g a) {a : α} (ha : a ∈ l) (hlt : f a < g a) : (l.map f).sum < (l.map g).sum :=
  List.sum_lt_sum _ _ h ⟨a, ha, hlt⟩

theorem sum_le_of_le {α : Type} (l : List α) (f g : α → K) (h : ∀ a ∈ l, f a ≤ g a) : (l.map f).sum ≤ (l.map g).sum := List.sum_le_sum h

theorem branchSum_lt (c N nR : Nat) (f g : Nat → List Nat → Nat → K)
    (hle : ∀ k < N, ∀ h, IsHistory c nR k h → ∀ r, MayOccur c nR k h r → f k h r ≤ g k h r) {k : Nat} (hk : k < N) {h : List Nat} (hh : IsHistory c nR k h) {r : Nat}
    (hr : MayOccur c nR k h r) (hlt : f k h r < g k h r) : branchSum c N nR f < branchSum c N nR g := by
  unfold branchSum
  have inner : ∀ k < N, ∀ h, IsHistory c nR k h → ((occurring c nR k h).map (f k h)).sum ≤ ((occurring c nR k h).map (g k h)).sum := fun k hk h hh =>
    sum_le_of_le _ _ _ fun r hr => hle k hk h hh r ((mem_occurring ..).1 hr)
  have middle : ∀ k < N, ((allHistories c (min k nR)).map fun h => ((occurring c nR k h).map (f k h)).sum).sum ≤
      ((allHistories c (min k nR)).map fun h => ((occurring c nR k h).map (g k h)).sum).sum := fun k hk =>
    sum_le_of_le _ _ _ fun h hh => inner k hk h ((mem_allHistories_iff ..).1 hh)
  refine sum_lt_of_mem _ _ _ (fun k hk => middle k (List.mem_range.1 hk)) (List.mem_range.2 hk) ?_
  refine sum_lt_of_mem _ _ _ (fun h hh => inner k hk h ((mem_allHistories_iff ..).1 hh)) ((mem_allHistories_iff ..).2 hh) ?_
  exact sum_lt_of_mem _ _ _ (fun r hr => hle k hk h hh r ((mem_occurring ..).1 hr)) ((mem_occurring ..).2 hr) hlt

/-! ## The planned slack is the worst violation -/

/-- one slack replaced -/
def setSlack (π : Policy K d) (k : Nat) (h : List Nat) (n : String) (i : Nat) (v : K) : Policy K d :=
  { π with E := fun k' h' n' i' => if k' = k ∧ h' = h ∧ n' = n ∧ i' = i then v else π.E k' h' n' i' }

/-- A smaller value for one slack that still covers the violation leaves the constraints and the limits of the slacks satisfied. -/
theorem setSlack_rows (P : MultiStage K d) (hn : (P.cons.map (·.name)).Nodup) (π : Policy K d)
    (hcon : ∀ k < P.N, ∀ h, IsHistory P.c P.nR k h → ∀ r, MayOccur P.c P.nR k h r → ∀ call ∈ P.cons, ∀ i < call.dim,
      if call.soft then
        call.ub.ge (call.expr (π.X k h) (π.U k h) (π.Z k (extend P.nR k h r)) (P.tvp k) (P.p r) i - π.E k h call.name i)
      else call.ub.ge (call.expr (π.X k h) (π.U k h) (π.Z k (extend P.nR k h r)) (P.tvp k) (P.p r) i))
    (hsl : ∀ k < P.N, ∀ h, IsHistory P.c P.nR k h → ∀ call ∈ P.cons, call.soft = true → ∀ i < call.dim,
      0 ≤ π.E k h call.name i ∧ call.maxViolation.ge (π.E k h call.name i))
    (k : Nat) (h : List Nat) (call : NlCall K d) (hcall : call ∈ P.cons) (i : Nat) {v : K}
    (hlt : v < π.E k h call.name i) (hv0 : 0 ≤ v) (hvh : HoldsUpTo P π k h call i v) :
    (∀ k' < P.N, ∀ h', IsHistory P.c P.nR k' h' → ∀ r, MayOccur P.c P.nR k' h' r → ∀ call' ∈ P.cons, ∀ i' < call'.dim,
      if call'.soft then
        call'.ub.ge (call'.expr (π.X k' h') (π.U k' h') (π.Z k' (extend P.nR k' h' r)) (P.tvp k') (P.p r) i' - (setSlack π k h call.name i v).E k' h' call'.name i')
      else call'.ub.ge (call'.expr (π.X k' h') (π.U k' h') (π.Z k' (extend P.nR k' h' r)) (P.tvp k') (P.p r) i')) ∧
    (∀ k' < P.N, ∀ h', IsHistory P.c P.nR k' h' → ∀ call' ∈ P.cons, call'.soft = true → ∀ i' < call'.dim,
      0 ≤ (setSlack π k h call.name i v).E k' h' call'.name i' ∧ call'.maxViolation.ge ((setSlack π k h call.name i v).E k' h' call'.name i')) := by
  have uniq : ∀ call' ∈ P.cons, call'.name = call.name → call' = call := fun call' h' e => List.inj_on_of_nodup_map hn h' hcall e
  have hE : ∀ k' h' n' i', (setSlack π k h call.name i v).E k' h' n' i' = if k' = k ∧ h' = h ∧ n' = call.name ∧ i' = i then v else π.E k' h' n' i' := fun _ _ _ _ => rfl
  constructor
  · intro k' hk' h' hh' r hr call' hcall' i' hi'
    have old := hcon k' hk' h' hh' r hr call' hcall' i' hi'
    by_cases hs' : call'.soft = true
    · rw [if_pos hs'] at old ⊢
      rw [hE]
      by_cases he : k' = k ∧ h' = h ∧ call'.name = call.name ∧ i' = i
      · rw [if_pos he]
        obtain ⟨rfl, rfl, e3, rfl⟩ := he
        obtain rfl := uniq call' hcall' e3
        exact hvh r hr
      · rw [if_neg he]
        exact old
    · rw [if_neg hs'] at old ⊢
      exact old
  · intro k' hk' h' hh' call' hcall' hs' i' hi'
    have old := hsl k' hk' h' hh' call' hcall' hs' i' hi'
    rw [hE]
    by_cases he : k' = k ∧ h' = h ∧ call'.name = call.name ∧ i' = i
    · rw [if_pos he]
      obtain ⟨rfl, rfl, e3, rfl⟩ := he
      rw [e3] at old
      exact ⟨hv0, ge_anti old.2 hlt.le⟩
    · rw [if_neg he]
      exact old

/-- … and costs less. -/
theorem setSlack_cost (P : MultiStage K d) (hc : 0 < P.c) (hn : (P.cons.map (·.name)).Nodup) (π : Policy K d) (k : Nat) (hk : k < P.N) (h : List Nat)
    (hh : IsHistory P.c P.nR k h) (call : NlCall K d) (hcall : call ∈ P.cons) (hs : call.soft = true) (hpen : 0 < call.penalty) (i : Nat) (hi : i < call.dim) {v : K}
    (hlt : v < π.E k h call.name i) : P.cost (setSlack π k h call.name i v) < P.cost π := by
  have uniq : ∀ call' ∈ P.cons, call'.name = call.name → call' = call := fun call' h' e => List.inj_on_of_nodup_map hn h' hcall e
  set π' := setSlack π k h call.name i v with hπ'
  have hE : ∀ k' h' n' i', π'.E k' h' n' i' = if k' = k ∧ h' = h ∧ n' = call.name ∧ i' = i then v else π.E k' h' n' i' := fun _ _ _ _ => rfl
  have hterm : ∀ k' h' call', call' ∈ P.cons → ∀ i', call'.soft = true → call'.penalty * π'.E k' h' call'.name i' ≤ call'.penalty * π.E k' h' call'.name i' := by
    intro k' h' call' hcall' i' hs'
    rw [hE]
    by_cases he : k' = k ∧ h' = h ∧ call'.name = call.name ∧ i' = i
    · rw [if_pos he]
      obtain ⟨rfl, rfl, e3, rfl⟩ := he
      obtain rfl := uniq call' hcall' e3
      exact mul_le_mul_of_nonneg_left hlt.le hpen.le
    · rw [if_neg he]
  have hle : ∀ k' h', slackCost P.cons (π'.E k' h') ≤ slackCost P.cons (π.E k' h') := fun k' h' => by
    refine sum_le_of_le _ _ _ fun call' hcall' => ?_
    by_cases hs' : call'.soft = true
    · rw [if_pos hs', if_pos hs']
      exact sum_le_of_le _ _ _ fun i' _ => hterm k' h' call' hcall' i' hs'
    · rw [if_neg hs', if_neg hs']
  have hstrict : slackCost P.cons (π'.E k h) < slackCost P.cons (π.E k h) := by
    refine sum_lt_of_mem _ _ _ (fun call' hcall' => ?_) hcall ?_
    · by_cases hs' : call'.soft = true
      · rw [if_pos hs', if_pos hs']
        exact sum_le_of_le _ _ _ fun i' _ => hterm k h call' hcall' i' hs'
      · rw [if_neg hs', if_neg hs']
    · rw [if_pos hs, if_pos hs]
      refine sum_lt_of_mem _ _ _ (fun i' _ => hterm k h call hcall i' hs) (List.mem_range.2 hi) ?_
      rw [hE, if_pos ⟨rfl, rfl, rfl, rfl⟩]
      exact mul_lt_mul_of_pos_left hlt hpen
  have hsum : branchSum P.c P.N P.nR (fun k h _ => slackCost P.cons (π'.E k h)) < branchSum P.c P.N P.nR (fun k h _ => slackCost P.cons (π.E k h)) := by
    obtain ⟨r, hr⟩ : ∃ r, MayOccur P.c P.nR k h r := by
      unfold MayOccur
      by_cases hkr : k < P.nR
      · exact ⟨0, by rw [if_pos hkr]; exact hc⟩
      · exact ⟨_, by rw [if_neg hkr]⟩
    exact branchSum_lt _ _ _ _ _ (fun k' _ h' _ _ _ => hle k' h') hk hh hr hstrict
  have hcost : P.cost π' < P.cost π := by
    unfold MultiStage.cost
    exact add_lt_add_of_lt_of_le (add_lt_add_of_le_of_lt (le_refl _) hsum) (le_refl _)
  exact hcost

/-- **C118 (documented problem).**  In an optimal policy every slack of a soft constraint with a positive penalty is the worst violation of the constraint over the realisations
that may occur at this node: nothing is charged if the constraint holds there. -/
theorem C118_optimal_slack (P : MultiStage K d) (hc : 0 < P.c) (hn : (P.cons.map (·.name)).Nodup) (π : Policy K d) (ho : P.Optimal π) (k : Nat) (hk : k < P.N) (h : List Nat)
    (hh : IsHistory P.c P.nR k h) (call : NlCall K d) (hcall : call ∈ P.cons) (hs : call.soft = true) (hpen : 0 < call.penalty) (i : Nat) (hi : i < call.dim) :
    WorstViolation P π k h call i (π.E k h call.name i) := by
  obtain ⟨ha, hmin⟩ := ho
  refine ⟨⟨(ha.slacks k hk h hh call hcall hs i hi).1, fun r hr => ?_⟩, fun v hv => ?_⟩
  · have := ha.constraints k hk h hh r hr call hcall i hi
    rwa [if_pos hs] at this
  · by_contra hlt
    rw [not_le] at hlt
    obtain ⟨e1, e2⟩ := setSlack_rows P hn π ha.constraints ha.slacks k h call hcall i hlt hv.1 hv.2
    have hadm : P.Admissible (setSlack π k h call.name i v) := ⟨ha.dynamics, ha.states, ha.terminal, ha.inputs, ha.algebraic, e1, e2, ha.oneInput⟩
    exact absurd (hmin _ hadm)
      (not_le.2 (setSlack_cost P hc hn π k hk h hh call hcall hs hpen i hi hlt))

/-! ## No violation accepted: a hard constraint -/

theorem harden_name (c : NlCall K d) : (harden c).name = c.name ∧ (harden c).dim = c.dim ∧ (harden c).expr = c.expr ∧ (harden c).ub = c.ub ∧ (harden c).penalty = c.penalty ∧
    (harden c).maxViolation = c.maxViolation := by
  unfold harden
  split
  · split <;> exact ⟨rfl, rfl, rfl, rfl, rfl, rfl⟩
  · exact ⟨rfl, rfl, rfl, rfl, rfl, rfl⟩

theorem harden_soft (c : NlCall K d) : ((harden c).soft = c.soft ∧ (c.soft = true → c.maxViolation ≠ .fin 0)) ∨ (c.soft = true ∧ (harden c).soft = false ∧ c.maxViolation = .fin 0) := by
  unfold harden
  by_cases hs : c.soft = true
  · split
    · rename_i b hb
      by_cases h0 : b = 0
      · rw [if_pos h0]
        exact .inr ⟨hs, rfl, by rw [hb, h0]⟩
      · rw [if_neg h0]
        exact .inl ⟨rfl, fun _ e => h0 (by rw [hb] at e; exact Bound.fin.inj e)⟩
    · rename_i hx
      exact .inl ⟨rfl, fun _ e => hx 0 e⟩
  · refine .inl ⟨?_, fun h => absurd h hs⟩
    split
    · split
      · simp at hs; simp [hs]
      · rfl
    · rfl

theorem harden_admissible (P : MultiStage K d) (π : Policy K d) (ha : P.Admissible π) : ({ P with cons := P.cons.map harden } : MultiStage K d).Admissible π := by
  refine ⟨ha.dynamics, ha.states, ha.terminal, ha.inputs, ha.algebraic, ?_, ?_, ha.oneInput⟩
  · intro k hk h hh r hr call' hcall' i hi
    obtain ⟨call, hcall, rfl⟩ := List.mem_map.1 hcall'
    obtain ⟨n1, n2, n3, n4, n5, n6⟩ := harden_name call
    rw [n2] at hi
    have old := ha.constraints k hk h hh r hr call hcall i hi
    rw [n1, n3, n4]
    rcases harden_soft call with ⟨e, -⟩ | ⟨e1, e2, e3⟩
    · rw [e]; exact old
    · rw [if_pos e1] at old
      rw [if_neg (by rw [e2]; decide)]
      have hsl := ha.slacks k hk h hh call hcall e1 i hi
      rw [e3] at hsl
      have : π.E k h call.name i = 0 := le_antisymm hsl.2 hsl.1
      rwa [this, sub_zero] at old
  · intro k hk h hh call' hcall' hs' i hi
    obtain ⟨call, hcall, rfl⟩ := List.mem_map.1 hcall'
    obtain ⟨n1, n2, n3, n4, n5, n6⟩ := harden_name call
    rw [n2] at hi
    rw [n1, n6]
    rcases harden_soft call with ⟨e, -⟩ | ⟨e1, e2, e3⟩
    · exact ha.slacks k hk h hh call hcall (e ▸ hs') i hi
    · rw [e2] at hs'; exact absurd hs' (by decide)

/-- the slacks that the hardened problem does not have are set to zero -/
noncomputable def zeroSlacks (P : MultiStage K d) (π : Policy K d) : Policy K d :=
  { π with E := fun k h n i => open Classical in if ∃ c ∈ P.cons, c.soft = true ∧ c.maxViolation = .fin 0 ∧ c.name = n then 0 else π.E k h n i }

theorem harden_admissible_back (P : MultiStage K d) (hn : (P.cons.map (·.name)).Nodup) (π : Policy K d)
    (ha : ({ P with cons := P.cons.map harden } : MultiStage K d).Admissible π) : P.Admissible (zeroSlacks P π) := by
  have uniq : ∀ c ∈ P.cons, ∀ c' ∈ P.cons, c.name = c'.name → c = c' := fun c h c' h' e => List.inj_on_of_nodup_map hn h h' e
  refine ⟨ha.dynamics, ha.states, ha.terminal, ha.inputs, ha.algebraic, ?_, ?_, ha.oneInput⟩
  · intro k hk h hh r hr call hcall i hi
    obtain ⟨n1, n2, n3, n4, n5, n6⟩ := harden_name call
    have old := ha.constraints k hk h hh r hr (harden call) (List.mem_map_of_mem hcall) i (n2 ▸ hi)
    rw [n1, n3, n4] at old
    rcases harden_soft call with ⟨e, e'⟩ | ⟨e1, e2, e3⟩
    · rw [e] at old
      by_cases hs : call.soft = true
      · rw [if_pos hs] at old ⊢
        have : (zeroSlacks P π).E k h call.name i = π.E k h call.name i := if_neg (by
          rintro ⟨c, hc, c1, c2, c3⟩
          obtain rfl := uniq c hc call hcall c3
          exact e' hs c2)
        rw [this]
        exact old
      · rw [if_neg hs] at old ⊢
        exact old
    · rw [if_neg (by rw [e2]; decide)] at old
      rw [if_pos e1]
      have : (zeroSlacks P π).E k h call.name i = 0 := if_pos ⟨call, hcall, e1, e3, rfl⟩
      rw [this, sub_zero]
      exact old
  · intro k hk h hh call hcall hs i hi
    obtain ⟨n1, n2, n3, n4, n5, n6⟩ := harden_name call
    by_cases hz : call.maxViolation = .fin 0
    · have : (zeroSlacks P π).E k h call.name i = 0 := if_pos ⟨call, hcall, hs, hz, rfl⟩
      rw [this, hz]
      exact ⟨le_refl _, le_refl (0 : K)⟩
    · have : (zeroSlacks P π).E k h call.name i = π.E k h call.name i := if_neg (by
        rintro ⟨c, hc, c1, c2, c3⟩
        obtain rfl := uniq c hc call hcall c3
        exact hz c2)
      rw [this]
      have hs2 : (harden call).soft = true := by
        rcases harden_soft call with ⟨e, -⟩ | ⟨-, -, e3⟩
        · rw [e]; exact hs
        · exact absurd e3 hz
      have old := ha.slacks k hk h hh (harden call) (List.mem_map_of_mem hcall) hs2 i (n2 ▸ hi)
      rw [n1, n6] at old
      exact old

theorem harden_cost (P : MultiStage K d) (π : Policy K d)
    (h : ∀ k < P.N, ∀ h, IsHistory P.c P.nR k h → ∀ c ∈ P.cons, c.soft = true → c.maxViolation = .fin 0 → ∀ i < c.dim, π.E k h c.name i = 0) :
    ({ P with cons := P.cons.map harden } : MultiStage K d).cost π = P.cost π := by
  have : branchSum P.c P.N P.nR (fun k h _ => slackCost (P.cons.map harden) (π.E k h)) = branchSum P.c P.N P.nR (fun k h _ => slackCost P.cons (π.E k h)) := by
    refine branchSum_congr _ _ _ fun k hk hist hh r _ => ?_
    unfold slackCost
    rw [List.map_map]
    refine congrArg List.sum (List.map_congr_left fun c hc => ?_)
    obtain ⟨n1, n2, n3, n4, n5, n6⟩ := harden_name c
    show (if (harden c).soft = true then _ else _) = _
    rcases harden_soft c with ⟨e, -⟩ | ⟨e1, e2, e3⟩
    · rw [e, n1, n2, n5]
    · rw [e2, if_neg (by decide), if_pos e1]
      have hz : ((List.range c.dim).map fun i => c.penalty * π.E k hist c.name i) = (List.range c.dim).map fun _ => (0 : K) :=
        List.map_congr_left fun i hi => by rw [h k hk hist hh c hc e1 e3 i (List.mem_range.1 hi), mul_zero]
      rw [hz, sum_map_const, mul_zero]
  unfold MultiStage.cost
  rw [← this]

/-- **C118 (documented problem, no violation accepted).**  An optimal policy of the problem is an optimal policy of the problem in which the soft constraints with
`maximum_violation = 0` are hard ones; conversely, with the superfluous slacks set to zero. -/
theorem C118_zero_violation (P : MultiStage K d) (hn : (P.cons.map (·.name)).Nodup) (π : Policy K d) :
    (P.Optimal π → ({ P with cons := P.cons.map harden } : MultiStage K d).Optimal π) ∧
    (({ P with cons := P.cons.map harden } : MultiStage K d).Optimal π → ∃ E, P.Optimal { π with E := E }) := by
  have hz : ∀ π, P.Admissible π → ({ P with cons := P.cons.map harden } : MultiStage K d).cost π = P.cost π := fun π ha =>
    harden_cost P π fun k hk h hh c hc hs h0 i hi => by
      have := ha.slacks k hk h hh c hc hs i hi
      rw [h0] at this
      exact le_antisymm this.2 this.1
  have hback : ∀ π, ({ P with cons := P.cons.map harden } : MultiStage K d).cost (zeroSlacks P π) = ({ P with cons := P.cons.map harden } : MultiStage K d).cost π := fun π => by
    have : ∀ k h, slackCost (P.cons.map harden) ((zeroSlacks P π).E k h) = slackCost (P.cons.map harden) (π.E k h) := fun k h => by
      unfold slackCost
      refine congrArg List.sum (List.map_congr_left fun c hc => ?_)
      obtain ⟨call, hcall, rfl⟩ := List.mem_map.1 hc
      obtain ⟨n1, n2, n3, n4, n5, n6⟩ := harden_name call
      by_cases hs : (harden call).soft = true
      · rw [if_pos hs, if_pos hs]
        refine congrArg List.sum (List.map_congr_left fun i _ => ?_)
        congr 1
        refine if_neg ?_
        rintro ⟨c', hc', c1, c2, c3⟩
        rw [n1] at c3
        obtain rfl := List.inj_on_of_nodup_map hn hc' hcall c3
        rcases harden_soft c' with ⟨-, e'⟩ | ⟨-, e2, -⟩
        · exact e' c1 c2
        · rw [e2] at hs; exact absurd hs (by decide)
      · rw [if_neg hs, if_neg hs]
    unfold MultiStage.cost
    simp only [this]
    rfl
  constructor
  · rintro ⟨ha, hmin⟩
    refine ⟨harden_admissible P π ha, fun π' hπ' => ?_⟩
    have hb := harden_admissible_back P hn π' hπ'
    rw [hz π ha, ← hback π', hz _ hb]
    exact hmin _ hb
  · rintro ⟨ha, hmin⟩
    have hb := harden_admissible_back P hn π ha
    refine ⟨(zeroSlacks P π).E, hb, fun π' hπ' => ?_⟩
    show P.cost (zeroSlacks P π) ≤ _
    rw [← hz _ hb, hback π, ← hz π' hπ']
    exact hmin _ (harden_admissible P π' hπ')

/-! ## Larger penalties -/

theorem slackCost_times (t : K) (cons : List (NlCall K d)) (e : Eps K) : slackCost (cons.map (timesPenalty t)) e = t * slackCost cons e := by
  unfold slackCost
  rw [List.map_map, ← List.sum_map_mul_left]
  refine congrArg List.sum (List.map_congr_left fun c _ => ?_)
  show (if c.soft = true then _ else _) = _
  by_cases hs : c.soft = true
  · rw [if_pos hs, if_pos hs, ← List.sum_map_mul_left]
    exact congrArg List.sum (List.map_congr_left fun i _ => mul_assoc t c.penalty _)
  · rw [if_neg hs, if_neg hs, mul_zero]

theorem branchSum_mul (c N nR : Nat) (t : K) (f : Nat → List Nat → Nat → K) : branchSum c N nR (fun k h r => t * f k h r) = t * branchSum c N nR f := by
  unfold branchSum
  simp only [List.sum_map_mul_left]

theorem cost_times (P : MultiStage K d) (t : K) (π : Policy K d) :
    ({ P with cons := P.cons.map (timesPenalty t) } : MultiStage K d).cost π = costWithout P π + t * plannedViolation P π := by
  unfold costWithout plannedViolation MultiStage.cost
  simp only [slackCost_times, branchSum_mul]
  ring_nf

theorem admissible_times (P : MultiStage K d) (t : K) (π : Policy K d) : ({ P with cons := P.cons.map (timesPenalty t) } : MultiStage K d).Admissible π ↔ P.Admissible π := by
  constructor
  · intro ha
    exact ⟨ha.dynamics, ha.states, ha.terminal, ha.inputs, ha.algebraic, fun k hk h hh r hr call hcall i hi =>
      ha.constraints k hk h hh r hr (timesPenalty t call) (List.mem_map_of_mem hcall) i hi, fun k hk h hh call hcall hs i hi =>
      ha.slacks k hk h hh (timesPenalty t call) (List.mem_map_of_mem hcall) hs i hi, ha.oneInput⟩
  · intro ha
    refine ⟨ha.dynamics, ha.states, ha.terminal, ha.inputs, ha.algebraic, fun k hk h hh r hr call hcall i hi => ?_, fun k hk h hh call hcall hs i hi => ?_, ha.oneInput⟩
    · obtain ⟨c0, hc0, rfl⟩ := List.mem_map.1 hcall
      exact ha.constraints k hk h hh r hr c0 hc0 i hi
    · obtain ⟨c0, hc0, rfl⟩ := List.mem_map.1 hcall
      exact ha.slacks k hk h hh c0 hc0 hs i hi

/-- **C118 (documented problem, larger penalties).**  If all penalties are multiplied by a larger factor, the optimal policy plans no more (weighted) violation, and what it costs
otherwise does not fall. -/
theorem C118_larger_penalty (P : MultiStage K d) (t t' : K) (ht : 0 ≤ t) (htt : t < t') (π π' : Policy K d)
    (ho : ({ P with cons := P.cons.map (timesPenalty t) } : MultiStage K d).Optimal π) (ho' : ({ P with cons := P.cons.map (timesPenalty t') } : MultiStage K d).Optimal π') :
    plannedViolation P π' ≤ plannedViolation P π ∧ costWithout P π ≤ costWithout P π' := by
  have h1 := ho.2 π' ((admissible_times P t π').2 ((admissible_times P t' π').1 ho'.1))
  have h2 := ho'.2 π ((admissible_times P t' π).2 ((admissible_times P t π).1 ho.1))
  rw [cost_times, cost_times] at h1 h2
  have hv : plannedViolation P π' ≤ plannedViolation P π := by
    by_contra hlt
    rw [not_le] at hlt
    nlinarith [mul_pos (sub_pos.2 htt) (sub_pos.2 hlt)]
  exact ⟨hv, by nlinarith [mul_le_mul_of_nonneg_left hv ht]⟩

/-! ## The controller -/

/-- `C96_returned_input` with the slacks: what the solver's `_eps` stand for. -/
theorem returned_policy (S : MpcSettings) (m : DaeModel K d) (ops1 ops2 : List (MpcOp K d)) (h1 : ∀ op ∈ ops1, Configures op) (h2 : ∀ op ∈ ops2, Later op) :
    let mk := fun sx su sz => discreteIfcn m sx su sz 1
    let o1 := (MpcObj.new S : MpcObj K d).run mk ops1
    let o := o1.run mk (.setup :: ops2)
    let calls := ops1 ++ ops2.filter isBound
    (o1.exec mk .setup).2 = none → PlainCalls S calls →
      ∃ ob, lastOf (fun op => (objectiveOf op).map some) ops1 none = some ob ∧
        ∀ w q, SolverMinimises o w q → ∃ π, (configured S calls ob m q).Optimal π ∧ o.returnedInput w = π.U 0 [] ∧
          ∀ k h, π.E k h = w.eps k (number (lastOf settingsOf calls S).c h) := by
  intro mk o1 o calls hs hp
  obtain ⟨ob, ha⟩ := after_setup mk S ops1 h1 hs
  refine ⟨ob, ha.objective, fun w q hw => ?_⟩
  have hf := after_run mk S ob ops2 ops1 _ ha h2
  have hn := (after_minimises mk S calls ob o hf w q).1 hw
  obtain ⟨e1, e2⟩ := C12_first_input_of_optimal_policy_partial _ m (plain_regular S calls ob m hp) w q hn
  refine ⟨_, wantedCfg_problem mk S calls ob m q ▸ e1, ?_, fun k h => ?_⟩
  · rw [← e2]
    exact congrArg (w.u 0 0 * ·) hf.su
  · have : (wantedCfg mk S calls ob).singleSlack = false := hp.slack
    show w.eps (if (wantedCfg mk S calls ob).singleSlack = true then 0 else k) _ = _
    rw [this, if_neg (by decide)]
    rfl

/-- **C118 (what a violation costs).**  Configure a controller by any calls, `setup()`, assign bounds: if the solver answers with a global minimiser, the slack of every component of
every soft constraint with a positive penalty at every node of the scenario tree is exactly the worst violation planned there, over the realisations that may occur: the cost
charges `penalty` times the violation, and nothing where the constraint holds. -/
theorem C118_slack (S : MpcSettings) (m : DaeModel K d) (ops1 ops2 : List (MpcOp K d)) (h1 : ∀ op ∈ ops1, Configures op) (h2 : ∀ op ∈ ops2, Later op) :
    let mk := fun sx su sz => discreteIfcn m sx su sz 1
    let o1 := (MpcObj.new S : MpcObj K d).run mk ops1
    let o := o1.run mk (.setup :: ops2)
    let calls := ops1 ++ ops2.filter isBound
    let s := lastOf settingsOf calls S
    (o1.exec mk .setup).2 = none → PlainCalls S calls →
      ∃ ob, lastOf (fun op => (objectiveOf op).map some) ops1 none = some ob ∧
        ∀ w q, SolverMinimises o w q → ∃ π, (configured S calls ob m q).Optimal π ∧ o.returnedInput w = π.U 0 [] ∧
          ∀ k < s.N, ∀ h, IsHistory s.c s.nRobust k h → ∀ call, MpcOp.setNlCons call ∈ ops1 → call.soft = true → 0 < call.penalty → ∀ i < call.dim,
            WorstViolation (configured S calls ob m q) π k h call i (w.eps k (number s.c h) call.name i) := by
  intro mk o1 o calls s hs hp
  obtain ⟨ob, hob, hall⟩ := returned_policy S m ops1 ops2 h1 h2 hs hp
  refine ⟨ob, hob, fun w q hw => ?_⟩
  obtain ⟨π, ho, hu, hE⟩ := hall w q hw
  refine ⟨π, ho, hu, fun k hk h hh call hcall hsoft hpen i hi => ?_⟩
  rw [← hE]
  exact C118_optimal_slack _ hp.cpos hp.names π ho k hk h hh call (List.mem_filterMap.2 ⟨_, List.mem_append_left _ hcall, rfl⟩) hsoft hpen i hi

theorem lastOf_mapCons {β : Type} (φ : NlCall K d → NlCall K d) (f : MpcOp K d → Option β) (hf : ∀ c, f (.setNlCons c) = none) (ops : List (MpcOp K d)) (v : β) :
    lastOf f (ops.map (mapCons φ)) v = lastOf f ops v := by
  unfold lastOf
  rw [List.filterMap_map]
  have : f ∘ mapCons φ = f := by
    funext op
    cases op <;> first | rfl | exact (hf _).trans (hf _).symm
  rw [this]

theorem nlCons_mapCons (φ : NlCall K d → NlCall K d) (ops : List (MpcOp K d)) : (ops.map (mapCons φ)).filterMap nlConsOf = (ops.filterMap nlConsOf).map φ := by
  rw [List.filterMap_map, List.map_filterMap]
  refine List.filterMap_congr fun op _ => ?_
  cases op <;> rfl

theorem configured_mapCons (φ : NlCall K d → NlCall K d) (S : MpcSettings) (calls : List (MpcOp K d)) (ob : Objective K d) (m : DaeModel K d) (q : OptP K d) :
    configured S (calls.map (mapCons φ)) ob m q = { configured S calls ob m q with cons := (calls.filterMap nlConsOf).map φ } := by
  have h1 := lastOf_mapCons φ settingsOf (fun _ => rfl) calls S
  have h2 : ∀ s v (w : Bound K), lastOf (boundOf s v) (calls.map (mapCons φ)) w = lastOf (boundOf s v) calls w := fun s v w => lastOf_mapCons φ _ (fun _ => rfl) calls w
  have h3 : ∀ s j (w : Bound K), lastOf (terminalOf s j) (calls.map (mapCons φ)) w = lastOf (terminalOf s j) calls w := fun s v w => lastOf_mapCons φ _ (fun _ => rfl) calls w
  have h4 : ∀ v (w : K), lastOf (scalingOf v) (calls.map (mapCons φ)) w = lastOf (scalingOf v) calls w := fun v w => lastOf_mapCons φ _ (fun _ => rfl) calls w
  have h5 := lastOf_mapCons φ (rtermOf (K := K) (d := d)) (fun _ => rfl) calls (.factor fun _ => 0)
  unfold configured terminalWanted changeWanted
  simp only [h1, h2, h3, h4, h5, nlCons_mapCons]

theorem mapCons_ops (φ : NlCall K d → NlCall K d) (ops2 : List (MpcOp K d)) : (ops2.map (mapCons φ)).filter isBound = (ops2.filter isBound).map (mapCons φ) := by
  rw [List.filter_map]
  congr 2
  funext op
  cases op <;> rfl

theorem plain_mapCons (φ : NlCall K d → NlCall K d) (hφ : ∀ c, (φ c).name = c.name) (S : MpcSettings) (calls : List (MpcOp K d)) (hp : PlainCalls S calls) :
    PlainCalls S (calls.map (mapCons φ)) := by
  have h1 := lastOf_mapCons φ settingsOf (fun _ => rfl) calls S
  have h4 : ∀ v (w : K), lastOf (scalingOf v) (calls.map (mapCons φ)) w = lastOf (scalingOf v) calls w := fun v w => lastOf_mapCons φ _ (fun _ => rfl) calls w
  have h5 := lastOf_mapCons φ (rtermOf (K := K) (d := d)) (fun _ => rfl) calls (.factor fun _ => 0)
  have hn : (((calls.map (mapCons φ)).filterMap nlConsOf).map (·.name)) = (calls.filterMap nlConsOf).map (·.name) := by
    rw [nlCons_mapCons, List.map_map]
    exact List.map_congr_left fun c _ => hφ c
  obtain ⟨a1, a2, a3, a4, a5, a6, a7, a8⟩ := hp
  exact ⟨by rw [h1]; exact a1, by rw [h1]; exact a2, by rw [h1]; exact a3, by rw [h1]; exact a4, by rw [h1]; exact a5, fun v => by rw [h4]; exact a6 v, by rw [hn]; exact a7,
    fun f hf j => by rw [h4]; exact a8 f (h5.symm.trans hf) j⟩

theorem configures_mapCons (φ : NlCall K d → NlCall K d) (ops : List (MpcOp K d)) (h : ∀ op ∈ ops, Configures op) : ∀ op ∈ ops.map (mapCons φ), Configures op := by
  intro op hop
  obtain ⟨op, ho, rfl⟩ := List.mem_map.1 hop
  have := h op ho
  cases op <;> first | exact this | trivial

theorem mapCons_setup (φ : NlCall K d → NlCall K d) (mk : Vec K d.nx → Vec K d.nu → Vec K d.nz → Ifcn K d) (S : MpcSettings) (ops1 : List (MpcOp K d)) (h1 : ∀ op ∈ ops1, Configures op)
    (hs : (((MpcObj.new S : MpcObj K d).run mk ops1).exec mk .setup).2 = none) : (((MpcObj.new S : MpcObj K d).run mk (ops1.map (mapCons φ))).exec mk .setup).2 = none := by
  rw [C37_setup_returns_iff mk S ops1 h1] at hs
  rw [C37_setup_returns_iff mk S _ (configures_mapCons φ ops1 h1)]
  refine ⟨hs.1.imp fun ob hob => List.mem_map.2 ⟨_, hob, rfl⟩, fun v => ?_⟩
  rw [lastOf_mapCons φ _ (fun _ => rfl), lastOf_mapCons φ _ (fun _ => rfl)]
  exact hs.2 v

/-- **C118 (no violation accepted).**  Two controllers configured by the same calls, except that the soft constraints with `maximum_violation = 0` are given as hard constraints to
the second one, solve the same problem: `setup()` succeeds for the second if it does for the first, and the input each returns for a global minimiser is the first input of an
optimal policy of the problem configured for the other. -/
theorem C118_hard (S : MpcSettings) (m : DaeModel K d) (ops1 ops2 : List (MpcOp K d)) (h1 : ∀ op ∈ ops1, Configures op) (h2 : ∀ op ∈ ops2, Later op) :
    let mk := fun sx su sz => discreteIfcn m sx su sz 1
    let o1 := (MpcObj.new S : MpcObj K d).run mk ops1
    let o1' := (MpcObj.new S : MpcObj K d).run mk (ops1.map (mapCons harden))
    let o := o1.run mk (.setup :: ops2)
    let o' := o1'.run mk (.setup :: ops2)
    let calls := ops1 ++ ops2.filter isBound
    let calls' := ops1.map (mapCons harden) ++ ops2.filter isBound
    (o1.exec mk .setup).2 = none → PlainCalls S calls →
      (o1'.exec mk .setup).2 = none ∧ ∃ ob, lastOf (fun op => (objectiveOf op).map some) ops1 none = some ob ∧
        ∀ w q, (SolverMinimises o w q → ∃ π, (configured S calls' ob m q).Optimal π ∧ o.returnedInput w = π.U 0 []) ∧
          (SolverMinimises o' w q → ∃ π, (configured S calls ob m q).Optimal π ∧ o'.returnedInput w = π.U 0 []) := by
  intro mk o1 o1' o o' calls calls' hs hp
  have hcalls : calls' = calls.map (mapCons harden) := by
    show ops1.map (mapCons harden) ++ ops2.filter isBound = (ops1 ++ ops2.filter isBound).map (mapCons harden)
    rw [List.map_append]
    congr 1
    symm
    refine (List.map_congr_left fun op hop => ?_).trans (List.map_id _)
    have := (List.mem_filter.1 hop).2
    cases op <;> first | rfl | exact absurd this (by simp [isBound])
  have hs' := mapCons_setup harden mk S ops1 h1 hs
  have hp' : PlainCalls S calls' := hcalls ▸ plain_mapCons harden (fun c => (harden_name c).1) S calls hp
  obtain ⟨ob, hob, hall⟩ := C96_returned_input S m ops1 ops2 h1 h2 hs hp
  obtain ⟨ob', hob', hall'⟩ := C96_returned_input S m (ops1.map (mapCons harden)) ops2 (configures_mapCons harden ops1 h1) h2 hs' hp'
  obtain rfl : ob' = ob := by
    rw [lastOf_mapCons harden _ (fun _ => rfl), hob] at hob'
    exact (Option.some.inj hob').symm
  have hcfg : ∀ q, configured S calls' ob' m q = { configured S calls ob' m q with cons := (configured S calls ob' m q).cons.map harden } := fun q => by
    rw [hcalls, configured_mapCons]
    rfl
  refine ⟨hs', ob', hob, fun w q => ⟨fun hw => ?_, fun hw => ?_⟩⟩
  · obtain ⟨π, ho, hu⟩ := hall w q hw
    exact ⟨π, hcfg q ▸ (C118_zero_violation _ hp.names π).1 ho, hu⟩
  · obtain ⟨π, ho, hu⟩ := hall' w q hw
    obtain ⟨E, hE⟩ := (C118_zero_violation (configured S calls ob' m q) hp.names π).2 (hcfg q ▸ ho)
    exact ⟨_, hE, hu⟩

/-- **C118 (larger penalties).**  Two controllers configured by the same calls, except that all penalties of the second one are multiplied by `t > 1`, solve for the same
parameters: what the second one plans violates the soft constraints no more than what the first one plans (the sum of the violations over the tree, weighted with the first one's
penalties, in the solver's slacks), and costs at least as much otherwise. -/
theorem C118_penalty (S : MpcSettings) (m : DaeModel K d) (ops1 ops2 : List (MpcOp K d)) (h1 : ∀ op ∈ ops1, Configures op) (h2 : ∀ op ∈ ops2, Later op) (t : K) (ht : 1 < t) :
    let mk := fun sx su sz => discreteIfcn m sx su sz 1
    let o1 := (MpcObj.new S : MpcObj K d).run mk ops1
    let o1' := (MpcObj.new S : MpcObj K d).run mk (ops1.map (mapCons (timesPenalty t)))
    let o := o1.run mk (.setup :: ops2)
    let o' := o1'.run mk (.setup :: ops2)
    let calls := ops1 ++ ops2.filter isBound
    let s := lastOf settingsOf calls S
    let violation := fun w : OptX K d => branchSum s.c s.N s.nRobust fun k h _ => slackCost (ops1.filterMap nlConsOf) (w.eps k (number s.c h))
    (o1.exec mk .setup).2 = none → PlainCalls S calls →
      (o1'.exec mk .setup).2 = none ∧ ∃ ob, lastOf (fun op => (objectiveOf op).map some) ops1 none = some ob ∧
        ∀ w w' q, SolverMinimises o w q → SolverMinimises o' w' q → violation w' ≤ violation w ∧
          ∃ π π', (configured S calls ob m q).Optimal π ∧ o.returnedInput w = π.U 0 [] ∧ (configured S calls ob m q).Admissible π' ∧ o'.returnedInput w' = π'.U 0 [] ∧
            (configured S calls ob m q).cost π - violation w ≤ (configured S calls ob m q).cost π' - violation w' := by
  intro mk o1 o1' o o' calls s violation hs hp
  set φ : NlCall K d → NlCall K d := timesPenalty t with hφ
  have hno : ∀ op ∈ ops2.filter isBound, mapCons φ op = op := fun op hop => by
    have := (List.mem_filter.1 hop).2
    cases op <;> first | rfl | exact absurd this (by simp [isBound])
  have hcalls : ops1.map (mapCons φ) ++ ops2.filter isBound = calls.map (mapCons φ) := by
    show _ = (ops1 ++ ops2.filter isBound).map (mapCons φ)
    rw [List.map_append]
    congr 1
    symm
    exact (List.map_congr_left hno).trans (List.map_id _)
  have hcons : calls.filterMap nlConsOf = ops1.filterMap nlConsOf := by
    show (ops1 ++ ops2.filter isBound).filterMap nlConsOf = _
    rw [List.filterMap_append]
    refine (congrArg (ops1.filterMap nlConsOf ++ ·) (List.filterMap_eq_nil_iff.2 ?_)).trans (List.append_nil _)
    intro op hop
    have := (List.mem_filter.1 hop).2
    cases op <;> first | rfl | exact absurd this (by simp [isBound])
  have hs' := mapCons_setup φ mk S ops1 h1 hs
  have hp' : PlainCalls S (ops1.map (mapCons φ) ++ ops2.filter isBound) := hcalls ▸ plain_mapCons φ (fun c => rfl) S calls hp
  obtain ⟨ob, hob, hall⟩ := returned_policy S m ops1 ops2 h1 h2 hs hp
  obtain ⟨ob', hob', hall'⟩ := returned_policy S m (ops1.map (mapCons φ)) ops2 (configures_mapCons φ ops1 h1) h2 hs' hp'
  obtain rfl : ob' = ob := by
    rw [lastOf_mapCons φ _ (fun _ => rfl), hob] at hob'
    exact (Option.some.inj hob').symm
  refine ⟨hs', ob', hob, fun w w' q hw hw' => ?_⟩
  obtain ⟨π, ho, hu, hE⟩ := hall w q hw
  obtain ⟨π', ho', hu', hE'⟩ := hall' w' q hw'
  have hcfg : configured S (ops1.map (mapCons φ) ++ ops2.filter isBound) ob' m q =
      { configured S calls ob' m q with cons := (configured S calls ob' m q).cons.map (timesPenalty t) } := by
    rw [hcalls, configured_mapCons]
    rfl
  have hone : ({ configured S calls ob' m q with cons := (configured S calls ob' m q).cons.map (timesPenalty 1) } : MultiStage K d) = configured S calls ob' m q := by
    have : (configured S calls ob' m q).cons.map (timesPenalty 1) = (configured S calls ob' m q).cons := by
      refine (List.map_congr_left fun c _ => ?_).trans (List.map_id _)
      unfold timesPenalty
      rw [one_mul]
      rfl
    rw [this]
  rw [hcfg] at ho'
  obtain ⟨r1, r2⟩ := C118_larger_penalty (configured S calls ob' m q) 1 t zero_le_one ht π π' (hone.symm ▸ ho) ho'
  have hs2 : (lastOf settingsOf (ops1.map (mapCons φ) ++ ops2.filter isBound) S) = s := by rw [hcalls, lastOf_mapCons φ _ (fun _ => rfl)]
  have v1 : plannedViolation (configured S calls ob' m q) π = violation w := by
    show branchSum _ _ _ (fun k h _ => slackCost (calls.filterMap nlConsOf) (π.E k h)) = _
    rw [hcons]
    simp only [hE]
    rfl
  have v2 : plannedViolation (configured S calls ob' m q) π' = violation w' := by
    show branchSum _ _ _ (fun k h _ => slackCost (calls.filterMap nlConsOf) (π'.E k h)) = _
    rw [hcons]
    simp only [hE', hs2]
    rfl
  unfold costWithout at r2
  rw [v1, v2] at r1 r2
  exact ⟨r1, π, π', ho, hu, (admissible_times _ t π').1 ho'.1, hu', r2⟩

/-! ## Non-vacuity -/
namespace SoftEx
open LifecycleExample (dm x0 u0 model mkD)
/-- one step, nothing to minimise but the penalty for `x > 1`; the violation may be at most `b` -/
def S1 : MpcSettings := ⟨1, 0, 1, false, false, false, false, true⟩
def ob0 : Objective ℚ dm := ⟨fun _ _ _ _ _ => 0, fun _ _ _ => 0⟩
def con (ρ : ℚ) (b : Bound ℚ) : NlCall ℚ dm := { name := "c", dim := 1, expr := fun x _ _ _ _ _ => x x0, ub := .fin 1, soft := true, penalty := ρ, maxViolation := b }
def ops (ρ : ℚ) (b : Bound ℚ) : List (MpcOp ℚ dm) := [.setObjective ob0, .setNlCons (con ρ b)]
def oo (ρ : ℚ) (b : Bound ℚ) : MpcObj ℚ dm := ((MpcObj.new S1).run mkD (ops ρ b)).run mkD (.setup :: [])
theorem conf (ρ b) : ∀ op ∈ ops ρ b, Configures op := by simp [ops, Configures]
theorem ready (ρ b) : (((MpcObj.new S1).run mkD (ops ρ b)).exec mkD .setup).2 = none := by
  rw [C37_setup_returns_iff mkD S1 _ (conf ρ b)]
  refine ⟨⟨ob0, by simp [ops]⟩, fun v => ?_⟩
  have : ∀ s, lastOf (boundOf s v) (ops ρ b) (infOf s) = infOf s := fun s => rfl
  exact this .lower ▸ trivial
theorem plain (ρ b) : PlainCalls S1 (ops ρ b ++ []) where
  cpos := Nat.zero_lt_one
  horizon := Nat.zero_lt_one
  slack := rfl
  noColl := rfl
  noAlg := .inl rfl
  scaling := fun v => (by decide +kernel : (0 : ℚ) < 1)
  names := List.nodup_singleton _
  rterm := by
    intro f hf
    have : lastOf rtermOf (ops ρ b ++ []) (.factor fun _ => 0) = (.factor fun _ => 0 : RTerm ℚ dm) := rfl
    rw [this] at hf
    cases hf

theorem after (ρ b) : After mkD S1 (ops ρ b ++ []) ob0 (oo ρ b) := by
  obtain ⟨ob', ha⟩ := after_setup mkD S1 (ops ρ b) (conf ρ b) (ready ρ b)
  have hob : some ob' = some ob0 := ha.objective.symm
  obtain rfl := Option.some.inj hob
  exact after_run mkD S1 ob0 [] _ _ ha (by simp)

/-- state 3: the constraint is violated by 2, whatever is done -/
def q3 : OptP ℚ dm := ⟨fun _ => 3, fun _ => 0, fun _ => 0, 0⟩
def w3 : OptX ℚ dm := ⟨fun _ _ _ _ => 3, fun _ _ _ _ => 0, fun _ _ _ => 0, fun _ _ _ _ => 2⟩

theorem obj_eq (ρ b) (w : OptX ℚ dm) (q) : (wantedCfg mkD S1 (ops ρ b ++ []) ob0).obj w q = ρ * w.eps 0 0 "c" 0 := by
  have h1 : (wantedCfg mkD S1 (ops ρ b ++ []) ob0).loop = [(0, 0, 0)] := rfl
  have h2 : (wantedCfg mkD S1 (ops ρ b ++ []) ob0).econAt w q 0 0 0 = 0 := by
    show _ * (0 : ℚ) + (_ * (0 : ℚ)) = 0
    simp
  have h3 : (wantedCfg mkD S1 (ops ρ b ++ []) ob0).slackAt w 0 0 = ρ * w.eps 0 0 "c" 0 := by
    show ((ρ * w.eps 0 0 "c" 0 + 0) + 0) = _
    simp
  have h4 : (wantedCfg mkD S1 (ops ρ b ++ []) ob0).rtermAt w q 0 0 0 = 0 := by
    show (0 * _ + 0 : ℚ) = 0
    simp
  unfold MpcCfg.obj
  rw [h1]
  simp only [List.map_cons, List.map_nil, List.sum_cons, List.sum_nil, h2, h3, h4, zero_add, add_zero]

theorem minimises (ρ : ℚ) (hρ : 0 < ρ) (b : Bound ℚ) (hf : (wantedCfg mkD S1 (ops ρ b ++ []) ob0).Feasible w3 q3) : SolverMinimises (oo ρ b) w3 q3 := by
  refine (after_minimises mkD S1 _ ob0 _ (after ρ b) w3 q3).2 ⟨hf, fun w' hw' => ?_⟩
  rw [obj_eq, obj_eq]
  have ha := C12_feasible_is_admissible _ model (plain_regular S1 (ops ρ b ++ []) ob0 model (plain ρ b)) w' q3 hw'
  have h1 := ha.dynamics.1
  have h2 := ha.constraints 0 Nat.zero_lt_one [] ⟨rfl, by simp⟩ 0 rfl (con ρ b) List.mem_cons_self 0 Nat.zero_lt_one
  have h3 : (con ρ b).soft = true := rfl
  rw [if_pos h3] at h2
  have h4 : (w3.eps 0 0 "c" 0) = 2 := rfl
  rw [h4]
  refine mul_le_mul_of_nonneg_left ?_ hρ.le
  have h5 : ((wantedCfg mkD S1 (ops ρ b ++ []) ob0).policy w').X 0 [] x0 = 3 := congrFun h1 x0
  have h6 : ((wantedCfg mkD S1 (ops ρ b ++ []) ob0).policy w').X 0 [] x0 - w'.eps 0 0 "c" 0 ≤ 1 := h2
  rw [h5] at h6
  linarith

theorem feasible (ρ : ℚ) : (wantedCfg mkD S1 (ops ρ .pinf ++ []) ob0).Feasible w3 q3 := by
  refine ⟨fun r hr => ?_, ?_⟩
  · have hrows : (wantedCfg mkD S1 (ops ρ .pinf ++ []) ob0).rows w3 q3 = (wantedCfg mkD S1 (ops 1 .pinf ++ []) ob0).rows w3 q3 := rfl
    rw [hrows] at hr
    revert r
    decide +kernel
  · have h1 : (wantedCfg mkD S1 (ops 1 .pinf ++ []) ob0).InBounds w3 := by refine ⟨?_, ?_, ?_, ?_⟩ <;> decide +kernel
    refine ⟨h1.1, h1.2.1, h1.2.2.1, fun k hk s hs sl hsl i hi => ?_⟩
    obtain rfl : sl = con ρ .pinf := List.mem_singleton.1 hsl
    exact h1.2.2.2 k hk s hs (con 1 .pinf) (List.mem_singleton.2 rfl) i hi

-- hypotheses of `C118_slack`, `C118_penalty`: two controllers, a positive penalty, minimisers with a violation
example : (∀ op ∈ ops 1 .pinf, Configures op) ∧ (((MpcObj.new S1).run mkD (ops 1 .pinf)).exec mkD .setup).2 = none ∧ PlainCalls S1 (ops 1 .pinf ++ []) ∧
    (ops 1 .pinf).map (mapCons (timesPenalty 4)) = ops 4 .pinf ∧ SolverMinimises (oo 1 .pinf) w3 q3 ∧ SolverMinimises (oo 4 .pinf) w3 q3 ∧ w3.eps 0 0 "c" 0 = 2 :=
  ⟨conf _ _, ready _ _, plain _ _, by simp [ops, mapCons, timesPenalty, con], minimises 1 (by norm_num) _ (feasible 1), minimises 4 (by norm_num) _ (feasible 4), rfl⟩

-- `C118_hard`: a constraint without accepted violation
example : (ops 1 (.fin 0)).map (mapCons harden) = [.setObjective ob0, .setNlCons { con 1 (.fin 0) with soft := false }] := by
  simp [ops, mapCons, harden, con]
end SoftEx
end DoMpc
