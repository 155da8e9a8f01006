import Verif.Lemmas.Tree
import Mathlib.Logic.ExistsUnique

/-! # Properties C01, C02: the scenario tree -/
namespace DoMpc
open Spec

/-- **C01**: for every non-empty horizon the tables of `_setup_scenario_tree` form a tree: stage `k` has
`c ^ min k n_robust` nodes, a node of stage `k` has `c` branches inside the robust horizon and one afterwards, every node
of stage `k+1` is the child of exactly one (node, branch) of stage `k`, its parent entry names that node, and children
never leave the range of nodes. -/
theorem C01_scenario_tree_is_tree (nk nR c : Nat) (hnk : 0 < nk) (hc : 0 < c) :
    ∃ T, setupScenarioTree nk nR c = .ok T ∧
      (∀ k, nScenarios c nR k = c ^ min k nR) ∧
      (∀ k, nBranches c nR k = if k < nR then c else 1) ∧
      (∀ k < nk, ∀ j < c ^ min (k + 1) nR,
        ∃! sb : Nat × Nat, sb.1 < c ^ min k nR ∧ sb.2 < (if k < nR then c else 1) ∧
          T.child k sb.1 sb.2 = (j : Int)) ∧
      (∀ k < nk, ∀ s < c ^ min k nR, ∀ b < (if k < nR then c else 1),
        ∃ j < c ^ min (k + 1) nR, T.child k s b = (j : Int) ∧ T.parent (k + 1) j = (s : Int)) := by
  refine ⟨treeTables nk nR c, by simp [setupScenarioTree, treeTables, Nat.ne_of_gt hnk], fun _ => rfl, fun _ => rfl, ?_, ?_⟩
  · intro k hk j hj
    have hBpos := nBranches_pos c nR k hc
    have hj' : j < nScenarios c nR (k + 1) := hj
    have hsc : j < nScenarios c nR k * nBranches c nR k := by rw [← nScenarios_succ]; exact hj'
    refine ⟨(j / nBranches c nR k, j % nBranches c nR k), ?_, ?_⟩
    · refine ⟨?_, Nat.mod_lt _ hBpos, ?_⟩
      · exact Nat.div_lt_of_lt_mul (by rwa [Nat.mul_comm])
      · show (treeTables nk nR c).child k _ _ = _
        rw [treeTables_child nk nR c hc hk (Nat.div_lt_of_lt_mul (by rwa [Nat.mul_comm])) (Nat.mod_lt _ hBpos)]
        congr 1
        rw [Nat.mul_comm]; exact Nat.div_add_mod j _
    · rintro ⟨s, b⟩ ⟨hs, hb, he⟩
      have hb' : b < nBranches c nR k := hb
      have hs' : s < nScenarios c nR k := hs
      rw [treeTables_child nk nR c hc hk hs' hb'] at he
      have he' : s * nBranches c nR k + b = j := Int.ofNat.inj he
      have e1 : j / nBranches c nR k = s := by
        rw [← he']; exact div_between (by omega) (by omega)
      have e2 : j % nBranches c nR k = b := by
        have := Nat.div_add_mod j (nBranches c nR k)
        rw [e1, Nat.mul_comm] at this
        omega
      rw [e1, e2]
  · intro k hk s hs b hb
    have hb' : b < nBranches c nR k := hb
    have hs' : s < nScenarios c nR k := hs
    refine ⟨s * nBranches c nR k + b, child_lt hs' hb', treeTables_child nk nR c hc hk hs' hb', ?_⟩
    rw [treeTables_parent nk nR c hc hk (child_lt hs' hb')]
    congr 1
    exact div_between (by omega) (by omega)

/-- non-vacuity: a 5-stage tree with 3 realisations and robust horizon 2 -/
example : ∃ T, setupScenarioTree 5 2 3 = .ok T ∧ T.child 1 2 1 = 7 ∧ T.parent 2 7 = 2 ∧ T.offset 4 7 = 1 :=
  ⟨treeTables 5 2 3, rfl, by decide, by decide, by decide⟩

/-- An empty horizon is refused (`n_branches[0]` raises). -/
theorem C01_empty_horizon_refused (nR c : Nat) : ∃ e, setupScenarioTree 0 nR c = .error e := ⟨_, rfl⟩

/-- **C02**: there is a numbering of realisation histories by tree nodes such that at every stage histories and nodes
correspond one-to-one, the root is node 0, and from the node of history `h` the parameter indices the code uses on
its branches are exactly the realisations that may occur after `h`, each branch leading to the node of the
extended history. -/
theorem C02_nodes_are_histories (nk nR c : Nat) (hnk : 0 < nk) (hc : 0 < c) :
    ∃ (T : TreeTables) (node : List Nat → Nat), setupScenarioTree nk nR c = .ok T ∧ node [] = 0 ∧
      (∀ k ≤ nk, ∀ h, IsHistory c nR k h → node h < c ^ min k nR) ∧
      (∀ k ≤ nk, ∀ s < c ^ min k nR, ∃! h, IsHistory c nR k h ∧ node h = s) ∧
      (∀ k < nk, ∀ h, IsHistory c nR k h →
        (∀ r, MayOccur c nR k h r ↔
          ∃ b < (if k < nR then c else 1), (b : Int) + T.offset k (node h) = (r : Int)) ∧
        (∀ b < (if k < nR then c else 1), ∀ r : Nat, (b : Int) + T.offset k (node h) = (r : Int) →
          T.child k (node h) b = (node (extend nR k h r) : Int))) := by
  refine ⟨treeTables nk nR c, number c, by simp [setupScenarioTree, treeTables, Nat.ne_of_gt hnk], rfl, ?_, ?_, ?_⟩
  · intro k _ h hh
    exact isHistory_number_lt hh
  · intro k _ s hs
    refine ⟨digitsOf c (min k nR) s, ⟨⟨digitsOf_length _ _ _, digitsOf_lt c _ _ hc⟩, number_digitsOf c _ _ hs⟩, ?_⟩
    rintro h ⟨hh, he⟩
    have := digitsOf_number c h hh.2
    rw [he, hh.1] at this
    exact this.symm
  · intro k hk h hh
    have ho := treeTables_offset nk nR c hc hk (isHistory_number_lt hh)
    refine ⟨?_, ?_⟩
    · intro r
      rw [ho]
      exact mayOccur_iff hh r
    · intro b hb r hr
      rw [ho] at hr
      rw [treeTables_child nk nR c hc hk (isHistory_number_lt hh) hb]
      exact congrArg _ (child_history hh hb hr)

/-- non-vacuity: after history `[2,1]` (robust horizon 2) realisation 1 stays. -/
example : IsHistory 3 2 4 [2, 1] ∧ MayOccur 3 2 4 [2, 1] 1 ∧ ¬ MayOccur 3 2 4 [2, 1] 0 := by
  refine ⟨⟨rfl, by decide⟩, ?_, ?_⟩ <;> simp [MayOccur]

/-- With `n_robust = 0` only the nominal realisation 0 is ever used, whatever the number of combinations. -/
theorem C02_nominal_without_robust_horizon (nk c k : Nat) (hc : 0 < c) (hk : k < nk) :
    nScenarios c 0 k = 1 ∧ nBranches c 0 k = 1 ∧ (treeTables nk 0 c).offset k 0 = 0 := by
  refine ⟨by simp [nScenarios], by simp [nBranches], ?_⟩
  rw [treeTables_offset nk 0 c hc hk (by simp [nScenarios])]
  simp [branchOffsetValue]

end DoMpc
