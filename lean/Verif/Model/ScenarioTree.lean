/-!
# Scenario tree of the multi-stage MPC (`/repo/do_mpc/optimizer.py:987-1036`)

The Python code fills integer arrays with nested loops and a running counter.  We model the arrays as total
functions of their indices (`-1`, resp. `0`, where the code leaves the initial value) and the loops as folds over
`range`.  Array bounds are not part of the tables; `Lemmas.ScenarioTree` shows that every index used is in range.
-/
namespace DoMpc

/-- The mutable arrays of `_setup_scenario_tree` plus `scenario_counter`
(`/repo/do_mpc/optimizer.py:1004-1011`). -/
structure TreeTables where
  /-- `child_scenario[k][s][b]`, initially `-1` (line 993) -/
  child : Nat → Nat → Nat → Int
  /-- `parent_scenario[k][s]`, initially `-1` (line 994) -/
  parent : Nat → Nat → Int
  /-- `branch_offset[k][s]`, initially `-1` (line 995) -/
  offset : Nat → Nat → Int
  /-- `structure_scenario[k][s]`, initially `0` (line 996) -/
  struct : Nat → Nat → Int
  /-- `scenario_counter` (line 1000) -/
  counter : Nat

/-- Array initialisation (`/repo/do_mpc/optimizer.py:1004-1007`). -/
def TreeTables.init : TreeTables where
  child := fun _ _ _ => -1
  parent := fun _ _ => -1
  offset := fun _ _ => -1
  struct := fun _ _ => 0
  counter := 0

/-- `arr[i][j] = v` on a two-dimensional array. -/
def upd2 (t : Nat → Nat → Int) (i j : Nat) (v : Int) : Nat → Nat → Int :=
  fun a b => if a = i ∧ b = j then v else t a b

/-- `arr[i][j][l] = v` on a three-dimensional array. -/
def upd3 (t : Nat → Nat → Nat → Int) (i j l : Nat) (v : Int) : Nat → Nat → Nat → Int :=
  fun a b c => if a = i ∧ b = j ∧ c = l then v else t a b c

/-- `n_branches[k]` (`/repo/do_mpc/optimizer.py:1000`): branching only inside the robust horizon. -/
def nBranches (c nRobust : Nat) (k : Nat) : Nat := if k < nRobust then c else 1

/-- `n_scenarios[k]` (`/repo/do_mpc/optimizer.py:1002`). -/
def nScenarios (c nRobust : Nat) (k : Nat) : Nat := c ^ min k nRobust

/-- Body of the innermost loop over `b` (`/repo/do_mpc/optimizer.py:1015-1020`). -/
def treeBranchBody (k s : Nat) (t : TreeTables) (b : Nat) : TreeTables :=
  { t with
    child := upd3 t.child k s b t.counter
    struct := upd2 (upd2 t.struct k t.counter s) (k + 1) t.counter s
    parent := upd2 t.parent (k + 1) t.counter s
    counter := t.counter + 1 }

/-- `branch_offset[k][s]` (`/repo/do_mpc/optimizer.py:1022-1027`). -/
def branchOffsetValue (c nRobust k s : Nat) : Int :=
  if nRobust = 0 then 0
  else if k < nRobust then 0
  else ((s % nBranches c nRobust 0 : Nat) : Int)

/-- Body of the loop over `s` (`/repo/do_mpc/optimizer.py:1013-1027`). -/
def treeScenBody (c nRobust k : Nat) (t : TreeTables) (s : Nat) : TreeTables :=
  let t' := (List.range (nBranches c nRobust k)).foldl (treeBranchBody k s) t
  { t' with offset := upd2 t'.offset k s (branchOffsetValue c nRobust k s) }

/-- Body of the loop over `k` (`/repo/do_mpc/optimizer.py:1009-1027`); the counter restarts at 0. -/
def treeStageBody (c nRobust : Nat) (t : TreeTables) (k : Nat) : TreeTables :=
  (List.range (nScenarios c nRobust k)).foldl (treeScenBody c nRobust k) { t with counter := 0 }

/-- `_setup_scenario_tree` (`/repo/do_mpc/optimizer.py:987-1036`) for horizon `nk`, `n_robust` and
`n_combinations = c`.  `n_branches[0]` raises `IndexError` for an empty horizon (line 993). -/
def setupScenarioTree (nk nRobust c : Nat) : Except String TreeTables :=
  if nk = 0 then .error "IndexError: list index out of range"
  else .ok ((List.range nk).foldl (treeStageBody c nRobust) TreeTables.init)

/-- The tables when no exception is raised. -/
def treeTables (nk nRobust c : Nat) : TreeTables :=
  (List.range nk).foldl (treeStageBody c nRobust) TreeTables.init

end DoMpc
