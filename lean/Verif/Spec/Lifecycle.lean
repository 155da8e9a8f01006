import Verif.Model.MheLife

/-!
# What a sequence of configuration calls asks for

Written without reference to how the object stores its configuration: every item is read off the list of calls.
-/
namespace DoMpc.Spec
variable {K : Type} [Field K] [LinearOrder K] {d : Dims}

/-- the value of the last call that gives one -/
def lastOf {α β : Type} (f : α → Option β) (ops : List α) (dflt : β) : β := (ops.filterMap f).getLastD dflt

/-- `set_param(…)` or an assignment to `settings` -/
def settingsOf : MpcOp K d → Option MpcSettings
  | .setParam s => some s
  | .settings s => some s
  | _ => none

/-- `set_objective(…)` -/
def objectiveOf : MpcOp K d → Option (Objective K d)
  | .setObjective ob => some ob
  | _ => none

/-- `set_rterm(…)` -/
def rtermOf : MpcOp K d → Option (RTerm K d)
  | .setRterm r => some r
  | _ => none

/-- `set_nl_cons(…)` -/
def nlConsOf : MpcOp K d → Option (NlCall K d)
  | .setNlCons c => some c
  | _ => none

/-- `scaling[v] = …` -/
def scalingOf (v : VarIx d) : MpcOp K d → Option K
  | .scaling v' a => if v' = v then some a else none
  | _ => none

/-- `bounds[s, v] = …` -/
def boundOf (s : Side) (v : VarIx d) : MpcOp K d → Option (Bound K)
  | .bound s' v' b => if s' = s ∧ v' = v then some b else none
  | _ => none

/-- `terminal_bounds[s, j] = …` -/
def terminalOf (s : Side) (j : Fin d.nx) : MpcOp K d → Option (Bound K)
  | .terminalBound s' j' b => if s' = s ∧ j' = j then some b else none
  | _ => none

/-- a call that only configures -/
def Configures : MpcOp K d → Prop
  | .setParam _ | .settings _ | .setObjective _ | .setRterm _ | .setNlCons _ | .scaling _ _ | .bound _ _ _ | .terminalBound _ _ _ => True
  | _ => False

/-- the default of a bound -/
def infOf : Side → Bound K
  | .lower => .ninf
  | .upper => .pinf

/-- The bounds of `terminal_bounds`, and the state bounds if these are all infinite and `use_terminal_bounds` is set. -/
def terminalWanted (ops : List (MpcOp K d)) (S : MpcSettings) (s : Side) (j : Fin d.nx) : Bound K :=
  open Classical in
  if (∀ j, lastOf (terminalOf s j) ops (infOf s) = (infOf s : Bound K)) ∧ S.useTerminal = true then lastOf (boundOf s (.x j)) ops (infOf s)
  else lastOf (terminalOf s j) ops (infOf s)

/-- `lb ≤ ub` for numbers and infinities -/
def Ordered (lb ub : Bound K) : Prop :=
  match lb, ub with
  | .ninf, _ => True
  | _, .pinf => True
  | .fin a, .fin b => a ≤ b
  | .fin _, .ninf => False
  | .pinf, .fin _ => False
  | .pinf, .ninf => False

/-- a physical bound in the units of the scaled variable: the sign of the scaling decides what becomes of infinity -/
def Scaled (b : Bound K) (s : K) : Bound K :=
  match b with
  | .fin v => .fin (v / s)
  | .ninf => if 0 ≤ s then .ninf else .pinf
  | .pinf => if 0 ≤ s then .pinf else .ninf

/-- same entry of `opt_x` -/
def SameEntry : OptIx d → OptIx d → Prop
  | .x k s i j, .x k' s' i' j' => k = k' ∧ s = s' ∧ i = i' ∧ j = j'
  | .u k s j, .u k' s' j' => k = k' ∧ s = s' ∧ j = j'
  | .z k s i j, .z k' s' i' j' => k = k' ∧ s = s' ∧ i = i' ∧ j = j'
  | _, _ => False

/-! ## Moving horizon estimation -/

variable {ne ns : Nat}

/-- `set_param(…)` or an assignment to `settings` -/
def mheSettingsOf : MheOp K d ne ns → Option (MheSettings K)
  | .setParam s => some s
  | .settings s => some s
  | _ => none

/-- `set_objective(…)` -/
def mheCostOf : MheOp K d ne ns → Option (MheCost K d ne ns)
  | .setObjective c => some c
  | _ => none

/-- `set_nl_cons(…)` -/
def mheNlConsOf : MheOp K d ne ns → Option (NlCall K d)
  | .setNlCons c => some c
  | _ => none

/-- `scaling[v] = …` -/
def mheScalingOf (v : MheIx d ne) : MheOp K d ne ns → Option K
  | .scaling v' a => if v' = v then some a else none
  | _ => none

/-- `bounds[s, v] = …` -/
def mheBoundOf (s : Side) (v : MheIx d ne) : MheOp K d ne ns → Option (Bound K)
  | .bound s' v' b => if s' = s ∧ v' = v then some b else none
  | _ => none

/-- `set_tvp_fun(…)` that was accepted -/
def mheTvpOf : MheOp K d ne ns → Option (K → Nat → Vec K d.ntv)
  | .setTvpFun f true => some f
  | _ => none

/-- `set_p_fun(…)` that was accepted -/
def mhePOf : MheOp K d ne ns → Option (K → Vec K ns)
  | .setPFun f true => some f
  | _ => none

/-- `set_y_fun(…)` that was accepted -/
def mheYOf : MheOp K d ne ns → Option (K → Nat → Vec K d.ny)
  | .setYFun f true => some f
  | _ => none

/-- a call that only configures -/
def MheConfigures : MheOp K d ne ns → Prop
  | .setParam _ | .settings _ | .setObjective _ | .setNlCons _ | .scaling _ _ | .bound _ _ _ | .setTvpFun _ _ | .setPFun _ _ | .setYFun _ _ => True
  | _ => False

/-- same entry of `opt_x` -/
def MheSameEntry : MheOptIx d ne → MheOptIx d ne → Prop
  | .x k i j, .x k' i' j' => k = k' ∧ i = i' ∧ j = j'
  | .u k j, .u k' j' => k = k' ∧ j = j'
  | .z k i j, .z k' i' j' => k = k' ∧ i = i' ∧ j = j'
  | .p j, .p j' => j = j'
  | _, _ => False

/-- one entry of the bounds of `opt_x` -/
def mheEntry (B : MheBounds K d ne) : MheOptIx d ne → Bound K
  | .x k i j => B.x k i j
  | .u k j => B.u k j
  | .z k i j => B.z k i j
  | .p j => B.pEst j

end DoMpc.Spec
