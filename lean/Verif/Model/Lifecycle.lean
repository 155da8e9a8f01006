import Verif.Model.Mpc

/-!
# Configuring and setting up an MPC object

The attributes of `do_mpc.controller.MPC` that configuration calls write and that `prepare_nlp`, `create_nlp` and the solver read:
`/repo/do_mpc/optimizer.py:45-130,217-265,268-353,355-440,483-585`, `/repo/do_mpc/controller/_mpc.py:143-180,398-668,874-964,1052-1310`.

Simplifications: parameters and time-varying parameters are supplied from the start (`n_combinations` changes like a setting); the two
warnings and the `time.sleep` calls of `_check_validity` are left out; index errors of the bound setters are excluded by the index types.
-/
namespace DoMpc
variable {K : Type} [Field K] [LinearOrder K] {d : Dims}

/-- entry of `_x`, `_u`, `_z` in a power index of `bounds` and `scaling` -/
inductive VarIx (d : Dims) where
  | x (j : Fin d.nx)
  | u (j : Fin d.nu)
  | z (j : Fin d.nz)
  deriving DecidableEq

/-- `'lower'` and `'upper'` -/
inductive Side where
  | lower
  | upper
  deriving DecidableEq, Repr

/-- entry of `opt_x` in a power index of `lb_opt_x`, `ub_opt_x` (one element) -/
inductive OptIx (d : Dims) where
  | x (k s i : Nat) (j : Fin d.nx)
  | u (k s : Nat) (j : Fin d.nu)
  | z (k s i : Nat) (j : Fin d.nz)

/-- The settings (`MPCSettings`) that matter for the problem. -/
structure MpcSettings where
  N : Nat
  nRobust : Nat
  c : Nat
  openLoop : Bool
  singleSlack : Bool
  nlColloc : Bool
  consColloc : Bool
  useTerminal : Bool
  deriving DecidableEq, Repr

/-- A numeric CasADi structure over the states or another variable. -/
abbrev BVec (K : Type) (n : Nat) := Fin n → Bound K

/-- What `_prepare_nlp` leaves behind: the attributes `nlp_obj`, `nlp_cons` (functions of the optimisation variables and parameters), the
scaling it copied to `opt_x_scaling`, and `_lb_opt_x`, `_ub_opt_x`. -/
structure Prepared (K : Type) (d : Dims) where
  cfg : MpcCfg K d
  obj : OptX K d → OptP K d → K
  rows : OptX K d → OptP K d → List (Row K)
  lb : OptXBounds K d
  ub : OptXBounds K d

/-- What `_create_nlp` hands to `nlpsol` (`_mpc.py:1284-1300`). -/
structure NlpFuns (K : Type) (d : Dims) where
  obj : OptX K d → OptP K d → K
  rows : OptX K d → OptP K d → List (Row K)

/-- The objective given to `set_objective`. -/
structure Objective (K : Type) (d : Dims) where
  lterm : Vec K d.nx → Vec K d.nu → Vec K d.nz → Vec K d.ntv → Vec K d.np → K
  mterm : Vec K d.nx → Vec K d.ntv → Vec K d.np → K

/-- The MPC object.  `termLb`/`termUb` is `none` when the attribute `_x_terminal_lb`/`_x_terminal_ub` is *the same structure* as
`_x_lb`/`_x_ub` (`_mpc.py:903-907`).  `slackCost` lists the terms of `slack_cost` with the number of the `_setup_nl_cons` call whose slack
variables they contain; `gen` counts these calls.  `lamX` is the length of `lam_x_num`, if a problem was solved (`initial_run`).  `cat`: the
lists of `prepare_nlp` were concatenated by `create_nlp`. -/
structure MpcObj (K : Type) (d : Dims) where
  set : MpcSettings
  sx : Vec K d.nx
  su : Vec K d.nu
  sz : Vec K d.nz
  xlb : BVec K d.nx
  xub : BVec K d.nx
  ulb : BVec K d.nu
  uub : BVec K d.nu
  zlb : BVec K d.nz
  zub : BVec K d.nz
  termLb : Option (BVec K d.nx)
  termUb : Option (BVec K d.nx)
  objective : Option (Objective K d)
  rterm : RTerm K d
  nl : List (NlCall K d)
  slackCost : List (Nat × NlCall K d)
  gen : Nat
  prep : Option (Prepared K d)
  solver : Option (NlpFuns K d)
  setup : Bool
  cat : Bool
  lamX : Option Nat

/-- The constructor (`_mpc.py:143-180`, `optimizer.py:45-80`). -/
def MpcObj.new (s : MpcSettings) : MpcObj K d :=
  { set := s, sx := 1, su := 1, sz := 1, xlb := fun _ => .ninf, xub := fun _ => .pinf, ulb := fun _ => .ninf, uub := fun _ => .pinf,
    zlb := fun _ => .ninf, zub := fun _ => .pinf, termLb := some fun _ => .ninf, termUb := some fun _ => .pinf, objective := none,
    rterm := .factor 0, nl := [], slackCost := [], gen := 0, prep := none, solver := none, setup := false, cat := false, lamX := none }

/-- `_x_terminal_lb`, `_x_terminal_ub` -/
def MpcObj.term (o : MpcObj K d) : Side → BVec K d.nx
  | .lower => o.termLb.getD o.xlb
  | .upper => o.termUb.getD o.xub

/-- `bounds[side, var_type, name]` (`optimizer.py:293-317`) -/
def MpcObj.getBound (o : MpcObj K d) : Side → VarIx d → Bound K
  | .lower, .x j => o.xlb j
  | .lower, .u j => o.ulb j
  | .lower, .z j => o.zlb j
  | .upper, .x j => o.xub j
  | .upper, .u j => o.uub j
  | .upper, .z j => o.zub j

/-- `terminal_bounds[side, name]` (`_mpc.py:425-445`): the query string is `_x_lb`/`_x_ub`. -/
def MpcObj.getTerminalBound (o : MpcObj K d) (s : Side) (j : Fin d.nx) : Bound K := o.getBound s (.x j)

/-- `var_struct[var_name] = val` of the bounds setter (`optimizer.py:346-349`) -/
def MpcObj.writeBound (o : MpcObj K d) (s : Side) (v : Bound K) : VarIx d → MpcObj K d
  | .x j => match s with
    | .lower => { o with xlb := Function.update o.xlb j v }
    | .upper => { o with xub := Function.update o.xub j v }
  | .u j => match s with
    | .lower => { o with ulb := Function.update o.ulb j v }
    | .upper => { o with uub := Function.update o.uub j v }
  | .z j => match s with
    | .lower => { o with zlb := Function.update o.zlb j v }
    | .upper => { o with zub := Function.update o.zub j v }

/-- `var_struct[var_name] = val` of the terminal bounds setter (`_mpc.py:449-471`): writes to the structure of the state bounds if the
attributes are the same structure. -/
def MpcObj.writeTerminal (o : MpcObj K d) (s : Side) (v : Bound K) (j : Fin d.nx) : MpcObj K d :=
  match s with
  | .lower => match o.termLb with
    | some t => { o with termLb := some (Function.update t j v) }
    | none => { o with xlb := Function.update o.xlb j v }
  | .upper => match o.termUb with
    | some t => { o with termUb := some (Function.update t j v) }
    | none => { o with xub := Function.update o.xub j v }

/-- The configuration as `_prepare_nlp` reads it; `mk` is `_setup_discretization` for the given scaling. -/
def MpcObj.cfg (mk : Vec K d.nx → Vec K d.nu → Vec K d.nz → Ifcn K d) (o : MpcObj K d) (ob : Objective K d) : MpcCfg K d where
  N := o.set.N
  nRobust := o.set.nRobust
  c := o.set.c
  openLoop := o.set.openLoop
  singleSlack := o.set.singleSlack
  nlColloc := o.set.nlColloc
  consColloc := o.set.consColloc
  ifcn := mk o.sx o.su o.sz
  sx := o.sx
  su := o.su
  sz := o.sz
  xlb := o.xlb
  xub := o.xub
  ulb := o.ulb
  uub := o.uub
  zlb := o.zlb
  zub := o.zub
  xtlb := o.term .lower
  xtub := o.term .upper
  nl := o.nl
  lterm := ob.lterm
  mterm := ob.mterm
  rterm := o.rterm

/-- `_update_bounds()` after `prepare_nlp` (`_mpc.py:1052-1086`): the ranges come from the current settings, the divisor from
`opt_x_scaling`, which was filled in `_prepare_nlp`; the slack variables are those of `_prepare_nlp`. -/
def MpcObj.updatePrepared (o : MpcObj K d) (P : Prepared K d) : Prepared K d :=
  let c : MpcCfg K d := { P.cfg with N := o.set.N, consColloc := o.set.consColloc }
  { P with
    lb := c.updateBounds o.xlb (o.term .lower) o.zlb o.ulb (fun _ _ => .fin 0) P.lb
    ub := c.updateBounds o.xub (o.term .upper) o.zub o.uub (fun n _ => epsUb P.cfg.nl n) P.ub }

/-- `_setup_nl_cons` (`optimizer.py:543-585`): the slack cost of the new slack variables is added to `slack_cost`.  CasADi refuses to build
`epsterm` if it depends on the slack variables of an earlier call; a product with the constant 0 is simplified to 0. -/
def MpcObj.setupNlCons (o : MpcObj K d) : MpcObj K d × Option String :=
  let o' := { o with gen := o.gen + 1, slackCost := o.slackCost ++ (slackVars o.nl).map fun sl => (o.gen + 1, sl) }
  if ∀ t ∈ o'.slackCost, t.1 = o.gen + 1 ∨ t.2.penalty = 0 ∨ t.2.dim = 0 then (o', none) else (o', some "RuntimeError")

/-- `lb > ub` in one entry -/
def Bound.gt : Bound K → Bound K → Bool
  | .ninf, _ => false
  | _, .pinf => false
  | .pinf, _ => true
  | .fin _, .ninf => true
  | .fin a, .fin b => decide (b < a)

/-- `_check_validity` (`_mpc.py:874-907`): the objective, the order of the bounds, then the defaults of the terminal bounds. -/
def MpcObj.checkValidity (o : MpcObj K d) : MpcObj K d × Option String :=
  if o.objective.isNone then (o, some "Exception") else
  if (∃ j, (o.xlb j).gt (o.xub j) = true) ∨ (∃ j, (o.ulb j).gt (o.uub j) = true) ∨ (∃ j, (o.zlb j).gt (o.zub j) = true) then (o, some "Exception") else
  ({ o with
      termUb := if (∀ j, o.term .upper j = .pinf) ∧ o.set.useTerminal = true then none else o.termUb
      termLb := if (∀ j, o.term .lower j = .ninf) ∧ o.set.useTerminal = true then none else o.termLb }, none)

/-- `prepare_nlp()` (`_mpc.py:1088-1281`) -/
def MpcObj.prepare (mk : Vec K d.nx → Vec K d.nu → Vec K d.nz → Ifcn K d) (o : MpcObj K d) : MpcObj K d × Option String :=
  match o.setupNlCons with
  | (o1, some e) => (o1, some e)
  | (o1, none) =>
    match o1.checkValidity with
    | (o2, some e) => (o2, some e)
    | (o2, none) =>
      match o2.objective with
      | none => (o2, some "Exception")
      | some ob =>
        let c := o2.cfg mk ob
        ({ o2 with prep := some ⟨c, c.obj, c.rows, c.lbx, c.ubx⟩, cat := false }, none)

/-- `create_nlp()` (`_mpc.py:1284-1310`); `vertcat(*self._nlp_cons)` raises if `_nlp_cons` is the vector that an earlier call left behind. -/
def MpcObj.create (o : MpcObj K d) : MpcObj K d × Option String :=
  match o.prep with
  | none => (o, some "AttributeError")
  | some P => if o.cat then (o, some "Exception") else ({ o with solver := some ⟨P.obj, P.rows⟩, setup := true, cat := true }, none)

/-- Length of `opt_x` (`_mpc.py:1118-1126`) -/
def MpcCfg.nOptX (cfg : MpcCfg K d) : Nat :=
  (cfg.N + 1) * cfg.nMax * (1 + cfg.ifcn.ncoll) * d.nx + cfg.N * cfg.nMax * max cfg.ifcn.ncoll 1 * d.nz + cfg.N * cfg.nU * d.nu +
    cfg.nEps * cfg.nMax * ((slackVars cfg.nl).map (·.dim)).sum

/-- `solve()` as far as sizes are concerned (`optimizer.py:752-787`): after the first run the old multipliers are passed; CasADi refuses
vectors of a wrong length. -/
def MpcObj.solve (o : MpcObj K d) : MpcObj K d × Option String :=
  if !o.setup then (o, some "AssertionError") else
  match o.prep with
  | none => (o, some "AttributeError")
  | some P =>
    match o.lamX with
    | none => ({ o with lamX := some P.cfg.nOptX }, none)
    | some n => if n = P.cfg.nOptX then (o, none) else (o, some "RuntimeError")

/-- the API calls -/
inductive MpcOp (K : Type) (d : Dims) where
  | setParam (s : MpcSettings)
  | settings (s : MpcSettings)
  | setObjective (ob : Objective K d)
  | setRterm (r : RTerm K d)
  | setNlCons (c : NlCall K d)
  | scaling (v : VarIx d) (a : K)
  | bound (s : Side) (v : VarIx d) (b : Bound K)
  | terminalBound (s : Side) (j : Fin d.nx) (b : Bound K)
  | optBound (s : Side) (i : OptIx d) (b : Bound K)
  | nlpObj (f : OptX K d → OptP K d → K)
  | nlpCons (f : OptX K d → OptP K d → List (Row K))
  | prepare
  | create
  | setup
  | solve

/-- one entry of `_lb_opt_x`/`_ub_opt_x` replaced -/
def OptXBounds.write (B : OptXBounds K d) (b : Bound K) : OptIx d → OptXBounds K d
  | .x k s i j => { B with x := fun k' s' i' j' => if k' = k ∧ s' = s ∧ i' = i ∧ j' = j then b else B.x k' s' i' j' }
  | .u k s j => { B with u := fun k' s' j' => if k' = k ∧ s' = s ∧ j' = j then b else B.u k' s' j' }
  | .z k s i j => { B with z := fun k' s' i' j' => if k' = k ∧ s' = s ∧ i' = i ∧ j' = j then b else B.z k' s' i' j' }

/-- one entry -/
def OptXBounds.get (B : OptXBounds K d) : OptIx d → Bound K
  | .x k s i j => B.x k s i j
  | .u k s j => B.u k s j
  | .z k s i j => B.z k s i j

/-- entry of `opt_x_scaling` -/
def MpcCfg.scale (c : MpcCfg K d) : OptIx d → K
  | .x _ _ _ j => c.sx j
  | .u _ _ j => c.su j
  | .z _ _ _ j => c.sz j

/-- `lb_opt_x[ind]`, `ub_opt_x[ind]` (`optimizer.py:231,257`); an error before `prepare_nlp` -/
def MpcObj.getOptBound (o : MpcObj K d) (s : Side) (i : OptIx d) : Option (Bound K) :=
  o.prep.map fun P => match s with
    | .lower => P.lb.get i
    | .upper => P.ub.get i

/-- scaling written (`optimizer.py:439`) -/
def MpcObj.writeScaling (o : MpcObj K d) (a : K) : VarIx d → MpcObj K d
  | .x j => { o with sx := Function.update o.sx j a }
  | .u j => { o with su := Function.update o.su j a }
  | .z j => { o with sz := Function.update o.sz j a }

/-- One call: the object afterwards and the error.  Guards: `set_param` `_mpc.py:508`, `set_objective` `:543`, `set_rterm` `:645`,
`set_nl_cons` `optimizer.py:524`, `scaling` `:421`, `nlp_obj` `:114-115`, `nlp_cons` `:162-163`; none for `settings` (`_mpc.py:182-205`),
`bounds`, `terminal_bounds`, `lb_opt_x`. -/
def MpcObj.exec (mk : Vec K d.nx → Vec K d.nu → Vec K d.nz → Ifcn K d) (o : MpcObj K d) : MpcOp K d → MpcObj K d × Option String
  | .setParam s => if o.setup then (o, some "AssertionError") else ({ o with set := s }, none)
  | .settings s => ({ o with set := s }, none)
  | .setObjective ob => if o.setup then (o, some "AssertionError") else ({ o with objective := some ob }, none)
  | .setRterm r => if o.setup then (o, some "AssertionError") else ({ o with rterm := r }, none)
  | .setNlCons c => if o.setup then (o, some "AssertionError") else ({ o with nl := o.nl ++ [c] }, none)
  | .scaling v a => if o.setup then (o, some "AssertionError") else (o.writeScaling a v, none)
  | .bound s v b =>
    let o' := o.writeBound s b v
    ({ o' with prep := o.prep.map o'.updatePrepared }, none)
  | .terminalBound s j b => (o.writeTerminal s b j, none)
  | .optBound s i b =>
    match o.prep with
    | none => (o, some "TypeError")
    | some P =>
      match s with
      | .lower => ({ o with prep := some { P with lb := P.lb.write (b.divBy (P.cfg.scale i)) i } }, none)
      | .upper => ({ o with prep := some { P with ub := P.ub.write (b.divBy (P.cfg.scale i)) i } }, none)
  | .nlpObj f =>
    match o.prep with
    | none => (o, some "AssertionError")
    | some P => if o.setup then (o, some "AssertionError") else ({ o with prep := some { P with obj := f } }, none)
  | .nlpCons f =>
    match o.prep with
    | none => (o, some "AssertionError")
    | some P => if o.setup then (o, some "AssertionError") else ({ o with prep := some { P with rows := f } }, none)
  | .prepare => o.prepare mk
  | .create => o.create
  | .setup =>
    match o.prepare mk with
    | (o1, some e) => (o1, some e)
    | (o1, none) => o1.create
  | .solve => o.solve

/-- A sequence of calls; errors are caught by the caller. -/
def MpcObj.run (mk : Vec K d.nx → Vec K d.nu → Vec K d.nz → Ifcn K d) (o : MpcObj K d) : List (MpcOp K d) → MpcObj K d
  | [] => o
  | op :: rest => MpcObj.run mk (o.exec mk op).1 rest

/-- The optimisation problem the solver works on (`optimizer.py:754-769`): objective and constraints of `nlpsol`, bounds of the variables. -/
structure SolverProblem (K : Type) (d : Dims) where
  funs : NlpFuns K d
  lb : OptXBounds K d
  ub : OptXBounds K d

/-- … of an object that was set up -/
def MpcObj.problem (o : MpcObj K d) : Option (SolverProblem K d) :=
  match o.solver, o.prep with
  | some S, some P => some ⟨S, P.lb, P.ub⟩
  | _, _ => none

/-- The input `make_step` returns for the solution `w`: `opt_x_num['_u', 0, 0]*self._u_scaling` (`_mpc.py:1015`). -/
def MpcObj.returnedInput (o : MpcObj K d) (w : OptX K d) : Vec K d.nu := w.u 0 0 * o.su

end DoMpc
