import Verif.Model.MheRun
import Verif.Model.Lifecycle

/-!
# Configuring and setting up a moving horizon estimator

The attributes of `do_mpc.estimator.MHE` that configuration calls write and that `prepare_nlp`, `create_nlp` and `make_step` read:
`/repo/do_mpc/estimator/_mhe.py:151-225,441-597,713-859,886-1026,1028-1236`, `/repo/do_mpc/optimizer.py:100-170,217-353,419-447,483-585`.

Simplifications: the mandatory settings were given (otherwise `prepare_nlp` raises `ValueError`); of `make_step` only the measurements handed to the solver and
the clock are modelled here (the rest in `Model/MheRun`); index errors of the bound setters are excluded by the index types.
-/
namespace DoMpc
variable {K : Type} [Field K] [LinearOrder K] {d : Dims} {ne ns : Nat}

/-- entry of `_x`, `_u`, `_z`, `_p_est` in a power index of `bounds` and `scaling` (`optimizer.py:331-332,427-428`) -/
inductive MheIx (d : Dims) (ne : Nat) where
  | x (j : Fin d.nx)
  | u (j : Fin d.nu)
  | z (j : Fin d.nz)
  | p (j : Fin ne)
  deriving DecidableEq

/-- entry of `opt_x` in a power index of `lb_opt_x`, `ub_opt_x` (one element) -/
inductive MheOptIx (d : Dims) (ne : Nat) where
  | x (k i : Nat) (j : Fin d.nx)
  | u (k : Nat) (j : Fin d.nu)
  | z (k i : Nat) (j : Fin d.nz)
  | p (j : Fin ne)

/-- The settings (`MHESettings`) that matter here. -/
structure MheSettings (K : Type) where
  N : Nat
  tStep : K
  measFromData : Bool
  singleSlack : Bool
  nlColloc : Bool
  consColloc : Bool

/-- The costs given to `set_objective`. -/
structure MheCost (K : Type) (d : Dims) (ne ns : Nat) where
  stage : Vec K d.nw → Vec K d.nv → Vec K d.ntv → Vec K d.np → K
  arrival : Vec K d.nx → Vec K d.nx → Vec K ne → Vec K ne → Vec K ns → K

/-- The measurement function: the user's, or the default one, whose template was made for `L` measurements (`_mhe.py:839-853`). -/
inductive MheYFun (K : Type) (d : Dims) where
  | user (f : K → Nat → Vec K d.ny)
  | dflt (L : Nat)

/-- What `_prepare_nlp` leaves behind: `_nlp_obj`, `_nlp_cons` with bounds, the scaling it copied to `opt_x_scaling`, `_lb_opt_x`, `_ub_opt_x`. -/
structure MhePrepared (K : Type) (d : Dims) (ne ns : Nat) where
  cfg : MheCfg K d ne ns
  obj : MheX K d ne → MheP K d ne ns → K
  rows : MheX K d ne → MheP K d ne ns → Except String (List (Row K))
  lb : MheBounds K d ne
  ub : MheBounds K d ne

/-- What `_create_nlp` hands to `nlpsol` (`_mhe.py:1196-1223`). -/
structure MheFuns (K : Type) (d : Dims) (ne ns : Nat) where
  obj : MheX K d ne → MheP K d ne ns → K
  rows : MheX K d ne → MheP K d ne ns → Except String (List (Row K))

/-- The object.  `slackCost`, `gen`, `cat` as for `MpcObj`; `ys` are the logged measurements, `yTmpl` the values in the template that the default measurement
function has captured. -/
structure MheObj (K : Type) (d : Dims) (ne ns : Nat) where
  set : MheSettings K
  sx : Vec K d.nx
  su : Vec K d.nu
  sz : Vec K d.nz
  sp : Vec K ne
  xlb : BVec K d.nx
  xub : BVec K d.nx
  ulb : BVec K d.nu
  uub : BVec K d.nu
  zlb : BVec K d.nz
  zub : BVec K d.nz
  plb : BVec K ne
  pub : BVec K ne
  cost : Option (MheCost K d ne ns)
  nl : List (NlCall K d)
  slackCost : List (Nat × NlCall K d)
  gen : Nat
  tvpFun : Option (K → Nat → Vec K d.ntv)
  pFun : Option (K → Vec K ns)
  yFun : Option (MheYFun K d)
  yTmpl : Nat → Vec K d.ny
  prep : Option (MhePrepared K d ne ns)
  solver : Option (MheFuns K d ne ns)
  setup : Bool
  cat : Bool
  t0 : K
  ys : List (List K)

/-- The constructor (`_mhe.py:151-225`, `optimizer.py:45-80`) and the mandatory settings. -/
def MheObj.new (s : MheSettings K) : MheObj K d ne ns :=
  { set := s, sx := 1, su := 1, sz := 1, sp := 1, xlb := fun _ => .ninf, xub := fun _ => .pinf, ulb := fun _ => .ninf, uub := fun _ => .pinf,
    zlb := fun _ => .ninf, zub := fun _ => .pinf, plb := fun _ => .ninf, pub := fun _ => .pinf, cost := none, nl := [], slackCost := [], gen := 0,
    tvpFun := none, pFun := none, yFun := none, yTmpl := fun _ => 0, prep := none, solver := none, setup := false, cat := false, t0 := 0, ys := [] }

/-- `bounds[side, var_type, name]` (`optimizer.py:293-317`) -/
def MheObj.getBound (o : MheObj K d ne ns) : Side → MheIx d ne → Bound K
  | .lower, .x j => o.xlb j
  | .lower, .u j => o.ulb j
  | .lower, .z j => o.zlb j
  | .lower, .p j => o.plb j
  | .upper, .x j => o.xub j
  | .upper, .u j => o.uub j
  | .upper, .z j => o.zub j
  | .upper, .p j => o.pub j

/-- `var_struct[var_name] = val` of the bounds setter (`optimizer.py:346-349`) -/
def MheObj.writeBound (o : MheObj K d ne ns) (s : Side) (v : Bound K) (i : MheIx d ne) : MheObj K d ne ns :=
  match s, i with
  | .lower, .x j => { o with xlb := Function.update o.xlb j v }
  | .upper, .x j => { o with xub := Function.update o.xub j v }
  | .lower, .u j => { o with ulb := Function.update o.ulb j v }
  | .upper, .u j => { o with uub := Function.update o.uub j v }
  | .lower, .z j => { o with zlb := Function.update o.zlb j v }
  | .upper, .z j => { o with zub := Function.update o.zub j v }
  | .lower, .p j => { o with plb := Function.update o.plb j v }
  | .upper, .p j => { o with pub := Function.update o.pub j v }

/-- scaling written (`optimizer.py:439`) -/
def MheObj.writeScaling (o : MheObj K d ne ns) (a : K) : MheIx d ne → MheObj K d ne ns
  | .x j => { o with sx := Function.update o.sx j a }
  | .u j => { o with su := Function.update o.su j a }
  | .z j => { o with sz := Function.update o.sz j a }
  | .p j => { o with sp := Function.update o.sp j a }

/-- What the model and CasADi provide: the model, which parameters are estimated, `_setup_discretization` for given scaling of states, inputs, algebraic
states and parameters (`_mhe.py:1037-1040`). -/
structure MheTools (K : Type) (d : Dims) (ne ns : Nat) where
  model : DaeModel K d
  sel : Fin d.np → Fin ne ⊕ Fin ns
  ifcn : MheSettings K → Vec K d.nx → Vec K d.nu → Vec K d.nz → Vec K d.np → Ifcn K d

/-- The configuration as `_prepare_nlp` reads it (`_mhe.py:1028-1102`). -/
def MheObj.cfg (T : MheTools K d ne ns) (o : MheObj K d ne ns) (c : MheCost K d ne ns) : MheCfg K d ne ns where
  N := o.set.N
  singleSlack := o.set.singleSlack
  nlColloc := o.set.nlColloc
  consColloc := o.set.consColloc
  model := T.model
  ifcn := T.ifcn o.set o.sx o.su o.sz (fun i => Sum.elim o.sp 1 (T.sel i))
  sel := T.sel
  sx := o.sx
  su := o.su
  sz := o.sz
  sp := o.sp
  xlb := o.xlb
  xub := o.xub
  ulb := o.ulb
  uub := o.uub
  zlb := o.zlb
  zub := o.zub
  plb := o.plb
  pub := o.pub
  nl := o.nl
  stage := c.stage
  arrival := c.arrival

/-- `_update_bounds()` after `prepare_nlp` (`_mhe.py:992-1026`): the ranges come from the current settings, the divisor from `opt_x_scaling`. -/
def MheObj.updatePrepared (o : MheObj K d ne ns) (P : MhePrepared K d ne ns) : MhePrepared K d ne ns :=
  let c : MheCfg K d ne ns := { P.cfg with N := o.set.N, consColloc := o.set.consColloc }
  { P with
    lb := c.updateBounds o.xlb o.zlb o.ulb (fun _ _ => .fin 0) o.plb P.lb
    ub := c.updateBounds o.xub o.zub o.uub (fun n _ => epsUb P.cfg.nl n) o.pub P.ub }

/-- `_setup_nl_cons` (`optimizer.py:543-585`), as in `MpcObj.setupNlCons` -/
def MheObj.setupNlCons (o : MheObj K d ne ns) : MheObj K d ne ns × Option String :=
  let o' := { o with gen := o.gen + 1, slackCost := o.slackCost ++ (slackVars o.nl).map fun sl => (o.gen + 1, sl) }
  if ∀ t ∈ o'.slackCost, t.1 = o.gen + 1 ∨ t.2.penalty = 0 ∨ t.2.dim = 0 then (o', none) else (o', some "RuntimeError")

/-- `_check_validity` (`_mhe.py:800-859`): objective, functions, order of the bounds of `_x`, `_u`, `_z`; then the dummy functions; then the measurement
function: a default one is made only if none has been set before (`flags['set_y_fun']`). -/
def MheObj.checkValidity (o : MheObj K d ne ns) : MheObj K d ne ns × Option String :=
  if o.cost.isNone then (o, some "Exception") else
  if o.tvpFun.isNone ∧ 0 < d.ntv then (o, some "Exception") else
  if o.pFun.isNone ∧ 0 < ns then (o, some "Exception") else
  if (∃ j, (o.xlb j).gt (o.xub j) = true) ∨ (∃ j, (o.ulb j).gt (o.uub j) = true) ∨ (∃ j, (o.zlb j).gt (o.zub j) = true) then (o, some "Exception") else
  let o1 := { o with tvpFun := some (o.tvpFun.getD fun _ _ => 0), pFun := some (o.pFun.getD fun _ => 0) }
  match o.yFun with
  | some _ => (o1, none)
  | none => if o.set.measFromData then ({ o1 with yFun := some (.dflt o.set.N), yTmpl := fun _ => 0 }, none) else (o1, some "Exception")

/-- `prepare_nlp()` (`_mhe.py:1028-1193`).  If the loop over the horizon raises (`MheCfg.nlRowsAt`), a problem prepared earlier is destroyed. -/
def MheObj.prepare (T : MheTools K d ne ns) (o : MheObj K d ne ns) : MheObj K d ne ns × Option String :=
  match o.setupNlCons with
  | (o1, some e) => (o1, some e)
  | (o1, none) =>
    match o1.checkValidity with
    | (o2, some e) => (o2, some e)
    | (o2, none) =>
      match o2.cost with
      | none => (o2, some "Exception")
      | some co =>
        let c := o2.cfg T co
        if c.nlColloc = true ∧ c.ifcn.ncoll = 0 ∧ 0 < c.N then ({ o2 with prep := none }, some "NameError") else
        ({ o2 with prep := some ⟨c, c.obj, c.rows, c.lbx, c.ubx⟩, cat := false }, none)

/-- `create_nlp()` (`_mhe.py:1195-1236`); `vertcat(*self._nlp_cons)` raises if `_nlp_cons` is the vector that an earlier call left behind. -/
def MheObj.create (o : MheObj K d ne ns) : MheObj K d ne ns × Option String :=
  match o.prep with
  | none => (o, some "AttributeError")
  | some P => if o.cat then (o, some "Exception") else ({ o with solver := some ⟨P.obj, P.rows⟩, setup := true, cat := true }, none)

/-- The default measurement function (`_mhe.py:844-853`) with a template for `L` measurements, when `settings.n_horizon` is `N`, on the log `ys`: the last
`n = min(len(ys), N)` measurements go to the end of the template (an error if it is too short), the oldest of them to the first `N - n` entries; in this loop an
index error is swallowed. -/
def yFunDefault (L N : Nat) (ys : List (List K)) (T : Nat → Vec K d.ny) : Except String (Nat → Vec K d.ny) :=
  let n := min ys.length N
  if L < n then .error "Exception" else
  let T1 := (List.range n).foldl (fun T j => setAt T (L - n + j) (rowVec (ys.getD (ys.length - n + j) []))) T
  .ok (if n = 0 then T1 else (List.range (min (N - n) L)).foldl (fun T k => setAt T k (rowVec (ys.getD (ys.length - n) []))) T1)

/-- `make_step(y0)` as far as the measurements and the clock are concerned (`_mhe.py:907-945,984`): the object afterwards and the measurement trajectory in the
parameters of the problem.  Assigning a longer list to an entry of `opt_p_num` takes its first elements (as for `_tvp` in every call), a shorter one is an error.
The functions return a structure for any number of entries. -/
def MheObj.step (o : MheObj K d ne ns) (y0 : List K) : MheObj K d ne ns × Except String (Nat → Vec K d.ny) :=
  if !o.setup then (o, .error "AssertionError") else
  if y0.length ≠ d.ny then (o, .error "AssertionError") else
  let o1 := { o with ys := o.ys ++ [y0] }
  match o.yFun, o.prep with
  | some (.user f), some _ => ({ o1 with t0 := o.t0 + o.set.tStep }, .ok (f o.t0))
  | some (.dflt L), some P =>
    match yFunDefault L o.set.N o1.ys o.yTmpl with
    | .error e => (o1, .error e)
    | .ok y =>
      if L < P.cfg.N then ({ o1 with yTmpl := y }, .error "Exception") else ({ o1 with yTmpl := y, t0 := o.t0 + o.set.tStep }, .ok y)
  | _, _ => (o1, .error "AttributeError")

/-- The API calls.  `valid`: the structure returned by the function has the labels of the template. -/
inductive MheOp (K : Type) (d : Dims) (ne ns : Nat) where
  | setParam (s : MheSettings K)
  | settings (s : MheSettings K)
  | setObjective (c : MheCost K d ne ns)
  | setNlCons (c : NlCall K d)
  | scaling (v : MheIx d ne) (a : K)
  | bound (s : Side) (v : MheIx d ne) (b : Bound K)
  | optBound (s : Side) (i : MheOptIx d ne) (b : Bound K)
  | setTvpFun (f : K → Nat → Vec K d.ntv) (valid : Bool)
  | setPFun (f : K → Vec K ns) (valid : Bool)
  | setYFun (f : K → Nat → Vec K d.ny) (valid : Bool)
  | nlpObj (f : MheX K d ne → MheP K d ne ns → K)
  | nlpCons (f : MheX K d ne → MheP K d ne ns → Except String (List (Row K)))
  | prepare
  | create
  | setup
  | makeStep (y0 : List K)
  | resetHistory

/-- one entry of `_lb_opt_x`/`_ub_opt_x` replaced -/
def MheBounds.write (B : MheBounds K d ne) (b : Bound K) : MheOptIx d ne → MheBounds K d ne
  | .x k i j => { B with x := fun k' i' j' => if k' = k ∧ i' = i ∧ j' = j then b else B.x k' i' j' }
  | .u k j => { B with u := fun k' j' => if k' = k ∧ j' = j then b else B.u k' j' }
  | .z k i j => { B with z := fun k' i' j' => if k' = k ∧ i' = i ∧ j' = j then b else B.z k' i' j' }
  | .p j => { B with pEst := Function.update B.pEst j b }

/-- entry of `opt_x_scaling` -/
def MheCfg.scale (c : MheCfg K d ne ns) : MheOptIx d ne → K
  | .x _ _ j => c.sx j
  | .u _ j => c.su j
  | .z _ _ j => c.sz j
  | .p j => c.sp j

/-- One call: the object afterwards and the error.  Guards: `set_param` `_mhe.py:477`, `set_objective` `:563`, `set_nl_cons` `optimizer.py:524`, `scaling`
`:421`, `nlp_obj` `:114-115`, `nlp_cons` `:162-163`; none for `settings`, `bounds`, `lb_opt_x`, `set_tvp_fun`, `set_p_fun`, `set_y_fun`. -/
def MheObj.exec (T : MheTools K d ne ns) (o : MheObj K d ne ns) : MheOp K d ne ns → MheObj K d ne ns × Option String
  | .setParam s => if o.setup then (o, some "AssertionError") else ({ o with set := s }, none)
  | .settings s => ({ o with set := s }, none)
  | .setObjective c => if o.setup then (o, some "AssertionError") else ({ o with cost := some c }, none)
  | .setNlCons c => if o.setup then (o, some "AssertionError") else ({ o with nl := o.nl ++ [c] }, none)
  | .scaling v a => if o.setup then (o, some "AssertionError") else (o.writeScaling a v, none)
  | .bound s v b =>
    let o' := o.writeBound s b v
    ({ o' with prep := o.prep.map o'.updatePrepared }, none)
  | .optBound s i b =>
    match o.prep with
    | none => (o, some "TypeError")
    | some P =>
      match s with
      | .lower => ({ o with prep := some { P with lb := P.lb.write (b.divBy (P.cfg.scale i)) i } }, none)
      | .upper => ({ o with prep := some { P with ub := P.ub.write (b.divBy (P.cfg.scale i)) i } }, none)
  | .setTvpFun f valid => if valid then ({ o with tvpFun := some f }, none) else (o, some "AssertionError")
  | .setPFun f valid => if valid then ({ o with pFun := some f }, none) else (o, some "AssertionError")
  | .setYFun f valid => if valid then ({ o with yFun := some (.user f) }, none) else (o, some "AssertionError")
  | .nlpObj f =>
    match o.prep with
    | none => (o, some "AssertionError")
    | some P => if o.setup then (o, some "AssertionError") else ({ o with prep := some { P with obj := f } }, none)
  | .nlpCons f =>
    match o.prep with
    | none => (o, some "AssertionError")
    | some P => if o.setup then (o, some "AssertionError") else ({ o with prep := some { P with rows := f } }, none)
  | .prepare => o.prepare T
  | .create => o.create
  | .setup =>
    match o.prepare T with
    | (o1, some e) => (o1, some e)
    | (o1, none) => o1.create
  | .makeStep y0 =>
    match o.step y0 with
    | (o1, .error e) => (o1, some e)
    | (o1, .ok _) => (o1, none)
  | .resetHistory => ({ o with ys := [], t0 := 0 }, none)                     -- `optimizer.py:442-447`

/-- A sequence of calls; errors are caught by the caller. -/
def MheObj.run (T : MheTools K d ne ns) (o : MheObj K d ne ns) : List (MheOp K d ne ns) → MheObj K d ne ns
  | [] => o
  | op :: rest => MheObj.run T (o.exec T op).1 rest

/-- What `make_step` returns and what it stores in `_p_est0`, for the solution `w`: `opt_x_num['_x', -1, -1]*self._x_scaling` and
`opt_x_num['_p_est']*self._p_est_scaling` (`_mhe.py:951-952,986-990`). -/
def MheObj.estimate (o : MheObj K d ne ns) (w : MheX K d ne) : Option (Vec K d.nx × Vec K ne) :=
  o.prep.map fun P => (w.x P.cfg.N P.cfg.xLast * o.sx, w.pEst * o.sp)

end DoMpc
