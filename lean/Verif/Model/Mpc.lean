import Verif.Model.Basic
import Verif.Model.ScenarioTree

/-!
# The optimisation problem of the MPC controller

Models `/repo/do_mpc/controller/_mpc.py:1052-1281` (`_update_bounds`, `_prepare_nlp`) together with the soft-constraint
treatment of `/repo/do_mpc/optimizer.py:483-585` and the discretisation interface of
`/repo/do_mpc/optimizer.py:789-985`.

CasADi structures indexed by power indices become functions of those indices; `-1` becomes the last index.
`_w` is zero in the MPC (`_mpc.py:1146`).
-/
namespace DoMpc
variable {K : Type} [Field K] [LinearOrder K]

/-- The integrator `ifcn(x0, ik, u, zk, tvp, p, w) → [g, xf]` and `n_total_coll_points` returned by
`_setup_discretization` (`/repo/do_mpc/optimizer.py:985`).  `ik`/`zk` are given as sequences of blocks of size
`n_x`/`n_z` (the code concatenates and slices them again). -/
structure Ifcn (K : Type) (d : Dims) where
  ncoll : Nat
  g : Vec K d.nx → (Nat → Vec K d.nx) → Vec K d.nu → (Nat → Vec K d.nz) → Vec K d.ntv → Vec K d.np → Vec K d.nw → List K
  xf : Vec K d.nx → (Nat → Vec K d.nx) → Vec K d.nu → (Nat → Vec K d.nz) → Vec K d.ntv → Vec K d.np → Vec K d.nw → Vec K d.nx

/-- The discrete-time integrator (`/repo/do_mpc/optimizer.py:807-824`): inputs are unscaled, the right-hand side is
scaled back, the algebraic equations are not scaled.  `sp` is `_p_scaling`. -/
def discreteIfcn {d : Dims} (m : DaeModel K d) (sx : Vec K d.nx) (su : Vec K d.nu) (sz : Vec K d.nz) (sp : Vec K d.np) :
    Ifcn K d where
  ncoll := 0
  g := fun x _ u z tv p w => List.ofFn (m.alg (x * sx) (u * su) (z 0 * sz) tv (p * sp) w)
  xf := fun x _ u z tv p w => m.rhs (x * sx) (u * su) (z 0 * sz) tv (p * sp) w / sx

/-- `slack_vars_list` (`/repo/do_mpc/optimizer.py:530-534`). -/
def slackVars {d : Dims} (calls : List (NlCall K d)) : List (NlCall K d) := calls.filter (·.soft)

/-- `_nl_cons` after `self._nl_cons[slack_name] -= self._eps[slack_name]`
(`/repo/do_mpc/optimizer.py:558-571`): component `i` of the constraint `call`. -/
def nlConsValue {d : Dims} (calls : List (NlCall K d)) (call : NlCall K d)
    (x : Vec K d.nx) (u : Vec K d.nu) (z : Vec K d.nz) (tv : Vec K d.ntv) (p : Vec K d.np) (e : Eps K) (i : Nat) : K :=
  (slackVars calls).foldl (fun v sl => if sl.name = call.name then v - e sl.name i else v) (call.expr x u z tv p i)

/-- Rows contributed by one evaluation of `_nl_cons_fun` with its bounds `-inf` and `ub`
(`/repo/do_mpc/optimizer.py:578-585`). -/
def nlRows {d : Dims} (calls : List (NlCall K d))
    (x : Vec K d.nx) (u : Vec K d.nu) (z : Vec K d.nz) (tv : Vec K d.ntv) (p : Vec K d.np) (e : Eps K) : List (Row K) :=
  calls.flatMap fun call => (List.range call.dim).map fun i => ⟨.ninf, nlConsValue calls call x u z tv p e i, call.ub⟩

/-- `epsterm_fun`: `Σ sum1(penalty*eps)` (`/repo/do_mpc/optimizer.py:568-574`). -/
def epsTerm {d : Dims} (calls : List (NlCall K d)) (e : Eps K) : K :=
  ((slackVars calls).map fun sl => ((List.range sl.dim).map fun i => sl.penalty * e sl.name i).sum).sum

/-- Default penalty (`rterm_factor`) or user function (`/repo/do_mpc/controller/_mpc.py:584-668`). -/
inductive RTerm (K : Type) (d : Dims) where
  | factor (r : Vec K d.nu)
  | user (f : Vec K d.nx → Vec K d.nu → Vec K d.nu → Vec K d.nz → Vec K d.ntv → Vec K d.np → K)

/-- Everything `_prepare_nlp` reads (`/repo/do_mpc/controller/_mpc.py:1088-1281`). -/
structure MpcCfg (K : Type) (d : Dims) where
  /-- `settings.n_horizon` -/
  N : Nat
  /-- `settings.n_robust` -/
  nRobust : Nat
  /-- `n_combinations` -/
  c : Nat
  openLoop : Bool := false
  singleSlack : Bool := false
  /-- `nl_cons_check_colloc_points` -/
  nlColloc : Bool := false
  /-- `cons_check_colloc_points` -/
  consColloc : Bool := true
  ifcn : Ifcn K d
  sx : Vec K d.nx
  su : Vec K d.nu
  sz : Vec K d.nz
  xlb : Fin d.nx → Bound K
  xub : Fin d.nx → Bound K
  ulb : Fin d.nu → Bound K
  uub : Fin d.nu → Bound K
  zlb : Fin d.nz → Bound K
  zub : Fin d.nz → Bound K
  /-- `_x_terminal_lb`, `_x_terminal_ub` -/
  xtlb : Fin d.nx → Bound K
  xtub : Fin d.nx → Bound K
  nl : List (NlCall K d)
  lterm : Vec K d.nx → Vec K d.nu → Vec K d.nz → Vec K d.ntv → Vec K d.np → K
  mterm : Vec K d.nx → Vec K d.ntv → Vec K d.np → K
  rterm : RTerm K d

/-- `opt_x` (scaled variables), `/repo/do_mpc/controller/_mpc.py:1118-1125`. -/
structure OptX (K : Type) (d : Dims) where
  x : Nat → Nat → Nat → Vec K d.nx
  z : Nat → Nat → Nat → Vec K d.nz
  u : Nat → Nat → Vec K d.nu
  eps : Nat → Nat → Eps K

/-- `opt_p`, `/repo/do_mpc/controller/_mpc.py:1140-1145`. -/
structure OptP (K : Type) (d : Dims) where
  x0 : Vec K d.nx
  tvp : Nat → Vec K d.ntv
  p : Nat → Vec K d.np
  uPrev : Vec K d.nu

variable {d : Dims}

/-- `n_max_scenarios` (`_mpc.py:1101`). -/
def MpcCfg.nMax (cfg : MpcCfg K d) : Nat := cfg.c ^ cfg.nRobust

/-- `n_u_scenarios` (`_mpc.py:1104-1108`). -/
def MpcCfg.nU (cfg : MpcCfg K d) : Nat := if cfg.openLoop then 1 else cfg.nMax

/-- `n_eps` (`_mpc.py:1111-1114`). -/
def MpcCfg.nEps (cfg : MpcCfg K d) : Nat := if cfg.singleSlack then 1 else cfg.N

/-- index `-1` of the collocation dimension of `_x` (`repeat 1+n_total_coll_points`). -/
def MpcCfg.xLast (cfg : MpcCfg K d) : Nat := cfg.ifcn.ncoll

/-- index `-1` of the collocation dimension of `_z` (`repeat max(n_total_coll_points,1)`). -/
def MpcCfg.zLast (cfg : MpcCfg K d) : Nat := max cfg.ifcn.ncoll 1 - 1

/-- tables returned by `_setup_scenario_tree` -/
def MpcCfg.tree (cfg : MpcCfg K d) : TreeTables := treeTables cfg.N cfg.nRobust cfg.c

/-- `child_scenario[k][s][b]` used as an index. -/
def MpcCfg.child (cfg : MpcCfg K d) (k s b : Nat) : Nat := (cfg.tree.child k s b).toNat

/-- `current_scenario = b + branch_offset[k][s]` (`_mpc.py:1189`). -/
def MpcCfg.cur (cfg : MpcCfg K d) (k s b : Nat) : Nat := ((b : Int) + cfg.tree.offset k s).toNat

/-- `s_u` (`_mpc.py:1186`). -/
def MpcCfg.sU (cfg : MpcCfg K d) (s : Nat) : Nat := if cfg.openLoop then 0 else s

/-- `parent_scenario[k][s_u]` used as an index. -/
def MpcCfg.par (cfg : MpcCfg K d) (k s : Nat) : Nat := (cfg.tree.parent k s).toNat

/-- `k_eps = min(k, n_eps-1)` (`_mpc.py:1208`). -/
def MpcCfg.kEps (cfg : MpcCfg K d) (k : Nat) : Nat := min k (cfg.nEps - 1)

/-- `omega[k] = 1/n_scenarios[k+1]` (`_mpc.py:1176`). -/
def MpcCfg.omega (cfg : MpcCfg K d) (k : Nat) : K := 1 / ((nScenarios cfg.c cfg.nRobust (k + 1) : Nat) : K)

/-- The iterations `(k, s, b)` of the three nested loops, in order (`_mpc.py:1180-1187`). -/
def MpcCfg.loop (cfg : MpcCfg K d) : List (Nat × Nat × Nat) :=
  (List.range cfg.N).flatMap fun k =>
    (List.range (nScenarios cfg.c cfg.nRobust k)).flatMap fun s =>
      (List.range (nBranches cfg.c cfg.nRobust k)).map fun b => (k, s, b)

/-- unscaled state/input/algebraic state (`opt_x_unscaled`, `_mpc.py:1131-1137`). -/
def MpcCfg.xPhys (cfg : MpcCfg K d) (w : OptX K d) (k s i : Nat) : Vec K d.nx := w.x k s i * cfg.sx
def MpcCfg.uPhys (cfg : MpcCfg K d) (w : OptX K d) (k s : Nat) : Vec K d.nu := w.u k s * cfg.su
def MpcCfg.zPhys (cfg : MpcCfg K d) (w : OptX K d) (k s i : Nat) : Vec K d.nz := w.z k s i * cfg.sz

/-- Initial condition rows (`_mpc.py:1168-1172`). -/
def MpcCfg.initRows (cfg : MpcCfg K d) (w : OptX K d) (q : OptP K d) : List (Row K) :=
  List.ofFn fun j => Row.eq0 ((w.x 0 0 cfg.xLast - q.x0 / cfg.sx) j)

/-- Collocation/algebraic rows and continuity rows of one iteration (`_mpc.py:1192-1206`). -/
def MpcCfg.dynRows (cfg : MpcCfg K d) (w : OptX K d) (q : OptP K d) (k s b : Nat) : List (Row K) :=
  let ch := cfg.child k s b
  let x := w.x k s cfg.xLast
  let u := w.u k (cfg.sU s)
  let p := q.p (cfg.cur k s b)
  ((cfg.ifcn.g x (w.x (k + 1) ch) u (w.z k ch) (q.tvp k) p 0).map Row.eq0) ++
    List.ofFn fun j => Row.eq0 ((cfg.ifcn.xf x (w.x (k + 1) ch) u (w.z k ch) (q.tvp k) p 0 - w.x (k + 1) ch cfg.xLast) j)

/-- Nonlinear constraint rows of one iteration (`_mpc.py:1208-1225`). -/
def MpcCfg.nlRowsAt (cfg : MpcCfg K d) (w : OptX K d) (q : OptP K d) (k s b : Nat) : List (Row K) :=
  let p := q.p (cfg.cur k s b)
  let e := w.eps (cfg.kEps k) s
  if cfg.nlColloc then
    (List.range cfg.ifcn.ncoll).flatMap fun i =>
      nlRows cfg.nl (cfg.xPhys w k s i) (cfg.uPhys w k (cfg.sU s)) (cfg.zPhys w k s i) (q.tvp k) p e
  else
    nlRows cfg.nl (cfg.xPhys w k s cfg.xLast) (cfg.uPhys w k (cfg.sU s)) (cfg.zPhys w k s 0) (q.tvp k) p e

/-- `nlp_cons` with bounds (`_mpc.py:1163-1225`). -/
def MpcCfg.rows (cfg : MpcCfg K d) (w : OptX K d) (q : OptP K d) : List (Row K) :=
  cfg.initRows w q ++
    cfg.loop.flatMap fun ksb => cfg.dynRows w q ksb.1 ksb.2.1 ksb.2.2 ++ cfg.nlRowsAt w q ksb.1 ksb.2.1 ksb.2.2

/-- stage and terminal cost of one iteration (`_mpc.py:1231-1239`).  Note the index `s` (not the child) in the
terminal cost, exactly as in the code. -/
def MpcCfg.econAt (cfg : MpcCfg K d) (w : OptX K d) (q : OptP K d) (k s b : Nat) : K :=
  let p := q.p (cfg.cur k s b)
  cfg.omega k * cfg.lterm (cfg.xPhys w k s cfg.xLast) (cfg.uPhys w k (cfg.sU s)) (cfg.zPhys w k s cfg.zLast) (q.tvp k) p +
    (if k = cfg.N - 1 then cfg.omega k * cfg.mterm (cfg.xPhys w (k + 1) s cfg.xLast) (q.tvp (k + 1)) p else 0)

/-- slack cost of one iteration (`_mpc.py:1234`). -/
def MpcCfg.slackAt (cfg : MpcCfg K d) (w : OptX K d) (k s : Nat) : K :=
  epsTerm cfg.nl (w.eps (cfg.kEps k) s)

/-- input-change penalty of one iteration (`_mpc.py:1243-1255`).  The user function gets the *scaled* previous
input, exactly as in the code. -/
def MpcCfg.rtermAt (cfg : MpcCfg K d) (w : OptX K d) (q : OptP K d) (k s b : Nat) : K :=
  match cfg.rterm with
  | .user f =>
    let p := q.p (cfg.cur k s b)
    let uOld := if k = 0 then q.uPrev / cfg.su else w.u (k - 1) (cfg.par k (cfg.sU s))
    f (cfg.xPhys w k s cfg.xLast) (cfg.uPhys w k (cfg.sU s)) uOld (cfg.zPhys w k s cfg.zLast) (q.tvp k) p
  | .factor r =>
    let uOld := if k = 0 then q.uPrev / cfg.su else w.u (k - 1) (cfg.par k (cfg.sU s))
    (List.ofFn fun j => r j * (w.u k (cfg.sU s) j - uOld j) ^ 2).sum

/-- `nlp_obj` (`_mpc.py:1163,1230-1255`). -/
def MpcCfg.obj (cfg : MpcCfg K d) (w : OptX K d) (q : OptP K d) : K :=
  (cfg.loop.map fun ksb =>
    cfg.econAt w q ksb.1 ksb.2.1 ksb.2.2 + cfg.slackAt w ksb.1 ksb.2.1 + cfg.rtermAt w q ksb.1 ksb.2.1 ksb.2.2).sum

/-- Bounds on the optimisation variables (`_lb_opt_x`, `_ub_opt_x`). -/
structure OptXBounds (K : Type) (d : Dims) where
  x : Nat → Nat → Nat → Fin d.nx → Bound K
  z : Nat → Nat → Nat → Fin d.nz → Bound K
  u : Nat → Nat → Fin d.nu → Bound K
  eps : Nat → Nat → String → Nat → Bound K

/-- `opt_x(∓np.inf)` (`_mpc.py:1159-1160`). -/
def OptXBounds.const (b : Bound K) : OptXBounds K d :=
  ⟨fun _ _ _ _ => b, fun _ _ _ _ => b, fun _ _ _ => b, fun _ _ _ _ => b⟩

/-- `_update_bounds` for one side (`_mpc.py:1052-1086`): the assignments in program order.  Every assignment goes
through the `lb_opt_x`/`ub_opt_x` setters, which divide by the scaling (`optimizer.py:233-239,259-265`). -/
def MpcCfg.updateBounds (cfg : MpcCfg K d) (xb xtb : Fin d.nx → Bound K) (zb : Fin d.nz → Bound K)
    (ub : Fin d.nu → Bound K) (eb : String → Nat → Bound K) (B : OptXBounds K d) : OptXBounds K d :=
  let B1 : OptXBounds K d :=
    if cfg.consColloc then
      { B with
        x := fun k s i j => if 1 ≤ k ∧ k < cfg.N then (xb j).divBy (cfg.sx j) else B.x k s i j
        z := fun _ _ _ j => (zb j).divBy (cfg.sz j) }
    else
      { B with
        x := fun k s i j => if 1 ≤ k ∧ k < cfg.N ∧ i = cfg.xLast then (xb j).divBy (cfg.sx j) else B.x k s i j
        z := fun k s i j => if i = 0 then (zb j).divBy (cfg.sz j) else B.z k s i j }
  { B1 with
    x := fun k s i j => if k = cfg.N ∧ i = cfg.xLast then (xtb j).divBy (cfg.sx j) else B1.x k s i j
    u := fun _ _ j => (ub j).divBy (cfg.su j)
    eps := fun _ _ n i => eb n i }

/-- `_eps_ub` (`optimizer.py:565-569`): `inf`, then the maximum violation per slack name. -/
def epsUb (calls : List (NlCall K d)) (name : String) : Bound K :=
  (slackVars calls).foldl (fun b sl => if sl.name = name then sl.maxViolation else b) .pinf

/-- `_lb_opt_x` after `_prepare_nlp`. -/
def MpcCfg.lbx (cfg : MpcCfg K d) : OptXBounds K d :=
  cfg.updateBounds cfg.xlb cfg.xtlb cfg.zlb cfg.ulb (fun _ _ => .fin 0) (.const .ninf)

/-- `_ub_opt_x` after `_prepare_nlp`. -/
def MpcCfg.ubx (cfg : MpcCfg K d) : OptXBounds K d :=
  cfg.updateBounds cfg.xub cfg.xtub cfg.zub cfg.uub (fun n _ => epsUb cfg.nl n) (.const .pinf)

/-- The point respects the variable bounds, for all entries that exist in `opt_x`. -/
def MpcCfg.InBounds (cfg : MpcCfg K d) (w : OptX K d) : Prop :=
  (∀ k ≤ cfg.N, ∀ s < cfg.nMax, ∀ i ≤ cfg.xLast, ∀ j, (cfg.lbx.x k s i j).le (w.x k s i j) ∧ (cfg.ubx.x k s i j).ge (w.x k s i j)) ∧
  (∀ k < cfg.N, ∀ s < cfg.nMax, ∀ i ≤ cfg.zLast, ∀ j, (cfg.lbx.z k s i j).le (w.z k s i j) ∧ (cfg.ubx.z k s i j).ge (w.z k s i j)) ∧
  (∀ k < cfg.N, ∀ s < cfg.nU, ∀ j, (cfg.lbx.u k s j).le (w.u k s j) ∧ (cfg.ubx.u k s j).ge (w.u k s j)) ∧
  (∀ k < cfg.nEps, ∀ s < cfg.nMax, ∀ sl ∈ slackVars cfg.nl, ∀ i < sl.dim,
    (cfg.lbx.eps k s sl.name i).le (w.eps k s sl.name i) ∧ (cfg.ubx.eps k s sl.name i).ge (w.eps k s sl.name i))

/-- Feasible point of the NLP handed to the solver. -/
def MpcCfg.Feasible (cfg : MpcCfg K d) (w : OptX K d) (q : OptP K d) : Prop :=
  (∀ r ∈ cfg.rows w q, r.Holds) ∧ cfg.InBounds w

end DoMpc
