import Verif.Model.Mpc
import Verif.Model.Data

/-!
# The moving horizon estimator: parameters and optimisation problem

Models `/repo/do_mpc/estimator/_mhe.py`: the split of the parameters (`:163-190`), `set_default_objective` (`:599-712`),
`_update_bounds` (`:992-1026`) and `_prepare_nlp` (`:1027-1193`).

`ne`, `ns` are the numbers of entries of `_p_est`, `_p_set`.
-/
namespace DoMpc
variable {K : Type} [Field K] [LinearOrder K]

/-! ### Parameters -/

/-- Names and sizes of the entries of a CasADi structure, in order.  Entries are column vectors; matrix-valued parameters are not
modelled (`vertcat` at `_mhe.py:185` is only applicable to columns). -/
abbrev Layout := List (String × Nat)

section Layouts
variable {α : Type}

/-- `struct(vals).cat`: the flat vector of a structure (CasADi `structure3`, used at `_mhe.py:165-171`). -/
def Layout.flat (L : Layout) (v : String → Nat → α) : List α := L.flatMap fun e => (List.range e.2).map (v e.1)

/-- number of entries, `struct.shape[0]` (`_mhe.py:192-193`) -/
def Layout.size (L : Layout) : Nat := (L.map (·.2)).sum

/-- `struct[name]` for the structure with flat vector `f` (CasADi `structure3`, used at `_mhe.py:179-181`) -/
def Layout.entry (L : Layout) (f : List α) (name : String) : List α :=
  match L with
  | [] => []
  | (n, s) :: rest => if n = name then f.take s else Layout.entry rest (f.drop s) name

/-- `_p_est` (`_mhe.py:165-168`): an empty entry `default`, then the listed parameters in the order of the model. -/
def pEstLayout (p : Layout) (est : List String) : Layout := ("default", 0) :: p.filter fun e => e.1 ∈ est

/-- `_p_set` (`_mhe.py:169-171`). -/
def pSetLayout (p : Layout) (est : List String) : Layout := p.filter fun e => e.1 ∉ est

/-- `_p_cat_fun` (`_mhe.py:174-189`): the names of the model's parameters in order, each taken from `_p_est` if it has an entry of that
name, else from `_p_set`. -/
def pCatFun (p : Layout) (est : List String) (e s : List α) : List α :=
  p.flatMap fun x =>
    if x.1 ∈ (pEstLayout p est).map (·.1) then (pEstLayout p est).entry e x.1
    else if x.1 ∈ (pSetLayout p est).map (·.1) then (pSetLayout p est).entry s x.1
    else []

end Layouts

/-! ### The problem -/

/-- Everything `_prepare_nlp` reads. -/
structure MheCfg (K : Type) (d : Dims) (ne ns : Nat) where
  /-- `settings.n_horizon` -/
  N : Nat
  singleSlack : Bool := false
  /-- `nl_cons_check_colloc_points`, `cons_check_colloc_points` -/
  nlColloc : Bool := false
  consColloc : Bool := true
  model : DaeModel K d
  ifcn : Ifcn K d
  /-- `_p_cat_fun`: every entry of the parameter vector is an entry of `_p_est` or of `_p_set` (`C22_merge_selects`) -/
  sel : Fin d.np → Fin ne ⊕ Fin ns
  sx : Vec K d.nx
  su : Vec K d.nu
  sz : Vec K d.nz
  /-- `_p_est_scaling` -/
  sp : Vec K ne
  xlb : Fin d.nx → Bound K
  xub : Fin d.nx → Bound K
  ulb : Fin d.nu → Bound K
  uub : Fin d.nu → Bound K
  zlb : Fin d.nz → Bound K
  zub : Fin d.nz → Bound K
  plb : Fin ne → Bound K
  pub : Fin ne → Bound K
  /-- user constraints; the code passes `_p_est` and `_p_set` separately, here merged -/
  nl : List (NlCall K d)
  /-- `stage_cost_fun(w, v, tvp, p)` -/
  stage : Vec K d.nw → Vec K d.nv → Vec K d.ntv → Vec K d.np → K
  /-- `arrival_cost_fun(x, x_prev, p_est, p_est_prev, p_set)` -/
  arrival : Vec K d.nx → Vec K d.nx → Vec K ne → Vec K ne → Vec K ns → K

/-- `opt_x` (`_mhe.py:1049-1057`), scaled. -/
structure MheX (K : Type) (d : Dims) (ne : Nat) where
  x : Nat → Nat → Vec K d.nx
  z : Nat → Nat → Vec K d.nz
  u : Nat → Vec K d.nu
  w : Nat → Vec K d.nw
  v : Nat → Vec K d.nv
  eps : Nat → Eps K
  pEst : Vec K ne

/-- `opt_p` (`_mhe.py:1075-1081`). -/
structure MheP (K : Type) (d : Dims) (ne ns : Nat) where
  xPrev : Vec K d.nx
  pEstPrev : Vec K ne
  pSet : Vec K ns
  tvp : Nat → Vec K d.ntv
  yMeas : Nat → Vec K d.ny

variable {d : Dims} {ne ns : Nat}

/-- `_p_cat_fun(p_est, p_set)` -/
def MheCfg.cat (cfg : MheCfg K d ne ns) (e : Vec K ne) (s : Vec K ns) : Vec K d.np := fun i => Sum.elim e s (cfg.sel i)

/-- `_p_scaling` handed to the discretisation (`_mhe.py:1037`). -/
def MheCfg.pScaling (cfg : MheCfg K d ne ns) : Vec K d.np := cfg.cat cfg.sp 1

/-- index `-1` of the collocation dimensions -/
def MheCfg.xLast (cfg : MheCfg K d ne ns) : Nat := cfg.ifcn.ncoll
def MheCfg.zLast (cfg : MheCfg K d ne ns) : Nat := max cfg.ifcn.ncoll 1 - 1

/-- `n_eps` (`_mhe.py:1042-1046`) and `k_eps` (`_mhe.py:1144`) -/
def MheCfg.nEps (cfg : MheCfg K d ne ns) : Nat := if cfg.singleSlack then 1 else cfg.N
def MheCfg.kEps (cfg : MheCfg K d ne ns) (k : Nat) : Nat := min k (cfg.nEps - 1)

/-- `opt_x_unscaled` (`_mhe.py:1064-1073`); `_w`, `_v`, `_eps` are not scaled. -/
def MheCfg.xPhys (cfg : MheCfg K d ne ns) (o : MheX K d ne) (k i : Nat) : Vec K d.nx := o.x k i * cfg.sx
def MheCfg.uPhys (cfg : MheCfg K d ne ns) (o : MheX K d ne) (k : Nat) : Vec K d.nu := o.u k * cfg.su
def MheCfg.zPhys (cfg : MheCfg K d ne ns) (o : MheX K d ne) (k i : Nat) : Vec K d.nz := o.z k i * cfg.sz
def MheCfg.pEstPhys (cfg : MheCfg K d ne ns) (o : MheX K d ne) : Vec K ne := o.pEst * cfg.sp

/-- `_p` (`_mhe.py:1114`): the estimated parameters are the scaled ones. -/
def MheCfg.pCat (cfg : MheCfg K d ne ns) (o : MheX K d ne) (q : MheP K d ne ns) : Vec K d.np := cfg.cat o.pEst q.pSet

/-- Collocation/algebraic and continuity rows of interval `k` (`_mhe.py:1119-1137`). -/
def MheCfg.dynRows (cfg : MheCfg K d ne ns) (o : MheX K d ne) (q : MheP K d ne ns) (k : Nat) : List (Row K) :=
  let x := o.x k cfg.xLast
  ((cfg.ifcn.g x (o.x (k + 1)) (o.u k) (o.z k) (q.tvp k) (cfg.pCat o q) (o.w k)).map Row.eq0) ++
    List.ofFn fun j =>
      Row.eq0 ((cfg.ifcn.xf x (o.x (k + 1)) (o.u k) (o.z k) (q.tvp k) (cfg.pCat o q) (o.w k) - o.x (k + 1) cfg.xLast) j)

/-- Measurement rows (`_mhe.py:1126-1127,1140-1142`): model output at the end of the interval minus the measurement.  The parameters
are the scaled ones, as in the code. -/
def MheCfg.measRows (cfg : MheCfg K d ne ns) (o : MheX K d ne) (q : MheP K d ne ns) (k : Nat) : List (Row K) :=
  List.ofFn fun j => Row.eq0 ((cfg.model.meas (cfg.xPhys o (k + 1) cfg.xLast) (cfg.uPhys o k) (cfg.zPhys o k 0) (q.tvp k)
    (cfg.pCat o q) (o.v k) - q.yMeas k) j)

/-- `_nl_cons_fun` at collocation point `i` of stage `k`, with the scaled estimated parameters (`_mhe.py:1145-1161`). -/
def MheCfg.nlAt (cfg : MheCfg K d ne ns) (o : MheX K d ne) (q : MheP K d ne ns) (k i iz : Nat) : List (Row K) :=
  nlRows cfg.nl (cfg.xPhys o k i) (cfg.uPhys o k) (cfg.zPhys o k iz) (q.tvp k) (cfg.pCat o q) (o.eps (cfg.kEps k))

/-- Nonlinear rows of stage `k` (`_mhe.py:1145-1165`); the last evaluation is appended once more.  Without collocation points
`nl_cons_check_colloc_points` leaves `nl_cons_k` undefined: `NameError`. -/
def MheCfg.nlRowsAt (cfg : MheCfg K d ne ns) (o : MheX K d ne) (q : MheP K d ne ns) (k : Nat) : Except String (List (Row K)) :=
  if cfg.nlColloc then
    if cfg.ifcn.ncoll = 0 then .error "NameError" else
    .ok (((List.range cfg.ifcn.ncoll).flatMap fun i => cfg.nlAt o q k i i) ++ cfg.nlAt o q k (cfg.ifcn.ncoll - 1) (cfg.ifcn.ncoll - 1))
  else .ok (cfg.nlAt o q k cfg.xLast 0 ++ cfg.nlAt o q k cfg.xLast 0)

/-- `nlp_cons` with bounds: the loop over the intervals (`_mhe.py:1117-1165`). -/
def MheCfg.rows (cfg : MheCfg K d ne ns) (o : MheX K d ne) (q : MheP K d ne ns) : Except String (List (Row K)) :=
  (List.range cfg.N).foldl (fun acc k =>
    match acc with
    | .error e => .error e
    | .ok rs =>
      match cfg.nlRowsAt o q k with
      | .error e => .error e
      | .ok nl => .ok (rs ++ (cfg.dynRows o q k ++ cfg.measRows o q k ++ nl))) (.ok [])

/-- `nlp_obj` (`_mhe.py:1103-1111,1167-1172`): the stage cost gets the scaled estimated parameters. -/
def MheCfg.obj (cfg : MheCfg K d ne ns) (o : MheX K d ne) (q : MheP K d ne ns) : K :=
  (List.range cfg.N).foldl (fun acc k =>
      acc + cfg.stage (o.w k) (o.v k) (q.tvp k) (cfg.pCat o q) + epsTerm cfg.nl (o.eps (cfg.kEps k)))
    (cfg.arrival (cfg.xPhys o 0 cfg.xLast) q.xPrev (cfg.pEstPhys o) q.pEstPrev q.pSet)

/-- `opt_aux['_aux', k]` (`_mhe.py:1176-1177`), with the scaled parameters. -/
def MheCfg.auxAt (cfg : MheCfg K d ne ns) (o : MheX K d ne) (q : MheP K d ne ns) (k : Nat) : Vec K d.naux :=
  cfg.model.aux (cfg.xPhys o k cfg.xLast) (cfg.uPhys o k) (cfg.zPhys o k cfg.zLast) (q.tvp k) (cfg.pCat o q)

/-- Bounds on the optimisation variables.  `_w`, `_v` stay unbounded. -/
structure MheBounds (K : Type) (d : Dims) (ne : Nat) where
  x : Nat → Nat → Fin d.nx → Bound K
  z : Nat → Nat → Fin d.nz → Bound K
  u : Nat → Fin d.nu → Bound K
  eps : Nat → String → Nat → Bound K
  pEst : Fin ne → Bound K

/-- `opt_x(∓np.inf)` (`_mhe.py:1093-1094`) -/
def MheBounds.const (b : Bound K) : MheBounds K d ne := ⟨fun _ _ _ => b, fun _ _ _ => b, fun _ _ => b, fun _ _ _ => b, fun _ => b⟩

/-- `_update_bounds` (`_mhe.py:992-1026`) for one side, in program order, through the scaling setters. -/
def MheCfg.updateBounds (cfg : MheCfg K d ne ns) (xb : Fin d.nx → Bound K) (zb : Fin d.nz → Bound K) (ub : Fin d.nu → Bound K)
    (eb : String → Nat → Bound K) (pb : Fin ne → Bound K) (B : MheBounds K d ne) : MheBounds K d ne :=
  let B1 : MheBounds K d ne :=
    if cfg.consColloc then
      { B with x := fun _ _ j => (xb j).divBy (cfg.sx j), z := fun _ _ j => (zb j).divBy (cfg.sz j) }
    else
      { B with
        x := fun k i j => if 1 ≤ k ∧ k < cfg.N ∧ i = cfg.xLast then (xb j).divBy (cfg.sx j) else B.x k i j
        z := fun k i j => if i = 0 then (zb j).divBy (cfg.sz j) else B.z k i j }
  { B1 with
    u := fun _ j => (ub j).divBy (cfg.su j)
    eps := fun _ n i => eb n i
    pEst := fun j => (pb j).divBy (cfg.sp j) }

/-- `_lb_opt_x`, `_ub_opt_x` after `_prepare_nlp` -/
def MheCfg.lbx (cfg : MheCfg K d ne ns) : MheBounds K d ne :=
  cfg.updateBounds cfg.xlb cfg.zlb cfg.ulb (fun _ _ => .fin 0) cfg.plb (.const .ninf)
def MheCfg.ubx (cfg : MheCfg K d ne ns) : MheBounds K d ne :=
  cfg.updateBounds cfg.xub cfg.zub cfg.uub (fun n _ => epsUb cfg.nl n) cfg.pub (.const .pinf)

/-- The point respects the variable bounds, for all entries that exist in `opt_x`. -/
def MheCfg.InBounds (cfg : MheCfg K d ne ns) (o : MheX K d ne) : Prop :=
  (∀ k ≤ cfg.N, ∀ i ≤ cfg.xLast, ∀ j, (cfg.lbx.x k i j).le (o.x k i j) ∧ (cfg.ubx.x k i j).ge (o.x k i j)) ∧
  (∀ k < cfg.N, ∀ i ≤ cfg.zLast, ∀ j, (cfg.lbx.z k i j).le (o.z k i j) ∧ (cfg.ubx.z k i j).ge (o.z k i j)) ∧
  (∀ k < cfg.N, ∀ j, (cfg.lbx.u k j).le (o.u k j) ∧ (cfg.ubx.u k j).ge (o.u k j)) ∧
  (∀ k < cfg.nEps, ∀ sl ∈ slackVars cfg.nl, ∀ i < sl.dim,
    (cfg.lbx.eps k sl.name i).le (o.eps k sl.name i) ∧ (cfg.ubx.eps k sl.name i).ge (o.eps k sl.name i)) ∧
  (∀ j, (cfg.lbx.pEst j).le (o.pEst j) ∧ (cfg.ubx.pEst j).ge (o.pEst j))

/-- Feasible point of the NLP handed to the solver. -/
def MheCfg.Feasible (cfg : MheCfg K d ne ns) (o : MheX K d ne) (q : MheP K d ne ns) : Prop :=
  ∃ rs, cfg.rows o q = .ok rs ∧ (∀ r ∈ rs, r.Holds) ∧ cfg.InBounds o

/-! ### The default objective -/

/-- a matrix with numeric entries; symbolic weights are not modelled -/
abbrev Mat (K : Type) (m n : Nat) := Fin m → Fin n → K

/-- `v.T @ P @ v` -/
def quad {n : Nat} (P : Mat K n n) (v : Vec K n) : K :=
  (List.ofFn fun i => v i * (List.ofFn fun j => P i j * v j).sum).sum

/-- `set_default_objective` (`_mhe.py:660-712`): `none` stands for `None`, which is refused unless the dimension is 0. -/
def defaultObjective (Px : Mat K d.nx d.nx) (Pv : Option (Mat K d.nv d.nv)) (Pp : Option (Mat K ne ne)) (Pw : Option (Mat K d.nw d.nw)) :
    Except String ((Vec K d.nw → Vec K d.nv → Vec K d.ntv → Vec K d.np → K) ×
      (Vec K d.nx → Vec K d.nx → Vec K ne → Vec K ne → Vec K ns → K)) :=
  if Pv.isNone ∧ d.nv ≠ 0 then .error "AssertionError" else
  if Pw.isNone ∧ d.nw ≠ 0 then .error "AssertionError" else
  if Pp.isNone ∧ ne ≠ 0 then .error "AssertionError" else
  .ok (fun w v _ _ => 0 + (match Pv with | some P => quad P v | none => 0) + (match Pw with | some P => quad P w | none => 0),
       fun x xp p pp _ => quad Px (x - xp) + (match Pp with | some P => quad P (p - pp) | none => 0))

end DoMpc
