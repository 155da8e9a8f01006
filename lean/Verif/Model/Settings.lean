import Verif.Model.Files

/-!
# Settings objects (`/repo/do_mpc/controller/_controllersettings.py`, `/repo/do_mpc/estimator/_estimatorsettings.py`, `/repo/do_mpc/simulator.py`)

A small model of the Python objects involved: controllers, estimators and simulators refer to settings objects, settings objects have attributes, an
attribute is a plain value or refers to a mutable container (dictionary or list).  Attributes that an instance does not have are looked up in its class.
-/
namespace DoMpc.Settings

/-- plain values; floating-point numbers by their text -/
inductive PV where
  | none
  | int (n : Int)
  | flt (s : String)
  | bool (b : Bool)
  | str (s : String)
  deriving DecidableEq, Repr

/-- contents of a mutable container -/
inductive Cont where
  | dict (d : List (String × PV))
  | list (l : List String)
  deriving DecidableEq, Repr

/-- an attribute: a value, or a reference to a container -/
inductive HVal where
  | val (v : PV)
  | ref (r : Nat)
  deriving DecidableEq, Repr

/-- what the user writes on the right-hand side: a value, or a new container -/
inductive Lit where
  | val (v : PV)
  | new (c : Cont)
  deriving DecidableEq, Repr

/-- the classes of objects with settings -/
inductive Cls where
  | mpc | lqr | mhe | simD | simC
  deriving DecidableEq, Repr

/-- The fields of the dataclasses with their defaults; `default_factory` creates a new container for every instance
(`_controllersettings.py:34,58,80-138`, `_estimatorsettings.py:33-37,64-113`, `simulator.py:54`). -/
def Cls.fields : Cls → List (String × Lit)
  | .mpc => [("t_step", .val .none), ("n_horizon", .val .none), ("n_robust", .val (.int 0)), ("open_loop", .val (.bool false)),
      ("use_terminal_bounds", .val (.bool false)), ("state_discretization", .val (.str "collocation")), ("collocation_type", .val (.str "radau")),
      ("collocation_deg", .val (.int 2)), ("collocation_ni", .val (.int 1)), ("nl_cons_check_colloc_points", .val (.bool false)),
      ("nl_cons_single_slack", .val (.bool false)), ("cons_check_colloc_points", .val (.bool true)), ("store_full_solution", .val (.bool false)),
      ("store_lagr_multiplier", .val (.bool true)), ("store_solver_stats", .new (.list ["success", "t_wall_total"])), ("nlpsol_opts", .new (.dict []))]
  | .lqr => [("t_step", .val .none), ("n_horizon", .val .none)]
  | .mhe => [("n_horizon", .val .none), ("t_step", .val .none), ("meas_from_data", .val (.bool false)),
      ("state_discretization", .val (.str "collocation")), ("collocation_type", .val (.str "radau")), ("collocation_deg", .val (.int 2)),
      ("collocation_ni", .val (.int 1)), ("nl_cons_check_colloc_points", .val (.bool false)), ("nl_cons_single_slack", .val (.bool false)),
      ("cons_check_colloc_points", .val (.bool true)), ("store_full_solution", .val (.bool false)), ("store_lagr_multiplier", .val (.bool true)),
      ("store_solver_stats", .new (.list ["success", "t_wall_total"])), ("nlpsol_opts", .new (.dict []))]
  | .simD => [("t_step", .val .none)]
  | .simC => [("t_step", .val .none)]

/-- The container of the class attribute `integration_opts`. -/
def optsRef : Nat := 0

/-- Class attributes that are not fields: `ContinousSimulatorSettings` is not decorated with `@dataclass`, so that its additional settings are
attributes of the class (`simulator.py:64-102`). -/
def Cls.classAttrs : Cls → List (String × HVal)
  | .simC => [("abstol", .val (.flt "1e-10")), ("reltol", .val (.flt "1e-10")), ("integration_tool", .val (.str "cvodes")), ("integration_opts", .ref optsRef)]
  | _ => []

/-- Methods, which `hasattr` finds, too.  Simplification: the attributes that every Python object has (`__dict__`, …) are left out. -/
def Cls.methods : Cls → List String
  | .mpc => ["check_for_mandatory_settings", "supress_ipopt_output", "set_linear_solver"]
  | .mhe => ["check_for_mandatory_settings", "supress_ipopt_output", "set_linear_solver"]
  | _ => ["check_for_mandatory_settings"]

/-- the settings that `check_for_mandatory_settings` checks, in order (`_controllersettings.py:37-41,143-149`, `_estimatorsettings.py:40-46,118-124`,
`simulator.py:57-61`) -/
def Cls.mandatory : Cls → List String
  | .mpc => ["t_step", "n_horizon"]
  | .lqr => ["t_step"]
  | .mhe => ["n_horizon", "t_step", "n_horizon"]
  | .simD => ["t_step"]
  | .simC => ["t_step"]

/-- a settings object -/
structure Inst where
  cls : Cls
  attrs : List (String × HVal)

/-- a controller, estimator or simulator: its settings object and `flags['setup']` -/
structure Obj where
  cls : Cls
  inst : Nat
  isSetup : Bool

/-- all objects, settings objects and containers -/
structure World where
  objs : List Obj
  insts : List Inst
  conts : List Cont

/-- at the start: the class attribute `integration_opts = {}` (`simulator.py:96`) -/
def World.init : World := ⟨[], [], [.dict []]⟩

/-- evaluate a right-hand side -/
def World.alloc (W : World) : Lit → World × HVal
  | .val v => (W, .val v)
  | .new c => ({ W with conts := W.conts ++ [c] }, .ref W.conts.length)

/-- attribute lookup: instance, then class -/
def Inst.get (I : Inst) (key : String) : Option HVal :=
  match I.attrs.lookup key with
  | some v => some v
  | none => I.cls.classAttrs.lookup key

/-- `hasattr(settings, key)` -/
def Inst.has (I : Inst) (key : String) : Bool := (I.get key).isSome || I.cls.methods.contains key

/-- the calls -/
inductive Op where
  /-- the constructor; `arg` is the argument `settings` of `MPC` -/
  | create (c : Cls) (arg : Option Nat)
  /-- `obj.set_param(**kwargs)` -/
  | setParam (i : Nat) (kw : List (String × Lit))
  /-- `obj.settings.key = value` -/
  | assign (i : Nat) (key : String) (v : Lit)
  /-- `obj.settings.key = other.settings.key'` -/
  | share (i : Nat) (key : String) (j : Nat) (key' : String)
  /-- `obj.settings = other.settings` -/
  | replace (i j : Nat)
  /-- an operation that changes the container `obj.settings.key` in place -/
  | mutate (i : Nat) (key : String) (f : Cont → Cont)
  /-- `obj.setup()`, as far as settings are concerned -/
  | setup (i : Nat)

/-- `supress_ipopt_output` (`_controllersettings.py:151-157`, `_estimatorsettings.py:126-132`) -/
def suppress : Cont → Cont
  | .dict d => .dict (dictSet (dictSet (dictSet d "ipopt.print_level" (.int 0)) "ipopt.sb" (.str "yes")) "print_time" (.int 0))
  | c => c

/-- `set_linear_solver` (`_controllersettings.py:159-174`, `_estimatorsettings.py:134-149`) -/
def linearSolver (name : String) : Cont → Cont
  | .dict d => .dict (dictSet d "ipopt.linear_solver" (.str name))
  | c => c

/-- write attribute `key` of settings object `k` -/
def World.setAttr (W : World) (k : Nat) (key : String) (v : HVal) : World :=
  { W with insts := W.insts.modify k fun I => { I with attrs := dictSet I.attrs key v } }

/-- a new settings object: the defaults, one after the other -/
def World.newInst (W : World) (c : Cls) : World :=
  let r := c.fields.foldl (fun (r : World × List (String × HVal)) e => ((r.1.alloc e.2).1, r.2 ++ [(e.1, (r.1.alloc e.2).2)])) (W, [])
  { r.1 with insts := r.1.insts ++ [⟨c, r.2⟩] }

/-- one keyword argument of `set_param` (`_mpc.py:510-514`, `_mhe.py:479-483`, `_lqr.py:264-268`, `simulator.py:337-341`): an unknown one is only
reported -/
def World.param (W : World) (k : Nat) (e : String × Lit) : World :=
  match W.insts[k]? with
  | some I => if I.has e.1 then let r := W.alloc e.2; r.1.setAttr k e.1 r.2 else (W.alloc e.2).1
  | none => W

/-- `check_for_mandatory_settings`: the first missing one -/
def Inst.missing (I : Inst) : Option String :=
  I.cls.mandatory.find? fun key => match I.get key with
    | some (.val .none) => true
    | none => true
    | _ => false

/-- Is `flags['setup']` checked by `set_param` (`_mpc.py:508`, `_mhe.py:477`, `simulator.py:335`)?  Not in `_lqr.py:228-268`. -/
def Cls.guarded : Cls → Bool
  | .lqr => false
  | _ => true

/-- Is `settings` a property whose setter only warns (`_mpc.py:202-204`, `simulator.py:191-193`)?  In `MHE` and `LQR` it is an attribute
(`_mhe.py:161`, `_lqr.py:114`). -/
def Cls.fixed : Cls → Bool
  | .lqr => false
  | .mhe => false
  | _ => true

/-- Effect and error of a call.  Calls for objects that do not exist have no effect here. -/
def World.exec (W : World) : Op → World × Option String
  | .create c _ =>                                        -- `_mpc.py:168-169`: the argument is not used
    let W' := W.newInst c
    ({ W' with objs := W'.objs ++ [⟨c, W.insts.length, false⟩] }, none)
  | .setParam i kw =>
    match W.objs[i]? with
    | none => (W, none)
    | some o => if o.cls.guarded && o.isSetup then (W, some "AssertionError") else (kw.foldl (fun W e => W.param o.inst e) W, none)
  | .assign i key v =>
    match W.objs[i]? with
    | none => (W, none)
    | some o => let r := W.alloc v; (r.1.setAttr o.inst key r.2, none)
  | .share i key j key' =>
    match W.objs[i]?, W.objs[j]? with
    | some o, some o' =>
      match (W.insts[o'.inst]?).bind fun I => I.get key' with
      | some v => (W.setAttr o.inst key v, none)
      | none => (W, some "AttributeError")
    | _, _ => (W, none)
  | .replace i j =>
    match W.objs[i]?, W.objs[j]? with
    | some o, some o' =>
      if o.cls.fixed then (W, some "Warning") else ({ W with objs := W.objs.set i { o with inst := o'.inst } }, none)
    | _, _ => (W, none)
  | .mutate i key f =>
    match W.objs[i]? with
    | none => (W, none)
    | some o =>
      match (W.insts[o.inst]?).bind fun I => I.get key with
      | some (.ref r) => ({ W with conts := W.conts.modify r f }, none)
      | some (.val _) => (W, some "TypeError")
      | none => (W, some "AttributeError")
  | .setup i =>
    match W.objs[i]? with
    | none => (W, none)
    | some o =>
      match W.insts[o.inst]? with
      | none => (W, none)
      | some I =>
        if (I.attrs.lookup "check_for_mandatory_settings").isSome then (W, some "TypeError") else
        match I.missing with
        | some _ => (W, some "ValueError")
        | none => ({ W with objs := W.objs.set i { o with isSetup := true } }, none)

/-- a history of calls; the user catches exceptions -/
def World.run (W : World) : List Op → World
  | [] => W
  | op :: ops => (W.exec op).1.run ops

/-- what is seen when a setting is read: a value, or the contents of a container -/
inductive DVal where
  | val (v : PV)
  | cont (c : Cont)
  deriving DecidableEq, Repr

/-- follow a reference -/
def World.deref (W : World) : HVal → DVal
  | .val v => .val v
  | .ref r => .cont (W.conts.getD r (.dict []))

/-- `obj.settings.key` -/
def World.read (W : World) (i : Nat) (key : String) : Option DVal :=
  (W.objs[i]?).bind fun o => (W.insts[o.inst]?).bind fun I => (I.get key).map W.deref

end DoMpc.Settings
