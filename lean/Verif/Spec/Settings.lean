import Verif.Model.Settings

/-!
# Specification: every object has its own settings

Here an object's settings are a record of values (containers by their contents), and a call changes only the record of the object it is made for.
-/
namespace DoMpc.Settings

/-- value of a right-hand side -/
def Lit.deep : Lit → DVal
  | .val v => .val v
  | .new c => .cont c

/-- the settings of one object -/
structure Rec where
  cls : Cls
  vals : List (String × DVal)
  isSetup : Bool

/-- defaults that are not fields of a dataclass -/
def Cls.otherDefaults : Cls → List (String × DVal)
  | .simC => [("abstol", .val (.flt "1e-10")), ("reltol", .val (.flt "1e-10")), ("integration_tool", .val (.str "cvodes")),
      ("integration_opts", .cont (.dict []))]
  | _ => []

/-- the settings that MPC and MHE have in common and their defaults, from the documentation of the settings -/
def nlpDefaults : List (String × DVal) :=
  [("state_discretization", .val (.str "collocation")), ("collocation_type", .val (.str "radau")), ("collocation_deg", .val (.int 2)),
   ("collocation_ni", .val (.int 1)), ("nl_cons_check_colloc_points", .val (.bool false)), ("nl_cons_single_slack", .val (.bool false)),
   ("cons_check_colloc_points", .val (.bool true)), ("store_full_solution", .val (.bool false)), ("store_lagr_multiplier", .val (.bool true)),
   ("store_solver_stats", .cont (.list ["success", "t_wall_total"])), ("nlpsol_opts", .cont (.dict []))]

/-- the settings of each class and their defaults, from the documentation -/
def Cls.documented : Cls → List (String × DVal)
  | .mpc => [("t_step", .val .none), ("n_horizon", .val .none), ("n_robust", .val (.int 0)), ("open_loop", .val (.bool false)),
      ("use_terminal_bounds", .val (.bool false))] ++ nlpDefaults
  | .lqr => [("t_step", .val .none), ("n_horizon", .val .none)]
  | .mhe => [("n_horizon", .val .none), ("t_step", .val .none), ("meas_from_data", .val (.bool false))] ++ nlpDefaults
  | .simD => [("t_step", .val .none)]
  | .simC => [("t_step", .val .none), ("abstol", .val (.flt "1e-10")), ("reltol", .val (.flt "1e-10")), ("integration_tool", .val (.str "cvodes")),
      ("integration_opts", .cont (.dict []))]

/-- the documented methods of the settings objects: those with a solver have two more -/
def Cls.documentedMethods : Cls → List String
  | .mpc => ["check_for_mandatory_settings", "supress_ipopt_output", "set_linear_solver"]
  | .mhe => ["check_for_mandatory_settings", "supress_ipopt_output", "set_linear_solver"]
  | .lqr => ["check_for_mandatory_settings"]
  | .simD => ["check_for_mandatory_settings"]
  | .simC => ["check_for_mandatory_settings"]

/-- a new object has the defaults -/
def Rec.new (c : Cls) : Rec := ⟨c, c.fields.map fun e => (e.1, e.2.deep), false⟩

/-- read a setting -/
def Rec.get (s : Rec) (key : String) : Option DVal :=
  match s.vals.lookup key with
  | some v => some v
  | none => s.cls.otherDefaults.lookup key

/-- a known name -/
def Rec.has (s : Rec) (key : String) : Bool := (s.get key).isSome || s.cls.methods.contains key

/-- write a setting -/
def Rec.set (s : Rec) (key : String) (v : DVal) : Rec := { s with vals := dictSet s.vals key v }

/-- one keyword argument -/
def Rec.param (s : Rec) (e : String × Lit) : Rec := if s.has e.1 then s.set e.1 e.2.deep else s

/-- a mandatory setting is missing -/
def Rec.missing (s : Rec) : Bool := s.cls.mandatory.any fun key => s.get key = none ∨ s.get key = some (.val .none)

/-- the object for which a call is made -/
def Op.target : Op → Option Nat
  | .create _ _ => none
  | .setParam i _ => some i
  | .assign i _ _ => some i
  | .share i _ _ _ => some i
  | .replace i _ => some i
  | .mutate i _ _ => some i
  | .setup i => some i

/-- A call for this object. -/
def Rec.step (s : Rec) : Op → Rec
  | .setParam _ kw => if s.cls.guarded && s.isSetup then s else kw.foldl Rec.param s
  | .assign _ key v => s.set key v.deep
  | .mutate _ key f =>
    match s.get key with
    | some (.cont c) => s.set key (.cont (f c))
    | _ => s
  | .setup _ => if (s.vals.lookup "check_for_mandatory_settings").isSome || s.missing then s else { s with isSetup := true }
  | _ => s

/-- a call in a world of independent objects -/
def specStep (S : List Rec) (op : Op) : List Rec :=
  match op with
  | .create c _ => S ++ [Rec.new c]
  | op =>
    match op.target with
    | some i => S.modify i fun s => s.step op
    | none => S

end DoMpc.Settings
