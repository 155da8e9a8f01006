import Verif.Model.Sampling
import Mathlib.Data.List.SplitOn

/-!
# Configuration of the sampling tools (`/repo/do_mpc/sampling/`)

`set_param`, `data_dir` and `set_sample_function`: attributes as a dictionary, the list `data_fields` of the names that `set_param` accepts, and Python
functions with their signatures.
-/
namespace DoMpc
variable {V R O : Type}

/-- a Python value of a parameter -/
inductive ConfVal where
  | bool (b : Bool)
  | str (s : String)
  | int (n : Nat)
  deriving DecidableEq, Repr

/-- `'{}'.format(v)` -/
def ConfVal.format : ConfVal → String
  | .bool true => "True"
  | .bool false => "False"
  | .str s => s
  | .int n => Nat.repr n

/-- `bool(v)` -/
def ConfVal.truthy : ConfVal → Bool
  | .bool b => b
  | .str s => s ≠ ""
  | .int n => n ≠ 0

/-- the three classes -/
inductive SKindOf where
  | planner
  | sampler
  | handler
  deriving DecidableEq, Repr

/-- `self.data_fields` (`_samplingplanner.py:37-40`, `_sampler.py:70-75`, `_datahandler.py:78-82`) -/
def SKindOf.dataFields : SKindOf → List String
  | .planner => ["overwrite", "id_precision"]
  | .sampler => ["overwrite", "sample_name", "save_format", "print_progress"]
  | .handler => ["data_dir", "sample_name", "save_format"]

/-- the attributes set by the constructors (`_samplingplanner.py:42-44`, `_sampler.py:77-82`, `_datahandler.py:84-86`) -/
def SKindOf.defaults : SKindOf → List (String × ConfVal)
  | .planner => [("data_dir", .str "./"), ("overwrite", .bool false), ("id_precision", .int 3)]
  | .sampler => [("data_dir", .str "./"), ("sample_name", .str "sample"), ("save_format", .str "pickle"), ("overwrite", .bool false),
      ("print_progress", .bool true), ("n_processes", .int 1)]
  | .handler => [("data_dir", .str "./"), ("sample_name", .str "sample"), ("save_format", .str "pickle")]

/-- one of the three objects with its configuration -/
structure ConfObj where
  kind : SKindOf
  attrs : List (String × ConfVal)

/-- `set_param(**kw)` (`_samplingplanner.py:102-106`, `_sampler.py:126-130`, `_datahandler.py:280-284`): a name that is not in `data_fields` only gives
a message. -/
def ConfObj.setParam (o : ConfObj) (kw : List (String × ConfVal)) : ConfObj :=
  kw.foldl (fun o e => if e.1 ∈ o.kind.dataFields then { o with attrs := dictSet o.attrs e.1 e.2 } else o) o

/-- `obj.data_dir = val` (`_samplingplanner.py:66-69`, `_sampler.py:105-108`, `_datahandler.py:104-106`).  The directories that planner and sampler create
are the subject of `ConfObj.mkdir`. -/
def ConfObj.setDir (o : ConfObj) (val : String) : ConfObj := { o with attrs := dictSet o.attrs "data_dir" (.str val) }

/-- The paths `Path(val)` stands for: its non-empty parents from the outside to the inside, then itself.  `Path` drops empty components and `.`;
`..` and links are not modelled. -/
def pathParents (val : String) : List String :=
  let comps := (val.toList.splitOn '/').filter fun c => c ≠ [] ∧ c ≠ ['.']
  let root : List Char := if val.toList.head? = some '/' then ['/'] else []
  (List.range comps.length).map fun i => String.ofList (root ++ List.intercalate ['/'] (comps.take (i + 1)))

/-- `pathlib.Path(val).mkdir(parents=True, exist_ok=True)` in the setter of planner and sampler; the `DataHandler` creates nothing -/
def ConfObj.mkdir {X : Type} (o : ConfObj) (fs : FS X) (val : String) : List (FS X) × Option String :=
  match o.kind with
  | .handler => ([], none)
  | _ => fs.mkdirs (pathParents val)

/-- the constructor with keyword arguments (`_samplingplanner.py:46-47`, `_sampler.py:85-86`, `_datahandler.py:94-95`) -/
def ConfObj.new (k : SKindOf) (kw : List (String × ConfVal)) : ConfObj := ConfObj.setParam ⟨k, k.defaults⟩ kw

/-- attribute access -/
def ConfObj.get (o : ConfObj) (key : String) : Option ConfVal := o.attrs.lookup key

/-- `'pickle'` or `'mat'`; any other format leaves `save_name` (`_sampler.py:179-182`) or `load_name` (`_datahandler.py:248-251`) without a value -/
def ConfObj.mat (o : ConfObj) : Except String Bool :=
  match o.get "save_format" with
  | some (.str "pickle") => .ok false
  | some (.str "mat") => .ok true
  | _ => .error "UnboundLocalError"

/-- `self.data_dir + …`: only strings can be joined -/
def ConfObj.dir (o : ConfObj) : Except String String :=
  match o.get "data_dir" with
  | some (.str s) => .ok s
  | _ => .error "TypeError"

/-- `'{sample_name}_{id}'.format(...)` -/
def ConfObj.sampleName (o : ConfObj) : String := ((o.get "sample_name").map ConfVal.format).getD ""

/-- A Python function: positional-or-keyword parameters, how many of the last ones have default values, required keyword-only parameters, whether it has
`**kwargs`, and what it computes from its keyword arguments. -/
structure PyFun (V R : Type) where
  args : List String
  defaults : Nat := 0
  kwonly : List String := []
  varkw : Bool := false
  body : Case V → Except String R

/-- `f(**kw)`: unknown and missing arguments raise -/
def PyFun.call (f : PyFun V R) (kw : Case V) : Except String R :=
  if (∃ k ∈ kw.map (·.1), k ∉ f.args ∧ k ∉ f.kwonly) ∧ f.varkw = false then .error "TypeError"
  else if ∃ a ∈ f.args.take (f.args.length - f.defaults) ++ f.kwonly, a ∉ kw.map (·.1) then .error "TypeError"
  else f.body kw

/-- a `Sampler` (`_sampler.py:57-86`) -/
structure SamplerObj (V R : Type) where
  conf : ConfObj
  plan : List (Case V)
  /-- `sampling_vars = list(sampling_plan[0].keys())` -/
  vars : List String
  fn : Option (PyFun V R)

/-- `Sampler(plan, **kw)`: the empty plan has no first element (`_sampler.py:62`) -/
def SamplerObj.new (plan : List (Case V)) (kw : List (String × ConfVal)) : Except String (SamplerObj V R) :=
  match plan with
  | [] => .error "IndexError"
  | c :: _ => .ok ⟨ConfObj.new .sampler kw, plan, c.map (·.1), none⟩

/-- `set_sample_function` (`_sampler.py:163-169`): `getfullargspec(f).args` must be among the names of the first case, `id` included -/
def SamplerObj.setFunction (S : SamplerObj V R) (f : PyFun V R) : SamplerObj V R × Option String :=
  if ∀ a ∈ f.args, a ∈ S.vars then ({ S with fn := some f }, none) else (S, some "AssertionError")

/-- `sample_data` (`_sampler.py:230-243`, with the checks of `sample_idx` `:209-218`).  Without a sample function the first case raises; the format is
looked at when the first name is made.  Simplification: if the format is unknown and the first case has no id, the error is that of the format. -/
def SamplerObj.sampleData (S : SamplerObj V R) (str : V → String) (fs : FS R) : SampleRun R :=
  match S.plan, S.fn with
  | [], _ => ⟨[], [], none⟩
  | _, none => ⟨[], [], some "AssertionError"⟩
  | _, some f =>
    match S.conf.mat, S.conf.dir with
    | .error e, _ => ⟨[], [], some e⟩
    | _, .error e => ⟨[], [], some e⟩
    | .ok mat, .ok dir =>
      SamplerCfg.sampleData { plan := S.plan, dir := dir, sampleName := S.conf.sampleName, mat := mat,
                              overwrite := ((S.conf.get "overwrite").map ConfVal.truthy).getD false, str := str } f.call fs

/-- a `DataHandler` with its configuration, ready to load files (`_datahandler.py:72-96,243-263`) -/
def ConfObj.handler (o : ConfObj) (plan : List (Case V)) (matView : R → R) (str : V → String) : Except String (DHandler V R O) :=
  match o.mat, o.dir with
  | .error e, _ => .error e
  | _, .error e => .error e
  | .ok mat, .ok dir => .ok { plan := plan, dir := dir, sampleName := o.sampleName, mat := mat, matView := matView, str := str }

end DoMpc
