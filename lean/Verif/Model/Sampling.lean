import Verif.Model.Files
import Verif.Model.Uncertainty
import Verif.Model.Results

/-!
# Sampling tools (`/repo/do_mpc/sampling/`)

`SamplingPlanner`, `Sampler` and `DataHandler`.  `V` is the type of values of sampling variables, `R` of sample results.  Random
value generators are sequences (the value of the `n`-th draw).
-/
namespace DoMpc
variable {V R O : Type}

/-- A value in a sampling case: of a sampling variable, or the id string. -/
inductive PVal (V : Type) where
  | val (v : V)
  | id (s : String)
  deriving DecidableEq, Repr

/-- A sampling case, a Python dict. -/
abbrev Case (V : Type) := List (String × PVal V)

/-- `SamplingPlanner` (`_samplingplanner.py:31-48`).  `drawn` counts the calls of value generating functions. -/
structure Planner (V : Type) where
  /-- `sampling_vars`: name and `fun_var_pdf` -/
  vars : List (String × Option (Nat → V)) := []
  plan : List (Case V) := []
  overwrite : Bool := false
  idPrecision : Nat := 3
  drawn : Nat := 0

/-- `set_sampling_var` (`_samplingplanner.py:108-145`); the type checks are not modelled. -/
def Planner.setVar (P : Planner V) (name : String) (gen : Option (Nat → V)) : Planner V :=
  { P with vars := P.vars ++ [(name, gen)] }

/-- The loop that adds values of the variables not passed (`_samplingplanner.py:180-186`); state: the case and the number of draws. -/
def augment (keys : List String) : List (String × Option (Nat → V)) → Case V → Nat → Except (String × Nat) (Case V × Nat)
  | [], c, n => .ok (c, n)
  | (name, gen) :: rest, c, n =>
    if name ∈ keys then augment keys rest c n
    else match gen with
      | none => .error ("AssertionError", n)
      | some g => augment keys rest (dictSet c name (.val (g n))) (n + 1)

/-- `add_sampling_case(**kw)` (`_samplingplanner.py:147-194`). -/
def Planner.addCase (P : Planner V) (kw : List (String × V)) : Planner V × Option String :=
  if ∀ k ∈ kw.map (·.1), k ∈ P.vars.map (·.1) then
    let c0 : Case V := kw.foldl (fun c e => dictSet c e.1 (.val e.2)) []
    match augment (kw.map (·.1)) P.vars c0 P.drawn with
    | .error (e, n) => ({ P with drawn := n }, some e)
    | .ok (c, n) =>
      ({ P with drawn := n, plan := P.plan ++ [dictSet c "id" (.id (zfill P.idPrecision P.plan.length))] }, none)
  else (P, some "Exception")

/-- several calls of `add_sampling_case`, ending with the first error -/
def Planner.addCases (P : Planner V) : List (List (String × V)) → Planner V × Option String
  | [] => (P, none)
  | kw :: rest =>
    match P.addCase kw with
    | (P', none) => P'.addCases rest
    | (P', some e) => (P', some e)

/-- `gen_sampling_plan(n)` (`_samplingplanner.py:198-217`). -/
def Planner.gen (P : Planner V) (n : Nat) : Planner V × Option String :=
  if n = 0 then (P, some "AssertionError") else P.addCases (List.replicate n [])

/-- `product(**kw)` (`_samplingplanner.py:219-254`). -/
def Planner.product (P : Planner V) (kw : List (String × List V)) : Planner V × Option String :=
  if ∀ k ∈ kw.map (·.1), k ∈ P.vars.map (·.1) then
    P.addCases ((pyProduct (kw.map (·.2))).map fun vals => (kw.map (·.1)).zip vals)
  else (P, some "ValueError")

/-- `export` (`_samplingplanner.py:256-279`).  `stem` is the given name without extension (`os.path.splitext(name)[0]`). -/
def Planner.export (P : Planner V) (fs : FS (List (Case V))) (dir stem : String) : FileRun (List (Case V)) :=
  let full := dir ++ stem ++ ".pkl"
  if !fs.isFile full || P.overwrite then
    let w := fs.write (pickleName full) P.plan
    ⟨w.1, w.2⟩
  else
    match ((List.range 9999).map fun i => dir ++ stem ++ Nat.repr (i + 1) ++ ".pkl").find? (fun f => !fs.isFile f) with
    | some f => let w := fs.write (pickleName f) P.plan
                ⟨w.1, w.2⟩
    | none => ⟨[], none⟩

/-- Settings of a `Sampler` (`_sampler.py:57-87`) and the sample function.  `str` is Python's `str` on variable values (only used
if a hand-made plan has an id that is not a string). -/
structure SamplerCfg (V R : Type) where
  plan : List (Case V)
  dir : String := "./"
  sampleName : String := "sample"
  /-- `save_format == 'mat'` -/
  mat : Bool := false
  overwrite : Bool := false
  str : V → String

/-- The id of a case as it appears in a file name. -/
def caseId (str : V → String) (c : Case V) : Option String :=
  match c.lookup "id" with
  | some (.id s) => some s
  | some (.val v) => some (str v)
  | none => none

/-- `data_dir + _save_name(id)` (`_sampler.py:173-184`); also the name the `DataHandler` loads (`_datahandler.py:246-251`). -/
def sampleFile (dir sampleName : String) (mat : Bool) (id : String) : String :=
  dir ++ (sampleName ++ "_" ++ id ++ (if mat then ".mat" else ".pkl"))

/-- An execution of the sampler: file system states, indices for which the sample function was called, outcome. -/
structure SampleRun (R : Type) where
  trace : List (FS R)
  calls : List Nat
  outcome : Option String

/-- last file system state -/
def SampleRun.final (fs : FS R) (r : SampleRun R) : FS R := r.trace.getLastD fs

/-- `sample_idx(idx)` (`_sampler.py:198-228`) with `_save` (`_sampler.py:187-195`).  `f` is the sample function, called with the case
without its id. -/
def SamplerCfg.sampleIdx (cfg : SamplerCfg V R) (f : Case V → Except String R) (fs : FS R) (idx : Nat) : SampleRun R :=
  if idx ≤ cfg.plan.length then
    match cfg.plan[idx]? with
    | none => ⟨[], [], some "IndexError"⟩
    | some c =>
      match caseId cfg.str c with
      | none => ⟨[], [], some "KeyError"⟩
      | some id =>
        let full := sampleFile cfg.dir cfg.sampleName cfg.mat id
        if !fs.isFile full || cfg.overwrite then
          match f (dictDel c "id") with
          | .error e => ⟨[], [idx], some e⟩
          | .ok r =>
            let w := fs.write (if cfg.mat then full else pickleName full) r
            ⟨w.1, [idx], w.2⟩
        else ⟨[], [], none⟩
  else ⟨[], [], some "AssertionError"⟩

/-- the loop of `sample_data` -/
def SamplerCfg.sampleList (cfg : SamplerCfg V R) (f : Case V → Except String R) (fs : FS R) : List Nat → SampleRun R
  | [] => ⟨[], [], none⟩
  | i :: is =>
    let r := cfg.sampleIdx f fs i
    match r.outcome with
    | some e => ⟨r.trace, r.calls, some e⟩
    | none =>
      let r' := cfg.sampleList f (r.final fs) is
      ⟨r.trace ++ r'.trace, r.calls ++ r'.calls, r'.outcome⟩

/-- `sample_data` (`_sampler.py:230-243`). -/
def SamplerCfg.sampleData (cfg : SamplerCfg V R) (f : Case V → Except String R) (fs : FS R) : SampleRun R :=
  cfg.sampleList f fs (List.range cfg.plan.length)

/-- A value in a result dictionary of the `DataHandler`. -/
inductive DVal (V R O : Type) where
  | inp (v : PVal V)
  | raw (r : Option R)
  | post (o : O)
  | none
  deriving DecidableEq, Repr

/-- A post-processing function with its number of parameters (`_datahandler.py:338-343`). -/
inductive PostFn (V R O : Type) where
  | one (f : R → O)
  | two (f : Case V → R → O)
  | other

/-- `DataHandler` (`_datahandler.py:72-96`).  `matView` is what `sio.loadmat` returns for a saved value. -/
structure DHandler (V R O : Type) where
  plan : List (Case V)
  dir : String := "./"
  sampleName : String := "sample"
  mat : Bool := false
  matView : R → R
  str : V → String
  /-- `post_processing` and `flags['set_post_processing']` -/
  post : List (String × PostFn V R O) := []
  /-- `pre_loaded_data` -/
  cache : List (String × Option R) := []

/-- `_load` (`_datahandler.py:243-263`): a missing file gives `None`. -/
def DHandler.load (H : DHandler V R O) (fs : FS R) (id : String) : Except String (Option R) :=
  match fs.load (sampleFile H.dir H.sampleName H.mat id) with
  | .ok r => .ok (some (if H.mat then H.matView r else r))
  | .error e => if e = "FileNotFoundError" then .ok none else .error e

/-- `_lazy_loading` (`_datahandler.py:136-147`). -/
def DHandler.lazyLoad (H : DHandler V R O) (fs : FS R) (c : Case V) : DHandler V R O × Except String (Option R) :=
  match caseId H.str c with
  | none => (H, .error "KeyError")
  | some id =>
    match H.cache.lookup id with
    | some r => (H, .ok r)
    | none =>
      match H.load fs id with
      | .error e => (H, .error e)
      | .ok r => ({ H with cache := H.cache ++ [(id, r)] }, .ok r)

/-- One post-processing function is applied (`_datahandler.py:156-164`). -/
def postStep (c : Case V) (r : Option R) (d : List (String × DVal V R O)) (kf : String × PostFn V R O) : List (String × DVal V R O) :=
  match r with
  | some x =>
    match kf.2 with
    | .one f => dictSet d kf.1 (.post (f x))
    | .two f => dictSet d kf.1 (.post (f c x))
    | .other => d
  | none => dictSet d kf.1 .none

/-- `_post_process_single` (`_datahandler.py:150-169`). -/
def DHandler.postProcess (H : DHandler V R O) (c : Case V) (r : Option R) : List (String × DVal V R O) :=
  let base : List (String × DVal V R O) := c.map fun e => (e.1, .inp e.2)
  if H.post.isEmpty then dictSet base "res" (.raw r)
  else H.post.foldl (postStep c r) base

/-- load and post-process the given cases, in order -/
def DHandler.collect (H : DHandler V R O) (fs : FS R) : List (Case V) → DHandler V R O × Except String (List (List (String × DVal V R O)))
  | [] => (H, .ok [])
  | c :: cs =>
    match H.lazyLoad fs c with
    | (H', .error e) => (H', .error e)
    | (H', .ok r) =>
      match H'.collect fs cs with
      | (H'', .error e) => (H'', .error e)
      | (H'', .ok ds) => (H'', .ok (H'.postProcess c r :: ds))

/-- Index argument of `__getitem__`: an integer, a slice without step, or a tuple/list. -/
inductive DInd where
  | int (i : Int)
  | slice (lo hi : Option Int)
  | seq

/-- Python's clamping of slice bounds for a sequence of length `n` -/
def pySliceBound (n : Nat) (default : Nat) (b : Option Int) : Nat :=
  match b with
  | none => default
  | some i => if 0 ≤ i then min i.toNat n else (n + i).toNat

/-- `__getitem__` (`_datahandler.py:108-134`).  Indexing a list with a tuple or list raises `TypeError`. -/
def DHandler.get (H : DHandler V R O) (fs : FS R) : DInd → DHandler V R O × Except String (List (List (String × DVal V R O)))
  | .int i =>
    let j := if 0 ≤ i then i else H.plan.length + i
    if j < 0 then (H, .error "IndexError") else
    match H.plan[j.toNat]? with
    | some c => H.collect fs [c]
    | none => (H, .error "IndexError")
  | .slice lo hi =>
    let a := pySliceBound H.plan.length 0 lo
    let b := pySliceBound H.plan.length H.plan.length hi
    H.collect fs ((H.plan.take b).drop a)
  | .seq => (H, .error "TypeError")

/-- A filter function: names of parameters, names of local variables (`co_varnames` lists both), value on given arguments. -/
structure FilterFn (X : Type) where
  args : List String
  locals : List String := []
  body : List (String × X) → Bool

/-- `wrap_fun_in`/`wrap_fun_out` (`_datahandler.py:217-229`). -/
def callFilter {X : Type} (f : Option (FilterFn X)) (d : List (String × X)) : Except String Bool :=
  match f with
  | none => .ok true
  | some f =>
    if ∀ a ∈ f.args ++ f.locals, (d.lookup a).isSome then
      if f.locals = [] then .ok (f.body (f.args.filterMap fun a => (d.lookup a).map fun x => (a, x)))
      else .error "TypeError"
    else .error "KeyError"

/-- the loop of `filter` (`_datahandler.py:231-240`) -/
def DHandler.filterLoop (H : DHandler V R O) (fs : FS R) (inF : Option (FilterFn (PVal V))) (outF : Option (FilterFn (DVal V R O))) :
    List (Case V) → DHandler V R O × Except String (List (List (String × DVal V R O)))
  | [] => (H, .ok [])
  | c :: cs =>
    match callFilter inF c with
    | .error e => (H, .error e)
    | .ok false => H.filterLoop fs inF outF cs
    | .ok true =>
      match H.lazyLoad fs c with
      | (H', .error e) => (H', .error e)
      | (H', .ok r) =>
        let d := H'.postProcess c r
        match callFilter outF d with
        | .error e => (H', .error e)
        | .ok b =>
          match H'.filterLoop fs inF outF cs with
          | (H'', .error e) => (H'', .error e)
          | (H'', .ok ds) => (H'', .ok (if b then d :: ds else ds))

/-- `filter` (`_datahandler.py:172-241`). -/
def DHandler.filter (H : DHandler V R O) (fs : FS R) (inF : Option (FilterFn (PVal V))) (outF : Option (FilterFn (DVal V R O))) :
    DHandler V R O × Except String (List (List (String × DVal V R O))) :=
  H.filterLoop fs inF outF H.plan

/-- `set_post_processing` (`_datahandler.py:287-346`). -/
def DHandler.setPost (H : DHandler V R O) (name : String) (f : PostFn V R O) : DHandler V R O := { H with post := dictSet H.post name f }

/-- A call on a `DataHandler`. -/
inductive DOp (V R O : Type) where
  | get (ind : DInd)
  | filter (inF : Option (FilterFn (PVal V))) (outF : Option (FilterFn (DVal V R O)))
  | setPost (name : String) (f : PostFn V R O)
  /-- `dh.data_dir = ...` -/
  | setDir (dir : String)

/-- the handler after one call -/
def DHandler.step (H : DHandler V R O) (fs : FS R) : DOp V R O → DHandler V R O
  | .get ind => (H.get fs ind).1
  | .filter inF outF => (H.filter fs inF outF).1
  | .setPost name f => H.setPost name f
  | .setDir d => { H with dir := d }

/-- the handler after a history of calls, each made with its own content of the file system -/
def DHandler.run (H : DHandler V R O) : List (FS R × DOp V R O) → DHandler V R O
  | [] => H
  | (fs, op) :: rest => (H.step fs op).run rest

end DoMpc
