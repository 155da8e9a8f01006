import Verif.Model.Files

/-!
# `save_results` and `load_results` (`/repo/do_mpc/data.py:376-457`)

`Obj` is an element of `save_list`: its class and its `data` attribute.  The file content is the dictionary `results`.
-/
namespace DoMpc
variable {D : Type}

/-- The classes `save_results` distinguishes (`data.py:415-423`); `other` is anything else (for example `LQR`). -/
inductive ObjKind where
  | mpc | simulator | estimator | other
  deriving DecidableEq, Repr

/-- The key of `results` for a class (`data.py:416-421`). -/
def ObjKind.key : ObjKind → Option String
  | .mpc => some "mpc"
  | .simulator => some "simulator"
  | .estimator => some "estimator"
  | .other => none

/-- The loop over `save_list` (`data.py:413-423`). -/
def collectResults (objs : List (ObjKind × D)) : Except String (List (String × D)) :=
  objs.foldl (fun acc o =>
    match acc with
    | .error e => .error e
    | .ok r =>
      match o.1.key with
      | some k => .ok (dictSet r k o.2)
      | none => .error "Exception") (.ok [])

/-- `'{ind:03d}_{name}'` (`data.py:430`) -/
def indexedName (ind : Nat) (name : String) : String := zfill 3 ind ++ "_" ++ name

/-- The `while` loop (`data.py:426-432`): `none` if it has not ended after `fuel` tests. -/
def freeResultName (taken : String → Bool) (name : String) : Nat → Nat → String → Option String
  | 0, _, _ => none
  | fuel + 1, ind, cur => if taken cur then freeResultName taken name fuel (ind + 1) (indexedName ind name) else some cur

/-- An execution: the states of the file system after each effect, in order, and the outcome. -/
structure FileRun (V : Type) where
  trace : List (FS V)
  outcome : Option String

/-- The last state of an execution that starts in `fs`. -/
def FileRun.final {V : Type} (fs : FS V) (r : FileRun V) : FS V := r.trace.getLastD fs

/-- `save_results` (`data.py:376-436`).  `dirs path` are the directories `os.makedirs(path)` creates if missing.  `none`: the search
for a free name has not ended after `fuel` tests. -/
def saveResults (dirs : String → List String) (fuel : Nat) (fs : FS (List (String × D))) (objs : List (ObjKind × D))
    (name path : String) (overwrite : Bool) : Option (FileRun (List (String × D))) :=
  let mk := if (fs path).isSome then ([], none) else fs.mkdirs (dirs path)
  match mk.2 with
  | some e => some ⟨mk.1, some e⟩
  | none =>
    let fs1 := mk.1.getLastD fs
    match collectResults objs with
    | .error e => some ⟨mk.1, some e⟩
    | .ok results =>
      let chosen := if overwrite then some name else freeResultName (fun n => fs1.isFile (path ++ n ++ ".pkl")) name fuel 1 name
      match chosen with
      | none => none
      | some n =>
        let w := fs1.write (path ++ n ++ ".pkl") results
        some ⟨mk.1 ++ w.1, w.2⟩

end DoMpc
