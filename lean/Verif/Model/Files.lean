import Mathlib.Data.List.Basic
import Mathlib.Data.List.Infix

/-!
# Files, file names and Python dictionaries

The parts of Python and the operating system used by `save_results` (`/repo/do_mpc/data.py:434-457`), the sampling tools
(`/repo/do_mpc/sampling/`) and `save_pickle`/`load_pickle` (`/repo/do_mpc/tools/__init__.py:36-45`).
-/
namespace DoMpc

/-- `d[k] = v` / `d.update({k: v})` on a Python dict: the position of an existing key is kept. -/
def dictSet {α β : Type} [DecidableEq α] (d : List (α × β)) (k : α) (v : β) : List (α × β) :=
  if d.any (fun e => e.1 = k) then d.map fun e => if e.1 = k then (k, v) else e else d ++ [(k, v)]

/-- `del d[k]` / `d.pop(k)` -/
def dictDel {α β : Type} [DecidableEq α] (d : List (α × β)) (k : α) : List (α × β) := d.filter fun e => e.1 ≠ k

/-- A path is free, a directory, or a file.  `file none` is a file whose writing has not been completed (opened with `'wb'`, which
truncates, but not completely written). -/
inductive Entry (V : Type) where
  | dir
  | file (content : Option V)
  deriving DecidableEq, Repr

/-- A file system: an entry per path.  Paths are compared as strings, links and `.`/`..` components are not modelled. -/
abbrev FS (V : Type) := String → Option (Entry V)

variable {V : Type}

/-- `os.path.isfile` -/
def FS.isFile (fs : FS V) (n : String) : Bool := match fs n with | some (.file _) => true | _ => false

/-- one path changes -/
def FS.put (fs : FS V) (n : String) (e : Entry V) : FS V := fun m => if m = n then some e else fs m

/-- There are finitely many entries. -/
def FS.Finite (fs : FS V) : Prop := ∃ l : List String, ∀ n, fs n ≠ none → n ∈ l

/-- `with open(n, 'wb') as f: pickle.dump(v, f)`: the intermediate states and the outcome.  Opening a directory raises; that the
parent directory exists is assumed (all callers create it). -/
def FS.write (fs : FS V) (n : String) (v : V) : List (FS V) × Option String :=
  match fs n with
  | some .dir => ([], some "IsADirectoryError")
  | _ => ([fs.put n (.file none), fs.put n (.file (some v))], none)

/-- `with open(n, 'rb') as f: pickle.load(f)` (`tools/__init__.py:41-44`, `data.py:454-457`). -/
def FS.load (fs : FS V) (n : String) : Except String V :=
  match fs n with
  | none => .error "FileNotFoundError"
  | some .dir => .error "IsADirectoryError"
  | some (.file none) => .error "EOFError"
  | some (.file (some v)) => .ok v

/-- `os.makedirs(p)` / `Path(p).mkdir(parents=True, exist_ok=True)`: the listed paths (the parents of `p` and `p`) become directories,
in order; an existing file in the way raises. -/
def FS.mkdirs (fs : FS V) : List String → List (FS V) × Option String
  | [] => ([], none)
  | p :: ps =>
    match fs p with
    | some .dir => fs.mkdirs ps
    | some (.file _) => ([], some "FileExistsError")
    | none => let fs' := fs.put p .dir
              let r := fs'.mkdirs ps
              (fs' :: r.1, r.2)

/-- `s.replace(pat, '')`: all non-overlapping occurrences from the left. -/
def removeAll (pat : List Char) : List Char → List Char
  | [] => []
  | c :: cs =>
    if pat ≠ [] ∧ pat <+: c :: cs then removeAll pat ((c :: cs).drop pat.length) else c :: removeAll pat cs
  termination_by s => s.length
  decreasing_by
    · rename_i h
      have : 0 < pat.length := List.length_pos_iff.2 h.1
      simp only [List.length_drop, List.length_cons]; omega
    · simp

/-- The file name `save_pickle` uses (`tools/__init__.py:36-39`): every `.pkl` is removed, then one appended. -/
def pickleName (n : String) : String := String.ofList (removeAll ".pkl".toList n.toList ++ ".pkl".toList)

/-- `str(n).zfill(p)` and the format `{n:0pd}` for non-negative `n`. -/
def zfill (p n : Nat) : String :=
  String.ofList (List.replicate (p - (Nat.toDigits 10 n).length) '0' ++ Nat.toDigits 10 n)

end DoMpc
