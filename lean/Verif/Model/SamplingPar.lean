import Verif.Model.Sampling

/-!
# Several processes sample one plan (`/repo/examples/sampling/multiprocessing/`, `/repo/do_mpc/sampling/_sampler.py`)

`pool.map(sampler.sample_idx, range(sampler.n_samples))`: every process has its own copy of the sampler, all share the file system.  A process makes the
calls of `sample_idx` it was given one after the other; the calls of different processes interleave at the granularity of file system accesses and calls of the
sample function.  A process that is killed is one that makes no further step.
-/
namespace DoMpc
variable {V R : Type}

/-- Where a process is inside `sample_idx(i)` (`_sampler.py:198-228`), with the name of the result file and what it has computed. -/
inductive Pc (V R : Type) where
  | idle
  /-- the first `os.path.isfile` (line 218) said that the sample is needed -/
  | calling (i : Nat) (c : Case V) (full : String)
  /-- the sample function has returned (line 220) -/
  | returned (i : Nat) (full : String) (r : R)
  /-- the second `os.path.isfile` (line 191) said that the result shall be saved -/
  | saving (i : Nat) (full : String) (r : R)
  /-- the file has been opened, and thereby truncated (`tools/__init__.py:38`; likewise `scipy.io.savemat`) -/
  | opened (i : Nat) (name : String) (r : R)

/-- A process: the calls of `sample_idx` it has still to make, where it is, the exception that ended its work. -/
structure Proc (V R : Type) where
  todo : List Nat
  pc : Pc V R := .idle
  err : Option String := none

/-- All processes, the file system they share, and the indices for which the sample function was called, in order of time. -/
structure Par (V R : Type) where
  fs : FS R
  procs : List (Proc V R)
  calls : List Nat := []

/-- An exception ends the work of the process (`multiprocessing.pool.mapstar`: of the chunk; a process that works on several chunks is modelled as several
processes). -/
def Proc.raise (e : String) : Proc V R := { todo := [], pc := .idle, err := some e }

/-- The next step of a process: its new state, the new file system, the index for which the sample function was called.  `f n` is the sample function at the time
when it has been called `n` times (it may be random).  Writing a file has two steps; that two processes write the same file at the same time is simplified: the
result of the one that closes it last is stored. -/
def SamplerCfg.procStep (cfg : SamplerCfg V R) (f : Nat → Case V → Except String R) (n : Nat) (fs : FS R) (P : Proc V R) : Proc V R × FS R × List Nat :=
  match P.pc with
  | .idle =>
    match P.todo with
    | [] => (P, fs, [])
    | i :: is =>
      -- `_sampler.py:208-218`
      if i ≤ cfg.plan.length then
        match cfg.plan[i]? with
        | none => (.raise "IndexError", fs, [])
        | some c =>
          match caseId cfg.str c with
          | none => (.raise "KeyError", fs, [])
          | some id =>
            let full := sampleFile cfg.dir cfg.sampleName cfg.mat id
            if !fs.isFile full || cfg.overwrite then ({ P with todo := is, pc := .calling i (dictDel c "id") full }, fs, [])
            else ({ P with todo := is }, fs, [])
      else (.raise "AssertionError", fs, [])
  | .calling i c full =>
    -- `_sampler.py:220`
    match f n c with
    | .error e => (.raise e, fs, [i])
    | .ok r => ({ P with pc := .returned i full r }, fs, [i])
  | .returned i full r =>
    -- `_save`, `_sampler.py:191`
    if !fs.isFile full || cfg.overwrite then ({ P with pc := .saving i full r }, fs, []) else ({ P with pc := .idle }, fs, [])
  | .saving i full r =>
    -- `_sampler.py:192-195`: `open(…, 'wb')`
    let name := if cfg.mat then full else pickleName full
    match fs name with
    | some .dir => (.raise "IsADirectoryError", fs, [])
    | _ => ({ P with pc := .opened i name r }, fs.put name (.file none), [])
  | .opened _ name r => ({ P with pc := .idle }, fs.put name (.file (some r)), [])

/-- Process `p` makes a step. -/
def SamplerCfg.parStep (cfg : SamplerCfg V R) (f : Nat → Case V → Except String R) (σ : Par V R) (p : Nat) : Par V R :=
  match σ.procs[p]? with
  | none => σ
  | some P =>
    let s := cfg.procStep f σ.calls.length σ.fs P
    { fs := s.2.1, procs := σ.procs.set p s.1, calls := σ.calls ++ s.2.2 }

/-- The processes make steps in the order of the schedule. -/
def SamplerCfg.parRun (cfg : SamplerCfg V R) (f : Nat → Case V → Except String R) (σ : Par V R) (schedule : List Nat) : Par V R :=
  schedule.foldl (cfg.parStep f) σ

/-- `pool.map`: one process per list of calls. -/
def Par.start (fs : FS R) (todos : List (List Nat)) : Par V R := { fs := fs, procs := todos.map fun t => { todo := t } }

end DoMpc
