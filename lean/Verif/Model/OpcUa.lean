import Mathlib.Logic.Function.Basic
import Mathlib.Data.List.Basic

/-!
# The OPC UA interface: real-time trigger, tags, node ids

`/repo/do_mpc/opcua/_base.py`, `/repo/do_mpc/opcua/_helper.py`, `/repo/do_mpc/opcua/_client.py`, `/repo/do_mpc/opcua/_server.py`.
-/
namespace DoMpc.Opc

/-! ## The real-time trigger (`opcua/_base.py:221-257`)

Each method is a list of atomic statements; the threads of the caller(s), of the timers and of the first step are interleaved statement by
statement.  Simplification: an assignment or a test of an attribute is atomic, `Timer.start`/`cancel` are atomic. -/

/-- statements -/
inductive Instr where
  | setRunning (b : Bool)
  | setInit (b : Bool)
  | setFlag (b : Bool)
  /-- `if self.new_init == True: …` (`opcua/_base.py:234-237`) -/
  | ifInit
  /-- `Thread(target=self.make_step)`, `start()` -/
  | spawnStep
  /-- `if not self.is_running: …` (`opcua/_base.py:239-243`) -/
  | ifNotRunning
  /-- `self.thread = Timer(…, self.async_run)` -/
  | mkTimer
  /-- `self.thread.start()` -/
  | startTimer
  /-- `if self.async_fag == True: …` (`opcua/_base.py:245-247`) -/
  | ifFlag
  /-- `self.thread.cancel()` -/
  | cancel
  /-- `make_step` begins, ends -/
  | stepBegin
  | stepEnd
  deriving DecidableEq, Repr

/-- `async_step_start` (`opcua/_base.py:230-247`) -/
def startCode : List Instr := [.ifInit, .ifNotRunning, .ifFlag]
/-- `make_step` (`opcua/_base.py:175-183`) -/
def stepCode : List Instr := [.stepBegin, .stepEnd]
/-- `async_run` (`opcua/_base.py:221-227`) -/
def runCode : List Instr := .setRunning false :: startCode ++ stepCode
/-- `async_step_stop` (`opcua/_base.py:250-257`) -/
def stopCode : List Instr := [.cancel, .setRunning false, .setInit true, .setFlag true]

/-- Attributes, timers and the number of steps in progress and begun so far.  `pending`: timers that were started and have neither expired nor been
cancelled. -/
structure RT where
  running : Bool
  newInit : Bool
  flag : Bool
  thread : Option Nat
  nextId : Nat
  pending : List Nat
  cancelled : List Nat
  active : Nat
  begun : Nat
  deriving DecidableEq, Repr

/-- after the constructor (`opcua/_base.py:85-89`) -/
def RT.init : RT := ⟨false, true, false, none, 0, [], [], 0, 0⟩

/-- One statement: the new state, statements to do next in the same thread, new threads.  `none`: the statement raises and the thread ends. -/
def Instr.exec (s : RT) : Instr → Option (RT × List Instr × List (List Instr))
  | .setRunning b => some ({ s with running := b }, [], [])
  | .setInit b => some ({ s with newInit := b }, [], [])
  | .setFlag b => some ({ s with flag := b }, [], [])
  | .ifInit => some (s, if s.newInit then [.spawnStep, .setInit false] else [], [])
  | .spawnStep => some (s, [], [stepCode])
  | .ifNotRunning => some (s, if s.running then [] else [.mkTimer, .startTimer, .setRunning true], [])
  | .mkTimer => some ({ s with thread := some s.nextId, nextId := s.nextId + 1 }, [], [])
  | .startTimer =>
    match s.thread with
    | none => none
    | some t => some (if t ∈ s.cancelled then s else { s with pending := s.pending ++ [t] }, [], [])
  | .ifFlag => some (s, if s.flag then [.setFlag false] else [], [])
  | .cancel =>
    match s.thread with
    | none => none
    | some t => some ({ s with pending := s.pending.filter (· ≠ t), cancelled := t :: s.cancelled }, [], [])
  | .stepBegin => some ({ s with active := s.active + 1, begun := s.begun + 1 }, [], [])
  | .stepEnd => some ({ s with active := s.active - 1 }, [], [])

/-- The whole system: the shared state and the remaining code of each thread. -/
structure Sys where
  rt : RT
  threads : List (List Instr)
  deriving DecidableEq, Repr

/-- What can happen: the user calls a method (in a thread of its own or in one whose earlier call returned), thread `i` executes a statement, a
pending timer expires. -/
inductive Ev where
  | callStart
  | callStop
  | sched (i : Nat)
  | expire (t : Nat)
  deriving DecidableEq, Repr

/-- One event; impossible events change nothing. -/
def Sys.step (σ : Sys) : Ev → Sys
  | .callStart => { σ with threads := σ.threads ++ [startCode] }
  | .callStop => { σ with threads := σ.threads ++ [stopCode] }
  | .sched i =>
    match σ.threads[i]? with
    | some (c :: cs) =>
      match c.exec σ.rt with
      | none => { σ with threads := σ.threads.set i [] }
      | some (s', code, new) => { rt := s', threads := σ.threads.set i (code ++ cs) ++ new }
    | _ => σ
  | .expire t =>
    if t ∈ σ.rt.pending then { rt := { σ.rt with pending := σ.rt.pending.erase t }, threads := σ.threads ++ [runCode] } else σ

/-- An execution. -/
def Sys.run (σ : Sys) (evs : List Ev) : Sys := evs.foldl Sys.step σ

/-- the beginning -/
def Sys.init : Sys := ⟨RT.init, []⟩

/-! ### Methods executed without interruption -/

/-- Execute code to its end, and the threads it starts after it. -/
def complete : Nat → List (List Instr) → RT → RT
  | 0, _, s => s
  | _, [], s => s
  | n + 1, [] :: q, s => complete n q s
  | n + 1, (c :: cs) :: q, s =>
    match c.exec s with
    | none => complete n q s
    | some (s', code, new) => complete n ((code ++ cs) :: q ++ new) s'

/-- A call or the expiry of a timer, executed without interruption. -/
inductive AEv where
  | start
  | stop
  | expire (t : Nat)
  deriving DecidableEq, Repr

/-- 32 statements suffice for every method. -/
def RT.astep (s : RT) : AEv → RT
  | .start => complete 32 [startCode] s
  | .stop => complete 32 [stopCode] s
  | .expire t => if t ∈ s.pending then complete 32 [runCode] { s with pending := s.pending.erase t } else s

/-- A history. -/
def RT.arun (s : RT) (evs : List AEv) : RT := evs.foldl RT.astep s

/-! ## Tags (`opcua/_base.py:153-218`, `opcua/_client.py:112-144`) -/

/-- The variables of a server: node id to value; every variable holds a list. -/
abbrev Server (V : Type) := String → Option (List V)

/-- `writeData` (`opcua/_client.py:112-126`): a node that does not exist raises. -/
def writeData {V : Type} (S : Server V) (tag : String) (v : List V) : Except String (Server V) :=
  match S tag with
  | none => .error "UaError"
  | some _ => .ok (Function.update S tag (some v))

/-- the loop of `write_to_tags`: on an error the values written so far stay on the server -/
def writeLoop {V : Type} : List (String × V) → Server V → Server V × Option String
  | [], S => (S, none)
  | (t, v) :: l, S =>
    match writeData S t [v] with
    | .error e => (S, some e)
    | .ok S' => writeLoop l S'

/-- `write_to_tags(data)` (`opcua/_base.py:186-208`) for an array with the given elements -/
def writeToTags {V : Type} (tagout : List String) (S : Server V) (data : List V) : Server V × Option String :=
  if data.length ≠ tagout.length then (S, some "Exception") else writeLoop (tagout.zip data) S

/-- `readData` (`opcua/_client.py:130-144`): the value, a list; a node that does not exist raises. -/
def readData {V : Type} (S : Server V) (tag : String) : Except String (List V) :=
  match S tag with
  | none => .error "UaError"
  | some l => .ok l

/-- `read_from_tags()` (`opcua/_base.py:211-218`): the values of the nodes as a column.  `np.array` of lists of different lengths raises. -/
def readFromTags {V : Type} (tagin : List String) (S : Server V) : Except String (List V) := do
  let vals ← tagin.mapM (readData S)
  if vals.Pairwise (fun a b => a.length = b.length) then return vals.flatten else Except.error "ValueError"

/-! ## Node ids (`opcua/_base.py:92-118`, `opcua/_helper.py:27-74`, `opcua/_server.py:80-129`) -/

/-- `NamespaceEntry` -/
structure Entry where
  objectnode : String
  variableName : String
  deriving DecidableEq, Repr

/-- `Namespace` -/
structure Namespace where
  name : String
  entries : List Entry
  index : Option Nat
  deriving DecidableEq, Repr

/-- the object nodes of `namespace_from_model` (`opcua/_base.py:108`) -/
def variableList : List String := ["aux", "p", "tvp", "u", "v", "w", "x", "y", "z"]

/-- `'default' in key` -/
def hasDefault (key : String) : Bool := key.toList.tails.any ("default".toList.isPrefixOf ·)

/-- `namespace_from_model` (`opcua/_base.py:92-118`); `labels var` is `model[var].labels()` -/
def namespaceFromModel (labels : String → List String) (name : String) : Namespace :=
  ⟨name, variableList.flatMap fun var => ((labels var).filter fun key => !hasDefault key).map fun key => ⟨var, key⟩, none⟩

/-- `namespace[nodename]` (`opcua/_helper.py:52-54,73-74`) -/
def Namespace.get (n : Namespace) (nodename : String) : Except String (List String) :=
  match n.index with
  | none => if n.entries.any (·.objectnode = nodename) then .error "Exception" else .ok []
  | some i => .ok ((n.entries.filter (·.objectnode = nodename)).map fun e => "ns=" ++ toString i ++ ";s=" ++ e.variableName)

/-- The server: registered namespaces in order (the index of the first one is 2) and the variables `(index, name)`. -/
structure OpcServer where
  spaces : List String
  nodes : List (Nat × String)
  deriving DecidableEq, Repr

/-- `register_namespace` of `asyncua`: the index of a name that is registered already, else a new one. -/
def OpcServer.register (S : OpcServer) (name : String) : OpcServer × Nat :=
  if name ∈ S.spaces then (S, S.spaces.idxOf name + 2) else ({ S with spaces := S.spaces ++ [name] }, S.spaces.length + 2)

/-- `add_variable_to_node` (`opcua/_server.py:111-129`): `asyncua` refuses a node id in use; then the entry is renamed. -/
def OpcServer.addVariable (S : OpcServer) (e : Entry) (i : Nat) : Except String (OpcServer × Entry) :=
  let v := e.objectnode ++ e.variableName
  if (i, v) ∈ S.nodes then .error "UaError" else .ok ({ S with nodes := S.nodes ++ [(i, v)] }, { e with variableName := v })

/-- the loop over the entries (`opcua/_server.py:94-102`) -/
def OpcServer.addAll (S : OpcServer) (i : Nat) : List Entry → Except String (OpcServer × List Entry)
  | [] => .ok (S, [])
  | e :: es => do
    let (S', e') ← S.addVariable e i
    let (S'', es') ← S'.addAll i es
    return (S'', e' :: es')

/-- `namespace_from_client` (`opcua/_server.py:80-107`) -/
def OpcServer.fromClient (S : OpcServer) (n : Namespace) : Except String (OpcServer × Namespace) := do
  let (S1, i) := S.register n.name
  let (S2, es) ← S1.addAll i n.entries
  return (S2, { n with entries := es, index := some i })

/-- the clients are registered one after the other (`namespace_from_client` for each) -/
def OpcServer.registerAll (S : OpcServer) : List Namespace → Except String (OpcServer × List Namespace)
  | [] => .ok (S, [])
  | n :: ns => do
    let (S1, n1) ← S.fromClient n
    let (S2, ns2) ← S1.registerAll ns
    return (S2, n1 :: ns2)

/-- The variables of the server after the registrations: each holds the list `[0.0]` (`opcua/_server.py:122-126`); the node id of variable `v` in namespace
`i` is written `ns=i;s=v` (`opcua/_helper.py:52-54`). -/
def OpcServer.values {V : Type} (S : OpcServer) (zero : V) : Server V :=
  fun t => if S.nodes.any (fun q => "ns=" ++ toString q.1 ++ ";s=" ++ q.2 = t) then some [zero] else none

end DoMpc.Opc
