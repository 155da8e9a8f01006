import Verif.Model.OpcLoop

/-!
# The OPC UA interface when connections fail

`/repo/do_mpc/opcua/_base.py:131-218`, `/repo/do_mpc/opcua/_client.py:63-144`, `/repo/do_mpc/opcua/_server.py:63-77`.
-/
namespace DoMpc.Opc

/-- What happens to one request to the server.  `done`: it is answered.  `refused`: `ConnectionRefusedError`, the request is not executed.  `broken e`: another
exception, the request is not executed.  `lost e`: the request is executed, but the answer does not arrive, exception `e`. -/
inductive Wire where
  | done
  | refused
  | broken (e : String)
  | lost (e : String)
  deriving DecidableEq, Repr

/-- `writeData` (`opcua/_client.py:112-126`).  The handler of `ConnectionRefusedError` reads `self.type`, which no `RTClient` has. -/
def writeDataW {V : Type} (w : Wire) (S : Server V) (tag : String) (v : List V) : Server V × Option String :=
  match w with
  | .done =>
    match writeData S tag v with
    | .error e => (S, some e)
    | .ok S' => (S', none)
  | .refused => (S, some "AttributeError")
  | .broken e => (S, some e)
  | .lost e =>
    match writeData S tag v with
    | .error _ => (S, some e)
    | .ok S' => (S', some e)

/-- `readData` (`opcua/_client.py:130-144`); the handler as in `writeData`. -/
def readDataW {V : Type} (w : Wire) (S : Server V) (tag : String) : Except String (List V) :=
  match w with
  | .done => readData S tag
  | .refused => .error "AttributeError"
  | .broken e => .error e
  | .lost e => .error e

/-- The list comprehension of `read_from_tags` (`opcua/_base.py:218`); `w` are the outcomes of the requests, the first one being number `i`. -/
def readLoopW {V : Type} (w : Nat → Wire) (S : Server V) : Nat → List String → Except String (List (List V))
  | _, [] => .ok []
  | i, t :: ts => do
    let v ← readDataW (w i) S t
    let vs ← readLoopW w S (i + 1) ts
    return v :: vs

/-- the loop of `write_to_tags` (`opcua/_base.py:207-208`) -/
def writeLoopW {V : Type} (w : Nat → Wire) : Nat → List (String × V) → Server V → Server V × Option String
  | _, [], S => (S, none)
  | i, (t, v) :: l, S =>
    match writeDataW (w i) S t [v] with
    | (S', some e) => (S', some e)
    | (S', none) => writeLoopW w (i + 1) l S'

/-- What a step did: the server and the object afterwards, the exception; `input` is what was given to the do-mpc object (if it was called at all), `output` is the
vector the client began to write.  The last two are a record, the program does not keep them. -/
structure Effect (V σ : Type) where
  srv : Server V
  obj : σ
  err : Option String
  input : Option (List V)
  output : Option (List V)

/-- `RTBase.make_step` (`opcua/_base.py:175-183`) with `read_from_tags` (`:211-218`) and `write_to_tags` (`:186-208`), the requests having the outcomes `w`. -/
def RtClient.stepW {V σ : Type} (c : RtClient V σ) (w : Nat → Wire) (S : Server V) (s : σ) : Effect V σ :=
  match readLoopW w S 0 c.tagin with
  | .error e => ⟨S, s, some e, none, none⟩
  | .ok vals =>
    if vals.Pairwise (fun a b => a.length = b.length) then
      match c.makeStep s vals.flatten with
      | (s', .error e) => ⟨S, s', some e, some vals.flatten, none⟩
      | (s', .ok out) =>
        if out.length ≠ c.tagout.length then ⟨S, s', some "Exception", some vals.flatten, none⟩
        else
          let r := writeLoopW w c.tagin.length (c.tagout.zip out) S
          ⟨r.1, s', r.2, some vals.flatten, some out⟩
    else ⟨S, s, some "ValueError", none, none⟩

/-- What `asyncua` does when asked to connect or to disconnect. -/
inductive Conn where
  | done
  | runtimeError
  | other (e : String)
  deriving DecidableEq, Repr

/-- `RTBase.connect` (`opcua/_base.py:131-139`) around `RTClient.connect` (`opcua/_client.py:91-101`): whether the client is connected afterwards, and the exception
that reaches the caller.  `RTClient.connect` catches every `RuntimeError` and prints a message. -/
def connect (linked : Bool) : Conn → Bool × Option String
  | .done => (true, none)
  | .runtimeError => (linked, none)
  | .other e => (linked, some e)

/-- `RTBase.disconnect` (`opcua/_base.py:142-150`) around `RTClient.disconnect` (`opcua/_client.py:104-109`): a `RuntimeError` is caught in the former. -/
def disconnect (linked : Bool) : Conn → Bool × Option String
  | .done => (false, none)
  | .runtimeError => (linked, none)
  | .other e => (linked, some e)

variable {ι V : Type} [DecidableEq ι] {σ : ι → Type}

/-- What happens: a client is asked to connect, to disconnect or to execute a step. -/
inductive FEv (ι : Type) where
  | connect (c : ι) (o : Conn)
  | disconnect (c : ι) (o : Conn)
  | step (c : ι) (w : Nat → Wire)

/-- Several clients and their server.  The last three are a record of what happened: the exception of each event, the inputs of each object, and the vectors each
client began to write (the first one is what its tags hold at the beginning). -/
structure FNet (ι V : Type) (σ : ι → Type) where
  srv : Server V
  obj : ∀ c, σ c
  linked : ι → Bool
  errs : List (Option String)
  ins : ι → List (List V)
  outs : ι → List (List V)

/-- One event.  The requests of a client that is not connected raise (`asyncua` raises `ConnectionError`).  Simplification: the steps of the clients are not interleaved
(they are in `Net.act`). -/
def FNet.act (C : ∀ c, RtClient V (σ c)) (N : FNet ι V σ) : FEv ι → FNet ι V σ
  | .connect c o => { N with linked := Function.update N.linked c (Opc.connect (N.linked c) o).1, errs := N.errs ++ [(Opc.connect (N.linked c) o).2] }
  | .disconnect c o => { N with linked := Function.update N.linked c (Opc.disconnect (N.linked c) o).1, errs := N.errs ++ [(Opc.disconnect (N.linked c) o).2] }
  | .step c w =>
    let r := (C c).stepW (if N.linked c then w else fun _ => .broken "ConnectionError") N.srv (N.obj c)
    { N with
      srv := r.srv
      obj := Function.update N.obj c r.obj
      errs := N.errs ++ [r.err]
      ins := Function.update N.ins c (N.ins c ++ r.input.toList)
      outs := Function.update N.outs c (N.outs c ++ r.output.toList) }

/-- A history. -/
def FNet.run (C : ∀ c, RtClient V (σ c)) (N : FNet ι V σ) (evs : List (FEv ι)) : FNet ι V σ := evs.foldl (FNet.act C) N

/-- `ServerOpts`, `ClientOpts` (`opcua/_helper.py:78-117`) -/
structure OpcOpts where
  name : String
  address : String
  port : Nat
  deriving DecidableEq, Repr

/-- Where a server started with these options listens (`opcua/_server.py:63-77,133-141`): name, address and port are stored, but `opcua.Server()` is created and started
without them, so that it listens where every `asyncua` server does by default. -/
def serverEndpoint (_ : OpcOpts) : String := "opc.tcp://0.0.0.0:4840/freeopcua/server/"

/-- Where a client connects to (`opcua/_client.py:63-73`): the address; the port is stored and not used. -/
def clientEndpoint (o : OpcOpts) : String := o.address

end DoMpc.Opc
