import Verif.Model.OpcUa

/-!
# do-mpc objects that talk to each other through an OPC UA server

`/repo/do_mpc/opcua/_base.py:175-218`, `/repo/do_mpc/opcua/_client.py:112-144`.
-/
namespace DoMpc.Opc

/-- An `RTBase`: the tags of `set_read_tags`, `set_write_tags` (`opcua/_base.py:153-172`) and the `make_step` of the do-mpc object, a function of its
state and its argument; the result is what the call returns or raises. -/
structure RtClient (V : Type) (σ : Type) where
  tagin : List String
  tagout : List String
  makeStep : σ → List V → σ × Except String (List V)

/-- `RTBase.make_step` (`opcua/_base.py:175-183`), executed without interruption: the server, the object and the exception, if any. -/
def RtClient.step {V σ : Type} (c : RtClient V σ) (S : Server V) (s : σ) : Server V × σ × Option String :=
  match readFromTags c.tagin S with
  | .error e => (S, s, some e)
  | .ok input =>
    match c.makeStep s input with
    | (s', .error e) => (S, s', some e)
    | (s', .ok output) => ((writeToTags c.tagout S output).1, s', (writeToTags c.tagout S output).2)

/-- Where a client is in its `make_step`: it has still to read the tags `todo` and has got the values `got`; or it has still to write `rest`. -/
inductive Phase (V : Type) where
  | idle
  | reading (todo : List String) (got : List (List V))
  | writing (rest : List (String × V))

variable {ι V : Type} [DecidableEq ι] {σ : ι → Type}

/-- Several clients and their server.  The last two components are not in the program, they record what happened: `hist c` are the vectors that
client `c` has begun to write, oldest first, after the vector its tags hold at the beginning; `since c` is the number of vectors that the client
whose tags `c` reads had completely written when the current (or last) reading of `c` began. -/
structure Net (ι V : Type) (σ : ι → Type) where
  srv : Server V
  obj : ∀ c, σ c
  phase : ι → Phase V
  hist : ι → List (List V)
  since : ι → Nat

/-- the number of vectors client `c` has completely written -/
def Net.completed (N : Net ι V σ) (c : ι) : Nat :=
  match N.phase c with
  | .writing _ => (N.hist c).length - 1
  | _ => (N.hist c).length

/-- One access to the server, or one call of the do-mpc object, by client `c` (`opcua/_base.py:175-218`): each tag is read and written by a request of
its own (`opcua/_client.py:112-144`).  An exception ends the step; the next one begins anew.  `src c` is the client whose tags `c` reads (used only
for the record `since`).  Simplification: a client executes one step at a time. -/
def Net.act (C : ∀ c, RtClient V (σ c)) (src : ι → ι) (N : Net ι V σ) (c : ι) : Net ι V σ :=
  match N.phase c with
  | .idle => { N with phase := Function.update N.phase c (.reading (C c).tagin []), since := Function.update N.since c (N.completed (src c)) }
  | .reading (t :: todo) got =>
    match readData N.srv t with
    | .error _ => { N with phase := Function.update N.phase c .idle }
    | .ok v => { N with phase := Function.update N.phase c (.reading todo (got ++ [v])) }
  | .reading [] got =>
    if got.Pairwise (fun a b => a.length = b.length) then
      match (C c).makeStep (N.obj c) got.flatten with
      | (s', .error _) => { N with obj := Function.update N.obj c s', phase := Function.update N.phase c .idle }
      | (s', .ok out) =>
        if out.length ≠ (C c).tagout.length then
          { N with obj := Function.update N.obj c s', phase := Function.update N.phase c .idle }
        else
          { N with
            obj := Function.update N.obj c s'
            phase := Function.update N.phase c (.writing ((C c).tagout.zip out))
            hist := Function.update N.hist c (N.hist c ++ [out]) }
    else { N with phase := Function.update N.phase c .idle }
  | .writing [] => { N with phase := Function.update N.phase c .idle }
  | .writing ((t, v) :: rest) =>
    match writeData N.srv t [v] with
    | .error _ => { N with phase := Function.update N.phase c .idle }
    | .ok S' => { N with srv := S', phase := Function.update N.phase c (.writing rest) }

/-- An execution: the clients take turns in any order. -/
def Net.run (C : ∀ c, RtClient V (σ c)) (src : ι → ι) (N : Net ι V σ) (acts : List ι) : Net ι V σ := acts.foldl (Net.act C src) N

/-- Whole steps, one after the other, in any order of the clients. -/
def runSteps (C : ∀ c, RtClient V (σ c)) (S : Server V) (objs : ∀ c, σ c) : List ι → Server V × (∀ c, σ c)
  | [] => (S, objs)
  | c :: cs => runSteps C ((C c).step S (objs c)).1 (Function.update objs c ((C c).step S (objs c)).2.1) cs

end DoMpc.Opc
