import Verif.Model.Structure
import Verif.Model.Results

/-!
# `do_mpc.graphics` (`/repo/do_mpc/graphics.py`)

Matplotlib is reduced to a list of line objects, each with its axis and the points it shows; `axis.plot` appends one line for each column of its argument,
`line.set_data` replaces the points.  The lines are kept in `Structure` objects (`Model/Structure.lean`) under `(var_type, var_name, i)` and
`(var_type, var_name, i, k)`.
-/
namespace DoMpc.Gfx
open Struct

variable {K : Type}

/-- A line object. -/
structure Line (K : Type) where
  axis : Nat
  /-- `linestyle='--'`: a prediction -/
  dashed : Bool
  /-- `drawstyle='steps-post'` -/
  steps : Bool
  pts : List (K × K)

/-- What the data object answers at a certain moment. -/
structure Snapshot (K : Type) where
  /-- `data['_time']` -/
  time : List K
  /-- `data[type, name, i]` -/
  vals : String → String → Nat → List K
  /-- `data.prediction((type, name))[i, :, k]`, shown when the line is added -/
  pred0 : String → String → Nat → Nat → List K
  /-- `data.prediction((type, name, i), t_ind)[0, :, k]` -/
  pred : String → String → Nat → Nat → Int → List K

/-- What does not change: the numbers of elements of the variables (`none`: unknown name), whether predictions are stored, the number of scenarios shown
by `prediction` and the step. -/
structure Source (K : Type) where
  width : String → String → Option Nat
  mpc : Bool
  scen : String → Nat
  tStep : K

/-- A `Graphics` object together with all line objects of the figure (`graphics.py:108-118`). -/
structure G (K : Type) where
  lines : List (Line K)
  result : St Nat
  pred : St Nat
  axes : List Nat

/-- `Graphics(data)` -/
def G.new : G K := ⟨[], .empty, .empty, []⟩

/-- `axis.plot(x, columns)`: the new lines and their numbers -/
def G.plot (g : G K) (axis : Nat) (dashed steps : Bool) (cols : List (List (K × K))) : G K × List Nat :=
  ({ g with lines := g.lines ++ cols.map fun c => ⟨axis, dashed, steps, c⟩ }, (List.range cols.length).map (g.lines.length + ·))

/-- the first dimension of `data.prediction((type, name))`: 1 for time-varying parameters (see C64) -/
def predElems (ty : String) (w : Nat) : Nat := if ty = "_tvp" then 1 else w

/-- The loop that adds the lines of the predictions (`graphics.py:276-285`). -/
def addPreds [Add K] [Mul K] [Zero K] (S : Source K) (D : Snapshot K) (ty name : String) (axis : Nat) (steps : Bool) : List Nat → G K → G K
  | [], g => g
  | i :: is, g =>
    let r := g.plot axis true steps ((List.range (S.scen ty)).map fun k => (D.pred0 ty name i k).map fun y => (0, y))
    addPreds S D ty name axis steps is { r.1 with pred := St.setItem (.list (r.2.map .leaf)) [.str ty, .str name, .int i] r.1.pred }

/-- `add_line` (`graphics.py:266-287`) -/
def G.addLine [Add K] [Mul K] [Zero K] (S : Source K) (D : Snapshot K) (g : G K) (ty name : String) (axis : Nat) : G K × Option String :=
  if ty ∉ ["_x", "_u", "_z", "_tvp", "_p", "_aux"] then (g, some "AssertionError")
  else
    match S.width ty name with
    | none => (g, some "KeyError")
    | some w =>
      let steps := decide (ty = "_u")
      let r := g.plot axis false steps ((List.range w).map fun i => D.time.zip (D.vals ty name i))
      let g1 := { r.1 with result := St.setItem (.list (r.2.map .leaf)) [.str ty, .str name] r.1.result }
      if S.mpc && ty = "_p" then (g1, some "ValueError")
      else
        let g2 := if S.mpc then addPreds S D ty name axis steps (List.range (predElems ty w)) g1 else g1
        ({ g2 with axes := g2.axes ++ [axis] }, none)

/-- `line.set_data(...)` for the lines in a structure, in its order; `f` gives the points for a power index -/
def setLines (f : Path → List (K × K)) : List (Path × Val Nat) → List (Line K) → List (Line K)
  | [], ls => ls
  | (p, .leaf j) :: es, ls => setLines f es (ls.modify j fun l => { l with pts := f p })
  | _ :: es, ls => setLines f es ls

/-- Python's `a[:t + 1]` -/
def upTo {α : Type} (l : List α) (t : Int) : List α := if 0 ≤ t + 1 then l.take (t + 1).toNat else l.take ((l.length : Int) + (t + 1)).toNat

/-- the points shown for a result line -/
def resultPts (D : Snapshot K) (t : Int) : Path → List (K × K)
  | [.str ty, .str name, .int i] =>
    if t = -1 then D.time.zip (D.vals ty name i.toNat) else (upTo D.time t).zip (upTo (D.vals ty name i.toNat) t)
  | _ => []

/-- `plot_results(t_ind)` (`graphics.py:300-310`) -/
def G.plotResults (D : Snapshot K) (g : G K) (t : Int) : G K × Option String :=
  if (t.natAbs : Int) ≤ D.time.length then
    ({ g with lines := setLines (resultPts D t) (g.result.powerindex.zip g.result.master) g.lines }, none)
  else (g, some "AssertionError")

/-- the points shown for a prediction -/
def predPts [Add K] [Mul K] [NatCast K] (S : Source K) (D : Snapshot K) (t : Int) (now : K) : Path → List (K × K)
  | [.str ty, .str name, .int i, .int k] =>
    let y := D.pred ty name i.toNat k.toNat t
    ((List.range y.length).map fun (j : Nat) => now + (j : K) * S.tStep).zip y
  | _ => []

/-- `data._time[t]` -/
def timeAt (l : List K) (t : Int) : Option K :=
  if 0 ≤ t then l[t.toNat]? else if -(l.length : Int) ≤ t then l[(l.length + t).toNat]? else none

/-- `plot_predictions(t_ind)` (`graphics.py:335-348`) -/
def G.plotPredictions [Add K] [Mul K] [NatCast K] (S : Source K) (D : Snapshot K) (g : G K) (t : Int) : G K × Option String :=
  if !S.mpc then (g, some "AssertionError")
  else if (t.natAbs : Int) ≤ D.time.length then
    match timeAt D.time t with
    | none => (g, some "IndexError")
    | some now => ({ g with lines := setLines (predPts S D t now) (g.pred.powerindex.zip g.pred.master) g.lines }, none)
  else (g, some "AssertionError")

/-- `clear()` (`graphics.py:234-240`) -/
def G.clear (g : G K) : G K := { g with lines := setLines (fun _ => []) (g.result.powerindex.zip g.result.master) g.lines }

/-- A call of a method, with what the data object answers then. -/
inductive Op (K : Type) where
  | addLine (ty name : String) (axis : Nat) (D : Snapshot K)
  | plotResults (t : Int) (D : Snapshot K)
  | plotPredictions (t : Int) (D : Snapshot K)
  | clear

/-- one call -/
def G.step [Add K] [Mul K] [Zero K] [NatCast K] (S : Source K) (g : G K) : Op K → G K × Option String
  | .addLine ty name axis D => g.addLine S D ty name axis
  | .plotResults t D => g.plotResults D t
  | .plotPredictions t D => g.plotPredictions S D t
  | .clear => (g.clear, none)

/-- a sequence of calls (errors are caught by the user) -/
def G.run [Add K] [Mul K] [Zero K] [NatCast K] (S : Source K) (g : G K) (ops : List (Op K)) : G K := ops.foldl (fun g op => (g.step S op).1) g

/-! ## `default_plot` (`graphics.py:350-445`) -/

/-- the names of the variables of a model, with the default variable first for `_z`, `_u` and `_aux` -/
structure Names where
  x : List String
  z : List String
  u : List String
  aux : List String

/-- default, or a list checked against the names `ok` -/
def pick (dflt ok : List String) : Option (List String) → Except String (List String)
  | none => .ok dflt
  | some l => if l.all (· ∈ ok) then .ok l else .error "AssertionError"

/-- … with the default variable popped (`keys().pop(0)`) -/
def dropFirst (dflt ok : List String) (o : Option (List String)) : Except String (List String) :=
  match o, dflt with
  | none, [] => .error "IndexError"
  | none, _ :: t => .ok t
  | some l, _ => pick dflt ok (some l)

/-- The checks and defaults of the lists (`graphics.py:374-399`): `none` is the default.  The list of algebraic states is compared with the inputs. -/
def chosen (M : Names) (xs zs us as : Option (List String)) : Except String (List (String × String)) :=
  let x := pick M.x M.x xs
  let z := dropFirst M.z M.u zs
  let u := dropFirst M.u M.u us
  let a := dropFirst M.aux M.aux as
  match x, z, u, a with
  | .ok x, .ok z, .ok u, .ok a => .ok (x.map ("_x", ·) ++ z.map ("_z", ·) ++ u.map ("_u", ·) ++ a.map ("_aux", ·))
  | .error e, _, _, _ => .error e
  | _, .error e, _, _ => .error e
  | _, _, .error e, _ => .error e
  | _, _, _, .error e => .error e

/-- the calls of `add_line`, one for each axis, in order (`graphics.py:420-438`) -/
def addAll [Add K] [Mul K] [Zero K] (S : Source K) (D : Snapshot K) : List (String × String) → Nat → G K → G K × Option String
  | [], _, g => (g, none)
  | (ty, name) :: rest, i, g =>
    match g.addLine S D ty name i with
    | (g', some e) => (g', some e)
    | (g', none) => addAll S D rest (i + 1) g'

/-- `default_plot(data, …)`; `plt.subplots` with no rows raises -/
def defaultPlot [Add K] [Mul K] [Zero K] (M : Names) (S : Source K) (D : Snapshot K) (xs zs us as : Option (List String)) : Except String (G K) :=
  match chosen M xs zs us as with
  | .error e => .error e
  | .ok l =>
    if l = [] then .error "ValueError"
    else
      match addAll S D l 0 G.new with
      | (g, none) => .ok g
      | (_, some e) => .error e

/-! ## `animate` (`graphics.py:447-511`) -/

/-- The frames (`graphics.py:474-485`): `plot_results(t_ind)` and `plot_predictions(t_ind)` for `t_ind = t, t + 1, …`. -/
def frames [Add K] [Mul K] [NatCast K] (S : Source K) (D : Snapshot K) : Nat → Nat → G K → Except String (List (G K))
  | 0, _, _ => .ok []
  | n + 1, t, g =>
    match g.plotResults D t with
    | (_, some e) => .error e
    | (g1, none) =>
      match g1.plotPredictions S D t with
      | (_, some e) => .error e
      | (g2, none) =>
        match frames S D n (t + 1) g2 with
        | .error e => .error e
        | .ok l => .ok (g2 :: l)

/-- The file that is written (`graphics.py:503-511`): numbers are tried while `name + '.pkl'` exists, the animation is written to `name.extension`.
`none`: the search has not ended after `fuel` tests. -/
def animFile {V : Type} (fs : FS V) (path name ext : String) (overwrite : Bool) (fuel : Nat) : Option String :=
  (if overwrite then some name else freeResultName (fun n => fs.isFile (path ++ n ++ ".pkl")) name fuel 1 name).map fun n => path ++ n ++ "." ++ ext

/-- `animate(graphics, fig, n_steps, …)`; `n = none` is the default number of steps.  The frames are rendered by `anim.save`; the creation of the
directory and files left behind by a failed rendering are not modelled. -/
def animate [Add K] [Mul K] [NatCast K] (S : Source K) (D : Snapshot K) (g : G K) (n : Option Nat) (fs : FS (List (G K))) (path name ext : String)
    (overwrite : Bool) (fuel : Nat) : Option (FS (List (G K)) × Option String) :=
  (animFile fs path name ext overwrite fuel).map fun f =>
    match frames S D (n.getD D.time.length) 0 g with
    | .error e => (fs, some e)
    | .ok l => (fs.put f (.file (some l)), none)

end DoMpc.Gfx
