import Verif.Model.Graphics

/-!
# What a plot should show
-/
namespace DoMpc.Gfx.Spec
variable {K : Type}

/-- a variable that was added to a plot: type, name, axis and number of elements -/
structure Added where
  ty : String
  name : String
  axis : Nat
  w : Nat

/-- The variables added by a sequence of calls: those with a valid type and an existing name. -/
def adds (S : Source K) (ops : List (Op K)) : List Added := ops.filterMap fun
  | .addLine ty name axis _ => if ty ∈ ["_x", "_u", "_z", "_tvp", "_p", "_aux"] then (S.width ty name).map fun w => ⟨ty, name, axis, w⟩ else none
  | _ => none

/-- number of samples up to and including the time index `t` of `n` recorded ones; negative indices count from the end -/
def samples (n : Nat) (t : Int) : Nat := if 0 ≤ t then min n (t.toNat + 1) else (n + 1 + t).toNat

/-- The lines of the results: one for each element of each added variable, in order, on its axis, inputs as steps, with the samples up to `t`. -/
def resultLines (D : Snapshot K) (t : Int) (as : List Added) : List (Nat × Bool × List (K × K)) :=
  as.flatMap fun a => (List.range a.w).map fun i => (a.axis, decide (a.ty = "_u"), (D.time.zip (D.vals a.ty a.name i)).take (samples D.time.length t))

/-- The lines of the predictions made at time index `t`: for each added variable, element (of a time-varying
parameter only the first) and scenario; the `j`-th point at `now + j * t_step`. -/
def predictionLines [Add K] [Mul K] [NatCast K] (S : Source K) (D : Snapshot K) (t : Int) (now : K) (as : List Added) : List (Nat × Bool × List (K × K)) :=
  as.flatMap fun a => if a.ty = "_p" then [] else
    (List.range (if a.ty = "_tvp" then 1 else a.w)).flatMap fun i => (List.range (S.scen a.ty)).map fun k =>
      (a.axis, decide (a.ty = "_u"), (D.pred a.ty a.name i k t).mapIdx fun j y => (now + (j : K) * S.tStep, y))

/-- what is drawn: solid or dashed lines -/
def drawn (dashed : Bool) (g : G K) : List (Nat × Bool × List (K × K)) :=
  (g.lines.filter fun l => l.dashed = dashed).map fun l => (l.axis, l.steps, l.pts)

/-- The variables requested from `default_plot`: the given names, by default all states and all other variables but the default one that comes first. -/
def wanted (M : Names) (xs zs us as : Option (List String)) : List (String × String) :=
  (xs.getD M.x).map ("_x", ·) ++ (zs.getD M.z.tail).map ("_z", ·) ++ (us.getD M.u.tail).map ("_u", ·) ++ (as.getD M.aux.tail).map ("_aux", ·)

/-- the `i`-th one on the `i`-th axis -/
def onAxes (S : Source K) (l : List (String × String)) : List Added := l.mapIdx fun i v => ⟨v.1, v.2, i, (S.width v.1 v.2).getD 0⟩

end DoMpc.Gfx.Spec
