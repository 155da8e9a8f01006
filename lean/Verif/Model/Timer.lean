import Mathlib.Algebra.Order.Field.Basic
import Mathlib.Algebra.BigOperators.Group.List.Basic

/-!
# The timer (`/repo/do_mpc/tools/_timer.py`)

Times are elements of an ordered field; what `time.time()` returns is an argument of the calls.  Not modelled: the standard deviation, the message, the histogram.
-/
namespace DoMpc
variable {K : Type} [Field K] [LinearOrder K]

/-- A `Timer` object. -/
structure Timer (K : Type) where
  name : String
  unit : String
  factor : K
  tStart : Option K
  tList : List K

/-- `Timer(name, unit)` (`_timer.py:8-24`) -/
def Timer.new (name unit : String) : Except String (Timer K) :=
  if unit = "ms" then .ok ⟨name, unit, 1000, none, []⟩
  else if unit = "s" then .ok ⟨name, unit, 1, none, []⟩
  else if unit = "min" then .ok ⟨name, unit, 1 / 60, none, []⟩
  else if unit = "h" then .ok ⟨name, unit, 1 / 3600, none, []⟩
  else .error "Exception"

/-- `tic()` at the time `now` (`_timer.py:26-27`) -/
def Timer.tic (T : Timer K) (now : K) : Timer K := { T with tStart := some now }

/-- `toc()` at the time `now` (`_timer.py:29-35`); `assert self.t_start` also fails if the time was 0. -/
def Timer.toc (T : Timer K) (now : K) : Timer K × Option String :=
  match T.tStart with
  | none => (T, some "AssertionError")
  | some s => if s = 0 then (T, some "AssertionError") else ({ T with tList := T.tList ++ [now - s], tStart := none }, none)

/-- What `info()` prints: mean, smallest and largest of the rounded times in the unit (`_timer.py:37-45`); `np.min` of an empty array raises. -/
def Timer.info (T : Timer K) (round : K → K) : Except String (K × K × K) :=
  match T.tList.map fun t => round (t * T.factor) with
  | [] => .error "ValueError"
  | a :: l => .ok ((a :: l).sum / ((a :: l).length : K), l.foldl min a, l.foldl max a)

/-- The calls. -/
inductive TimerOp (K : Type) where
  | tic (now : K)
  | toc (now : K)

/-- One call: the object afterwards and the exception. -/
def Timer.exec (T : Timer K) : TimerOp K → Timer K × Option String
  | .tic now => (T.tic now, none)
  | .toc now => T.toc now

/-- The object after a sequence of calls; exceptions are caught. -/
def Timer.run (T : Timer K) (ops : List (TimerOp K)) : Timer K := ops.foldl (fun T op => (T.exec op).1) T

end DoMpc
