import Verif.Model.Timer

/-!
# What a timer measures
-/
namespace DoMpc.Spec
variable {K : Type} [Field K] [LinearOrder K]

/-- The measured times of a sequence of calls: those between a `tic` (not at the time 0) and a `toc` with no call in between. -/
def measuredTimes : List (TimerOp K) → List K
  | .tic s :: .toc t :: rest => if s = 0 then measuredTimes rest else (t - s) :: measuredTimes rest
  | _ :: rest => measuredTimes rest
  | [] => []

/-- the time of a call -/
def callTime : TimerOp K → K
  | .tic t => t
  | .toc t => t

/-- The unit's length: seconds times this are in the unit. -/
def perSecond : String → Option K
  | "ms" => some 1000
  | "s" => some 1
  | "min" => some (1 / 60)
  | "h" => some (1 / 3600)
  | _ => none

end DoMpc.Spec
