/-!
# The measurements an estimator looks at
-/
namespace DoMpc.Spec
variable {K : Type}

/-- The last `N` measurements, oldest first; while there are fewer, the oldest is repeated in front. -/
def measurementWindow (N : Nat) (ys : List (List K)) : List (List K) :=
  let padded := List.replicate (N - ys.length) (ys.headD []) ++ ys
  padded.drop (padded.length - N)

end DoMpc.Spec
