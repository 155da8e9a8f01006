import Verif.Model.Live
import Verif.Spec.Configured

/-!
# What a history of a controller means

Read off the events and the results of `make_step`, without reference to how the object stores anything.
-/
namespace DoMpc.Spec
variable {K : Type} [Field K] [LinearOrder K] {d : Dims} {n : Nat}

/-- Events considered: everything but the calls whose effects after `setup()` are the subject of C37 (`settings`, `terminal_bounds`, `lb_opt_x`, `prepare_nlp`, `setup`). -/
def LaterEv : LiveEv K d n → Prop
  | .config .solve => False
  | .config op => Later op
  | _ => True

/-- the assignments to `bounds`, in order -/
def boundsIn (es : List (LiveEv K d n)) : List (MpcOp K d) :=
  es.filterMap fun | .config (.bound s v b) => some (.bound s v b) | _ => none

/-- the input that an event makes the previous one: assigned to `u0`, or returned by `make_step` -/
def inputOf : LiveEv K d n × Option (Except String (Vec K d.nu)) → Option (Vec K d.nu)
  | (.setU0 u, _) => some u
  | (.step _ _, some (.ok u)) => some u
  | _ => none

/-- the time that an event sets the clock to: `reset_history()` or an assignment to `t0` -/
def clockSet : LiveEv K d n × Option (Except String (Vec K d.nu)) → Option K
  | (.reset, _) => some 0
  | (.setT0 t, _) => some t
  | _ => none

/-- a successful `make_step` -/
def stepped : LiveEv K d n × Option (Except String (Vec K d.nu)) → Bool
  | (.step _ _, some (.ok _)) => true
  | _ => false

/-- The time of a history: the value the clock was set to last (at first 0) and one sampling time for every successful step since. -/
def clock (tStep : K) (h : List (LiveEv K d n × Option (Except String (Vec K d.nu)))) : K :=
  lastOf clockSet h 0 + ((h.reverse.takeWhile fun e => (clockSet e).isNone).countP stepped : Nat) * tStep

/-- the events since the last `reset_history()` -/
def sinceReset (h : List (LiveEv K d n × Option (Except String (Vec K d.nu)))) : List (LiveEv K d n × Option (Except String (Vec K d.nu))) :=
  (h.reverse.takeWhile fun | (.reset, _) => false | _ => true).reverse

/-- state passed and input returned of a successful `make_step` -/
def pairOf : LiveEv K d n × Option (Except String (Vec K d.nu)) → Option (List K × Vec K d.nu)
  | (.step x _, some (.ok u)) => some (x, u)
  | _ => none

/-- The solver, called for the parameters `q` with any initial guess and multipliers, finds a global minimiser of the problem of `o` if there is a feasible point. -/
def FindsMinimiser (o : MpcObj K d) (q : OptP K d) (S : Solver K d n) : Prop :=
  ∀ pb, o.problem = some pb → ∀ a, a.p = q → (∃ w, SolverFeasible o w q) → SolverMinimises o (S pb a).x q

/-- The statistics which are to be stored are numbers. -/
def ReportsNumbers (names : List String) (S : Solver K d n) : Prop := ∀ pb a, ∀ s ∈ (S pb a).stats, s.1 ∈ names → ∃ v, s.2 = .arr [v]

end DoMpc.Spec
