import Verif.Model.MheLive
import Verif.Spec.MheConfigured
import Verif.Spec.Window

/-!
# An ideal estimator

What a user may remember of the calls to an estimator, and what its answers then have to be: best explanations of the measurements since the last reset, for the problem asked
for by the configuration calls, with the priors that the previous answer left behind.
-/
namespace DoMpc.Spec
variable {K : Type} [Field K] [LinearOrder K] {d : Dims} {ne ns n : Nat}

/-- What is remembered. -/
structure Memory (K : Type) (d : Dims) (ne ns : Nat) where
  /-- the assignments to `bounds` since `setup()` -/
  bounds : List (MheOp K d ne ns)
  /-- the functions for the parameters and, if given, for the measurements -/
  tvpFun : K → Nat → Vec K d.ntv
  pFun : K → Vec K ns
  yFun : Option (K → Nat → Vec K d.ny)
  /-- the time -/
  t : K
  /-- the current estimates of state and parameters -/
  x : Vec K d.nx
  p : Vec K ne
  /-- the prior of the first state of the next window -/
  prior : Vec K d.nx
  /-- the measurements since the last reset -/
  ys : List (List K)

/-- A problem: the best explanations of given data, for given assignments to `bounds` – the second state and the last state of the window, the parameters. -/
structure BestExplanations (K : Type) (d : Dims) (ne ns : Nat) where
  N : Nat
  tStep : K
  Best : List (MheOp K d ne ns) → EstimationData K d ne ns → Vec K d.nx → Vec K d.nx → Vec K ne → Prop

/-- What is known when a measurement has come in: the measurement function's values, without one the last `N` measurements (the oldest repeated while there are fewer). -/
def Memory.data (M : Memory K d ne ns) (N : Nat) : EstimationData K d ne ns where
  xPrior := M.prior
  pPrior := M.p
  pGiven := M.pFun M.t
  tvp := M.tvpFun M.t
  y := match M.yFun with
    | some f => f M.t
    | none => fun k j => ((measurementWindow N M.ys).getD k []).getD j 0

/-- Configuration calls that have an effect after `setup()`. -/
def Memory.adjust (M : Memory K d ne ns) : MheOp K d ne ns → Memory K d ne ns
  | .bound s v b => { M with bounds := M.bounds ++ [.bound s v b] }
  | .setTvpFun f true => { M with tvpFun := f }
  | .setPFun f true => { M with pFun := f }
  | .setYFun f true => { M with yFun := some f }
  | _ => M

/-- The ideal estimator's reaction to an event: what is remembered afterwards and what is returned. -/
def Reacts (B : BestExplanations K d ne ns) (M : Memory K d ne ns) : MheLiveEv K d ne ns n × Option (Except String (Vec K d.nx)) → Memory K d ne ns → Prop
  | (.config op, _), M' => M' = M.adjust op
  | (.step y _, r), M' =>
    if y.length = d.ny then
      let M1 := { M with ys := M.ys ++ [y] }
      ∃ x1 xN p, r = some (.ok xN) ∧ M' = { M1 with t := M.t + B.tStep, x := xN, p := p, prior := x1 } ∧
        ((∃ x1 xN p, B.Best M.bounds (M1.data B.N) x1 xN p) → B.Best M.bounds (M1.data B.N) x1 xN p)
    else r = some (.error "AssertionError") ∧ M' = M
  | (.reset, _), M' => M' = { M with t := 0, ys := [] }
  | (.guess, _), M' => M' = { M with prior := M.x }
  | (.setX0 x, _), M' => M' = { M with x := x }
  | (.setU0 _, _), M' => M' = M
  | (.setZ0 _, _), M' => M' = M
  | (.setT0 t, _), M' => M' = { M with t := t }
  | (.setPEst0 p, _), M' => M' = { M with p := p }

/-- A whole history is one of the ideal estimator. -/
def IdealHistory (B : BestExplanations K d ne ns) (M : Memory K d ne ns) :
    List (MheLiveEv K d ne ns n × Option (Except String (Vec K d.nx))) → Memory K d ne ns → Prop
  | [], M' => M' = M
  | e :: h, M' => ∃ M1, Reacts B M e M1 ∧ IdealHistory B M1 h M'

/-- The problem of the calls `ops`, for a discrete-time model -/
def bestDiscrete (S : MheSettings K) (ops : List (MheOp K d ne ns)) (co : MheCost K d ne ns) (m : DaeModel K d) (sel : Fin d.np → Fin ne ⊕ Fin ns) :
    BestExplanations K d ne ns where
  N := (lastOf mheSettingsOf ops S).N
  tStep := (lastOf mheSettingsOf ops S).tStep
  Best := fun bounds D x1 xN p =>
    ∃ e, (mheConfigured S (ops ++ bounds) co m sel).Optimal D e ∧ e.X 1 = x1 ∧ e.X (lastOf mheSettingsOf ops S).N = xN ∧ e.p = p

/-- … for a continuous-time model and collocation -/
def bestCollocation (S : MheSettings K) (ops : List (MheOp K d ne ns)) (co : MheCost K d ne ns) (m : DaeModel K d) (sel : Fin d.np → Fin ne ⊕ Fin ns) (deg ni : Nat)
    (tau : Nat → K) : BestExplanations K d ne ns where
  N := (lastOf mheSettingsOf ops S).N
  tStep := (lastOf mheSettingsOf ops S).tStep
  Best := fun bounds D x1 xN p =>
    ∃ e, (mheConfiguredColl S (ops ++ bounds) co m sel deg ni tau).Optimal D e ∧ e.X 1 = x1 ∧ e.X (lastOf mheSettingsOf ops S).N = xN ∧ e.p = p

/-- What is remembered right after `setup()`: the functions given last, time 0, the initial values `x0`, `p0`.  The prior of the first state is 0, not `x0`, unless
`set_initial_guess()` is called. -/
def Memory.start (ops : List (MheOp K d ne ns)) (x0 : Vec K d.nx) (p0 : Vec K ne) : Memory K d ne ns where
  bounds := []
  tvpFun := lastOf mheTvpOf ops fun _ _ => 0
  pFun := lastOf mhePOf ops fun _ => 0
  yFun := lastOf (fun op => (mheYOf op).map some) ops none
  t := 0
  x := x0
  p := p0
  prior := 0
  ys := []

/-- Events considered: everything but assigning settings, writing `lb_opt_x`/`ub_opt_x` and building the problem again (C86); steps and resets are events of their own. -/
def MheLaterEv : MheLiveEv K d ne ns n → Prop
  | .config (.makeStep _) | .config .resetHistory => False
  | .config op => MheLater op
  | _ => True

/-- The solver finds a global minimiser whenever there is one, and the statistics which are to be stored are numbers. -/
def GlobalSolver (names : List String) (S : MheSolver K d ne ns n) : Prop :=
  (∀ (o : MheObj K d ne ns) pb, o.problem = some pb → ∀ a, (∃ w, MheSolverMinimises o w a.p) → MheSolverMinimises o (S pb a).x a.p) ∧
  ∀ pb a, ∀ s ∈ (S pb a).stats, s.1 ∈ names → ∃ v, s.2 = .arr [v]

end DoMpc.Spec
