import Verif.Model.Simulator
import Verif.Model.MheRun

/-!
# User functions with memory

`tvp_fun`, `p_fun` and `y_fun` are Python functions that return a numerical structure, usually the same object (the template) in every call, filled with new values;
they may have memory (`/repo/do_mpc/simulator.py:456-470` documents a random walk).  Here they run in a world `W` (all variables and structures of the user's
program): a function gets the time and the world and gives a reference to a structure and the new world.  Controller, simulator and estimator share the world, and the
user's program may change it between the calls in any way.

`make_step` of `Model/MpcRun.lean`, `Model/Simulator.lean`, `Model/MheRun.lean` is used here with the values that the structures have at the moment when all functions
of the step have returned: only then the code copies them (`opt_p_num['_tvp'] = tvp0['_tvp']` etc.).
-/
namespace DoMpc
variable {K : Type} [Field K] [LinearOrder K] {d : Dims} {ne ns : Nat} {W Ref : Type}

/-- `tvp_fun(t)`, `p_fun(t)` -/
abbrev UserFun (K W Ref : Type) := K → W → Ref × W

/-- The numerical values of a structure, by the places where it is used: `tvp['_tvp', k]` of controller and estimator, `p['_p', c]` of the controller, the structures
of the simulator, the set parameters and `y_meas` of the estimator. -/
structure Contents (K : Type) (d : Dims) (ns : Nat) (W Ref : Type) where
  tvp : W → Ref → Nat → Vec K d.ntv
  p : W → Ref → Nat → Vec K d.np
  simTvp : W → Ref → Vec K d.ntv
  simP : W → Ref → Vec K d.np
  pSet : W → Ref → Vec K ns
  y : W → Ref → Nat → Vec K d.ny

/-- which function was called -/
inductive Which where
  | mpcTvp | mpcP | simTvp | simP | mheTvp | mheP | mheY
  deriving DecidableEq

/-- by what -/
inductive By where
  | register | step | init
  deriving DecidableEq

/-- The user's program with one controller, one simulator and one estimator.  `calls` (what called which function with which time) and the lists `…Seen` (the values
that a step took over), `…Out` (what `make_step` returned) are recorded for the statements only. -/
structure Prog (K : Type) (d : Dims) (ne ns : Nat) (W Ref : Type) where
  world : W
  mpcTvp : UserFun K W Ref
  mpcP : UserFun K W Ref
  simTvp : UserFun K W Ref
  simP : UserFun K W Ref
  mheTvp : UserFun K W Ref
  mheP : UserFun K W Ref
  /-- the user's `y_fun`, which may read the log of the estimator (`_mhe.py:762-778`); `none`: the default function -/
  mheY : Option (K → Data K → W → Ref × W)
  mpc : MpcSt K d
  sim : SimSt K d
  mhe : MheSt K d ne ns
  calls : List (Which × By × K) := []
  mpcSeen : List ((Nat → Vec K d.ntv) × (Nat → Vec K d.np)) := []
  simSeen : List (Vec K d.ntv × Vec K d.np) := []
  mheSeen : List ((Nat → Vec K d.ntv) × Vec K ns × (Nat → Vec K d.ny)) := []
  mpcOut : List (Except String (Vec K d.nu)) := []
  simOut : List (Except String (Vec K d.ny)) := []
  mheOut : List (Except String (Vec K d.nx)) := []

/-- What the user's program does: own computations, registering functions, calling `make_step`. -/
inductive UserOp (K : Type) [Field K] (d : Dims) (ne ns nM nE : Nat) (W Ref : Type) where
  | edit (e : W → W)
  | setMpcTvp (f : UserFun K W Ref)
  | setMpcP (f : UserFun K W Ref)
  | setSimTvp (f : UserFun K W Ref)
  | setSimP (f : UserFun K W Ref)
  | setMheTvp (f : UserFun K W Ref)
  | setMheP (f : UserFun K W Ref)
  | setMheY (f : K → Data K → W → Ref × W)
  | mpcStep (S : SolverArgs K d → SolverResult K d nM) (x0 : List K)
  | simStep (c : SimCall K)
  | mheStep (S : MheArgs K d ne ns → MheResult K d ne nE) (y0 : List K)
  /-- `simulator.init_algebraic_variables()`, `root` being its solver -/
  | simInit (root : Vec K d.nz → Vec K d.np → Vec K d.ntv → Vec K d.nu → Vec K d.nx → Vec K d.nz)

/-- `MpcEnv` with given values of the structures -/
def MpcEnv.withValues (E : MpcEnv K d) (v : (Nat → Vec K d.ntv) × (Nat → Vec K d.np)) : MpcEnv K d := { E with tvpFun := fun _ => v.1, pFun := fun _ => v.2 }

/-- `SimEnv` with given values of the structures -/
def SimEnv.withValues (E : SimEnv K d) (v : Vec K d.ntv × Vec K d.np) : SimEnv K d := { E with tvpFun := fun _ => v.1, pFun := fun _ => v.2 }

/-- `MheEnv` with given values of the structures, the measurements being those of the user's function or of the default one -/
def MheEnv.withValues (E : MheEnv K d ne ns) (user : Bool) (v : (Nat → Vec K d.ntv) × Vec K ns × (Nat → Vec K d.ny)) : MheEnv K d ne ns :=
  { E with tvpFun := fun _ => v.1, pFun := fun _ => v.2.1, yFun := if user then some fun _ => v.2.2 else none }

/-- One action of the user's program.  Registering calls the function at time 0, once or twice: `optimizer.py:670-671` (`tvp_fun`, twice), `_mpc.py:804` (`p_fun`,
once), `simulator.py:402-403`, `:482-483` (twice), `_mhe.py:738`, `:795` (once).  Functions whose structure does not have the right labels are refused there and are not
modelled. -/
def Prog.act (R : Contents K d ns W Ref) (EM : MpcEnv K d) (ES : SimEnv K d) (EE : MheEnv K d ne ns) (P : Prog K d ne ns W Ref) :
    UserOp K d ne ns EM.nLagr EE.nLagr W Ref → Prog K d ne ns W Ref
  | .edit e => { P with world := e P.world }
  | .setMpcTvp f => { P with mpcTvp := f, world := (f 0 (f 0 P.world).2).2, calls := P.calls ++ [(.mpcTvp, .register, 0), (.mpcTvp, .register, 0)] }
  | .setMpcP f => { P with mpcP := f, world := (f 0 P.world).2, calls := P.calls ++ [(.mpcP, .register, 0)] }
  | .setSimTvp f => { P with simTvp := f, world := (f 0 (f 0 P.world).2).2, calls := P.calls ++ [(.simTvp, .register, 0), (.simTvp, .register, 0)] }
  | .setSimP f => { P with simP := f, world := (f 0 (f 0 P.world).2).2, calls := P.calls ++ [(.simP, .register, 0), (.simP, .register, 0)] }
  | .setMheTvp f => { P with mheTvp := f, world := (f 0 (f 0 P.world).2).2, calls := P.calls ++ [(.mheTvp, .register, 0), (.mheTvp, .register, 0)] }
  | .setMheP f => { P with mheP := f, world := (f 0 P.world).2, calls := P.calls ++ [(.mheP, .register, 0)] }
  | .setMheY f => { P with mheY := some f, world := (f 0 P.mhe.data P.world).2, calls := P.calls ++ [(.mheY, .register, 0)] }
  | .mpcStep S x0 =>
    -- `_mpc.py:966-1005`: the assertions come first
    if P.mpc.setup = true ∧ x0.length = d.nx then
      let a := P.mpcTvp P.mpc.t0 P.world
      let b := P.mpcP P.mpc.t0 a.2
      let v := (R.tvp b.2 a.1, R.p b.2 b.1)
      let r := (EM.withValues v).makeStep S P.mpc x0
      { P with mpc := r.1, world := b.2, calls := P.calls ++ [(.mpcTvp, .step, P.mpc.t0), (.mpcP, .step, P.mpc.t0)], mpcSeen := P.mpcSeen ++ [v], mpcOut := P.mpcOut ++ [r.2] }
    else { P with mpcOut := P.mpcOut ++ [.error "AssertionError"] }
  | .simStep c =>
    -- `simulator.py:643-667`
    if P.sim.setup = true ∧ (argInput d.nu c.u).isSome ∧ (argVec d.nw c.w).isSome ∧ (argVec d.nv c.v).isSome then
      let a := P.simTvp P.sim.t0 P.world
      let b := P.simP P.sim.t0 a.2
      let v := (R.simTvp b.2 a.1, R.simP b.2 b.1)
      let r := (ES.withValues v).makeStep P.sim c
      { P with sim := r.1, world := b.2, calls := P.calls ++ [(.simTvp, .step, P.sim.t0), (.simP, .step, P.sim.t0)], simSeen := P.simSeen ++ [v], simOut := P.simOut ++ [r.2] }
    else { P with simOut := P.simOut ++ [.error "AssertionError"] }
  | .mheStep S y0 =>
    -- `_mhe.py:911-940`: the measurement is stored before the functions are called
    if P.mhe.setup = true ∧ y0.length = d.ny then
      match P.mhe.data.update [("_y", .arr y0)] with
      | (D, some e) => { P with mhe := { P.mhe with guessSet := true, data := D }, mheOut := P.mheOut ++ [.error e] }
      | (D, none) =>
        let a := P.mheTvp P.mhe.t0 P.world
        let b := P.mheP P.mhe.t0 a.2
        match P.mheY with
        | some f =>
          let c := f P.mhe.t0 D b.2
          let v := (R.tvp c.2 a.1, R.pSet c.2 b.1, R.y c.2 c.1)
          let r := (EE.withValues true v).makeStep S P.mhe y0
          { P with mhe := r.1, world := c.2, calls := P.calls ++ [(.mheTvp, .step, P.mhe.t0), (.mheP, .step, P.mhe.t0), (.mheY, .step, P.mhe.t0)], mheSeen := P.mheSeen ++ [v], mheOut := P.mheOut ++ [r.2] }
        | none =>
          let v := (R.tvp b.2 a.1, R.pSet b.2 b.1, fun _ => 0)
          let r := (EE.withValues false v).makeStep S P.mhe y0
          { P with mhe := r.1, world := b.2, calls := P.calls ++ [(.mheTvp, .step, P.mhe.t0), (.mheP, .step, P.mhe.t0)], mheSeen := P.mheSeen ++ [v], mheOut := P.mheOut ++ [r.2] }
    else { P with mheOut := P.mheOut ++ [.error "AssertionError"] }
  | .simInit root =>
    -- `simulator.py:537-558`, for a simulator that has been set up
    let b := P.simP P.sim.t0 P.world
    let a := P.simTvp P.sim.t0 b.2
    let z := root P.sim.z0 (R.simP a.2 b.1) (R.simTvp a.2 a.1) P.sim.u0 P.sim.x0
    { P with sim := { P.sim with z0 := z, simZ := z }, world := a.2, calls := P.calls ++ [(.simP, .init, P.sim.t0), (.simTvp, .init, P.sim.t0)] }

/-- The user's program: a sequence of actions. -/
def Prog.run (R : Contents K d ns W Ref) (EM : MpcEnv K d) (ES : SimEnv K d) (EE : MheEnv K d ne ns) (P : Prog K d ne ns W Ref)
    (ops : List (UserOp K d ne ns EM.nLagr EE.nLagr W Ref)) : Prog K d ne ns W Ref := ops.foldl (Prog.act R EM ES EE) P

end DoMpc
