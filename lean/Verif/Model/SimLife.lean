import Verif.Model.Simulator

/-!
# Configuring, setting up and running a simulator (`/repo/do_mpc/simulator.py`)

The object with the attributes that configuration calls write.  The integrator of a continuous-time model is built in `setup` for the time step
configured at that moment (`simulator.py:256-302`); `make_step` advances the time with the time step configured when it is called (`:702`).
-/
namespace DoMpc
variable {K : Type} [Field K] [LinearOrder K] {d : Dims}

/-- What CasADi provides: the integrator or root finder built for a time step (`simulator.py:256-302`), and the solution of the optimisation problem
of `init_algebraic_variables` (`simulator.py:537-554`), which minimises the distance to the guess subject to the algebraic equations. -/
structure SimTools (K : Type) (d : Dims) where
  model : DaeModel K d
  build : K → Plant K d
  init : Vec K d.nz → Vec K d.nx → Vec K d.nu → Vec K d.ntv → Vec K d.np → Vec K d.nz

/-- Attributes of `Simulator`: `settings.t_step` (`None` at first), `tvp_fun`, `p_fun` (missing at first; the flags `set_tvp_fun`, `set_p_fun` say
whether they are there), `simulator`/`discrete_dae_solver` (missing before `setup`), and the ones that `make_step` changes. -/
structure SimObj (K : Type) (d : Dims) where
  tStep : Option K
  tvpFun : Option (K → Vec K d.ntv)
  pFun : Option (K → Vec K d.np)
  plant : Option (Plant K d)
  st : SimSt K d

/-- The constructor (`simulator.py:151-170`). -/
def SimObj.new : SimObj K d :=
  { tStep := none, tvpFun := none, pFun := none, plant := none
    st := { setup := false, t0 := 0, x0 := 0, u0 := 0, z0 := 0, simZ := 0, simAux := 0, firstStep := true, data := Data.new (simFields d) } }

/-- The API calls.  `valid` says whether the structure returned by the function passed has the right type and labels. -/
inductive SimOp (K : Type) (d : Dims) where
  | settings (t : K)
  | setParam (t : K)
  | setTvpFun (f : K → Vec K d.ntv) (valid : Bool)
  | setPFun (f : K → Vec K d.np) (valid : Bool)
  | setup
  | x0 (x : Vec K d.nx)
  | u0 (u : Vec K d.nu)
  | z0 (z : Vec K d.nz)
  | t0 (t : K)
  | setInitialGuess
  | initAlgebraic
  | resetHistory
  | makeStep (c : SimCall K)

/-- `_check_validity` and `setup` (`simulator.py:205-308`): the functions must be there if the model needs them (otherwise a dummy is put in),
then the time step; the numerical structures are created anew. -/
def SimObj.doSetup (T : SimTools K d) (o : SimObj K d) : SimObj K d × Option String :=
  if o.tvpFun.isNone ∧ 0 < d.ntv then (o, some "Exception") else
  if o.pFun.isNone ∧ 0 < d.np then (o, some "Exception") else
  let o1 := { o with tvpFun := some (o.tvpFun.getD fun _ => 0), pFun := some (o.pFun.getD fun _ => 0) }
  match o.tStep with
  | none => (o1, some "ValueError")
  | some dt => ({ o1 with plant := some (T.build dt), st := { o.st with setup := true, simZ := 0, simAux := 0 } }, none)

/-- `set_initial_guess` (`simulator.py:488-500`) -/
def SimObj.guess (o : SimObj K d) : SimObj K d × Option String :=
  if o.st.setup then ({ o with st := { o.st with simZ := o.st.z0 } }, none) else (o, some "AssertionError")

/-- One call: the object afterwards and the error.  Simplifications: values assigned to `x0`, `u0`, `z0`, `t0` have the right size (C53, C55),
`settings.t_step` is only assigned numbers, the process noise does not occur in algebraic equations (`set_alg` has no noise argument). -/
def SimObj.exec (T : SimTools K d) (o : SimObj K d) : SimOp K d → SimObj K d × Option String
  | .settings t => ({ o with tStep := some t }, none)                                              -- `simulator.py:172-195`, the object is mutable
  | .setParam t => if o.st.setup then (o, some "AssertionError") else ({ o with tStep := some t }, none)         -- `:335`
  | .setTvpFun f valid => if valid then ({ o with tvpFun := some f }, none) else (o, some "AssertionError")  -- `:402-406`
  | .setPFun f valid => if valid then ({ o with pFun := some f }, none) else (o, some "AssertionError")      -- `:482-485`
  | .setup => o.doSetup T
  | .x0 x => ({ o with st := { o.st with x0 := x } }, none)
  | .u0 u => ({ o with st := { o.st with u0 := u } }, none)
  | .z0 z => ({ o with st := { o.st with z0 := z } }, none)
  | .t0 t => ({ o with st := { o.st with t0 := t } }, none)
  | .setInitialGuess => o.guess
  | .initAlgebraic =>                                                                              -- `:502-560`
    match o.pFun, o.tvpFun with
    | some pf, some tf => { o with st := { o.st with z0 := T.init o.st.z0 o.st.x0 o.st.u0 (tf o.st.t0) (pf o.st.t0) } }.guess
    | _, _ => (o, some "AttributeError")
  | .resetHistory => ({ o with st := o.st.resetHistory }, none)
  | .makeStep c =>                                                                                 -- `:617-706`
    match o.plant, o.tStep, o.tvpFun, o.pFun with
    | some P, some dt, some tf, some pf =>
      match SimEnv.makeStep ⟨T.model, P, dt, tf, pf⟩ o.st c with
      | (s, .ok _) => ({ o with st := s }, none)
      | (s, .error e) => ({ o with st := s }, some e)
    | _, _, _, _ => (o, some "AssertionError")

/-- A sequence of calls; errors are caught by the caller. -/
def SimObj.run (T : SimTools K d) (o : SimObj K d) : List (SimOp K d) → SimObj K d
  | [] => o
  | op :: rest => SimObj.run T (o.exec T op).1 rest

end DoMpc
