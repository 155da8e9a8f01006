import Verif.Model.Basic
import Verif.Model.Data
import Verif.Model.MpcRun

/-!
# The simulator (`/repo/do_mpc/simulator.py`)

The numerical integrator (`castools.integrator`) and the root finder for the algebraic states of discrete models are arbitrary
functions.
-/
namespace DoMpc
variable {K : Type} [Field K] [LinearOrder K] {d : Dims}

/-- What a set-up simulator computes with: `simulator` and `discrete_dae_solver` (`simulator.py:256-302`). -/
inductive Plant (K : Type) (d : Dims) where
  /-- model type `discrete`: root finder for the algebraic states, started at the current guess -/
  | discrete (root : Vec K d.nz → Vec K d.nx → Vec K d.nu → Vec K d.ntv → Vec K d.np → Vec K d.nw → Vec K d.nz)
  /-- model type `continuous`: integrator over one time step, returning final state and algebraic state -/
  | continuous (integ : Vec K d.nx → Vec K d.nz → Vec K d.nu → Vec K d.ntv → Vec K d.np → Vec K d.nw → Vec K d.nx × Vec K d.nz)

/-- What does not change between calls. -/
structure SimEnv (K : Type) (d : Dims) where
  model : DaeModel K d
  plant : Plant K d
  tStep : K
  tvpFun : K → Vec K d.ntv
  pFun : K → Vec K d.np

/-- Attributes that change: `_x0`, `_z0`, `_u0`, `_t0`, `sim_z_num`, `sim_aux_num`, `flags`, `data`. -/
structure SimSt (K : Type) (d : Dims) where
  setup : Bool
  t0 : K
  x0 : Vec K d.nx
  u0 : Vec K d.nu
  z0 : Vec K d.nz
  simZ : Vec K d.nz
  simAux : Vec K d.naux
  firstStep : Bool
  data : Data K

/-- `simulate` (`simulator.py:563-615`): new state and new value of `sim_z_num`; for discrete models the root finder is only called if
there are algebraic states. -/
def SimEnv.simulate (E : SimEnv K d) (x : Vec K d.nx) (z : Vec K d.nz) (u : Vec K d.nu) (tv : Vec K d.ntv) (p : Vec K d.np)
    (w : Vec K d.nw) : Vec K d.nx × Vec K d.nz :=
  match E.plant with
  | .discrete root =>
    let z' := if 0 < d.nz then root z x u tv p w else z
    (E.model.rhs x u z' tv p w, z')
  | .continuous integ => integ x z u tv p w

/-- Arguments of `make_step(u0, v0, w0)`; `none` is Python's default `None`.  Vectors of the wrong shape are lists of the wrong length. -/
structure SimCall (K : Type) where
  u : Option (List K)
  v : Option (List K) := none
  w : Option (List K) := none

/-- an argument as a vector: `None` gives zeros, a wrong shape fails the assertion (`simulator.py:643-669`) -/
def argVec (n : Nat) (a : Option (List K)) : Option (Vec K n) :=
  match a with
  | none => some 0
  | some l => if h : l.length = n then some fun i => l.get (i.cast h.symm) else none

/-- The input argument: `None` is only allowed if the model has no inputs (`simulator.py:643-651`). -/
def argInput (n : Nat) (a : Option (List K)) : Option (Vec K n) :=
  match a with
  | none => if n = 0 then some 0 else none
  | some _ => argVec n a

/-- `make_step` (`simulator.py:617-706`). -/
def SimEnv.makeStep (E : SimEnv K d) (st : SimSt K d) (c : SimCall K) : SimSt K d × Except String (Vec K d.ny) :=
  match argInput d.nu c.u with
  | none => (st, .error "AssertionError")
  | some u =>
    if !st.setup then (st, .error "AssertionError") else
    match argVec d.nw c.w, argVec d.nv c.v with
    | some w, some v =>
      let tv := E.tvpFun st.t0
      let p := E.pFun st.t0
      let z0 := st.simZ
      let aux0 := if st.firstStep then E.model.aux st.x0 u z0 tv p else st.simAux
      let r := E.simulate st.x0 z0 u tv p w
      let auxNew := E.model.aux r.1 u r.2 tv p
      let y := E.model.meas r.1 u r.2 tv p v
      let upd := st.data.update [("_x", .vec st.x0), ("_u", .vec u), ("_z", .vec z0), ("_tvp", .vec tv), ("_p", .vec p),
        ("_y", .vec y), ("_aux", .vec aux0), ("_time", .arr [st.t0])]
      match upd with
      | (D, some e) => ({ st with data := D, simZ := r.2, simAux := auxNew }, .error e)
      | (D, none) =>
        ({ st with data := D, simZ := r.2, simAux := auxNew, x0 := r.1, z0 := z0, u0 := u, t0 := st.t0 + E.tStep, firstStep := false },
         .ok y)
    | _, _ => (st, .error "AssertionError")

/-- `reset_history` (`simulator.py:198-203`). -/
def SimSt.resetHistory (st : SimSt K d) : SimSt K d := { st with t0 := 0, data := st.data.initStorage, firstStep := true }

/-- fields of the simulator's `Data` (`data.py:64-73`) -/
def simFields (d : Dims) : List (String × Nat) :=
  [("_time", 1), ("_x", d.nx), ("_y", d.ny), ("_u", d.nu), ("_z", d.nz), ("_tvp", d.ntv), ("_p", d.np), ("_aux", d.naux)]

/-- A simulator right after `setup` (`simulator.py:227-256`) and `set_initial_guess` (`simulator.py:488-500`). -/
def SimSt.fresh (x0 : Vec K d.nx) (z0 : Vec K d.nz) : SimSt K d :=
  { setup := true, t0 := 0, x0 := x0, u0 := 0, z0 := z0, simZ := z0, simAux := 0, firstStep := true, data := Data.new (simFields d) }

end DoMpc
