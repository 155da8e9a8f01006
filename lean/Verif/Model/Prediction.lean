import Verif.Model.Mpc
import Verif.Spec.MpcReading

/-!
# `MPCData.prediction` (`/repo/do_mpc/data.py:241-372`)

The stored solutions are the rows of `_opt_x_num` (unscaled, `_mpc.py:1030-1033`).  Only the index selection is modelled; the
query cache (`prediction_queries`) returns the same index arrays again and is left out.
-/
namespace DoMpc
variable {K : Type} [Field K] [LinearOrder K] {d : Dims}

/-- `opt_x_num_unscaled`: the solution times the scaling (`/repo/do_mpc/controller/_mpc.py:1131-1137`, used at
`_mpc.py:1030-1033`). -/
def MpcCfg.unscaled (cfg : MpcCfg K d) (w : OptX K d) : OptX K d where
  x := fun k s i => w.x k s i * cfg.sx
  z := fun k s i => w.z k s i * cfg.sz
  u := fun k s => w.u k s * cfg.su
  eps := w.eps

/-- Python/numpy row index, negative ones counting from the end. -/
def pyIndex {α : Type} (l : List α) (i : Int) : Option α :=
  if 0 ≤ i then l[i.toNat]? else if -(l.length : Int) ≤ i then l[(l.length + i).toNat]? else none

/-- rows of the store; one row of zeros while nothing is stored (`data.py:301-308`). -/
def predRow (store : List (OptX K d)) (t : Int) : Option (OptX K d) :=
  if store.isEmpty then pyIndex [⟨fun _ _ _ => 0, fun _ _ _ => 0, fun _ _ => 0, fun _ _ _ _ => 0⟩] t else pyIndex store t

/-- `prediction(('_x',), t)[:, k, j]` (`data.py:310-323`): last point of stage `k` in scenario
`structure_scenario[k, j]`. -/
def MpcCfg.predX (cfg : MpcCfg K d) (store : List (OptX K d)) (t : Int) (k j : Nat) : Option (Vec K d.nx) :=
  (predRow store t).map fun o => o.x k (cfg.tree.struct k j).toNat cfg.xLast

/-- `prediction(('_z',), t)[:, k, j]` (`data.py:310-323`). -/
def MpcCfg.predZ (cfg : MpcCfg K d) (store : List (OptX K d)) (t : Int) (k j : Nat) : Option (Vec K d.nz) :=
  (predRow store t).map fun o => o.z k (cfg.tree.struct k j).toNat cfg.zLast

/-- `prediction(('_u',), t)[:, k, j]` (`data.py:325-341`): with `open_loop` only column 0 exists and uses
`structure_scenario[k, 0]`. -/
def MpcCfg.predU (cfg : MpcCfg K d) (store : List (OptX K d)) (t : Int) (k j : Nat) : Option (Vec K d.nu) :=
  (predRow store t).map fun o => o.u k (cfg.tree.struct k (if cfg.openLoop then 0 else j)).toNat

end DoMpc
