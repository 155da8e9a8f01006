import Verif.Model.Mpc
import Verif.Spec.Tree

/-! Reading a solver point of the MPC problem as a policy on histories. -/
set_option linter.unusedSectionVars false
namespace DoMpc
open Spec
variable {K : Type} [Field K] [LinearOrder K] {d : Dims}

/-- The physical state, input, algebraic state and slack that a solver point assigns to a stage and history. -/
def MpcCfg.X (cfg : MpcCfg K d) (w : OptX K d) (k : Nat) (h : List Nat) : Vec K d.nx :=
  cfg.xPhys w k (number cfg.c h) cfg.xLast
def MpcCfg.U (cfg : MpcCfg K d) (w : OptX K d) (k : Nat) (h : List Nat) : Vec K d.nu :=
  cfg.uPhys w k (if cfg.openLoop then 0 else number cfg.c h)
def MpcCfg.Z (cfg : MpcCfg K d) (w : OptX K d) (i k : Nat) (h : List Nat) : Vec K d.nz :=
  cfg.zPhys w k (number cfg.c h) i
def MpcCfg.E (cfg : MpcCfg K d) (w : OptX K d) (k : Nat) (h : List Nat) : Eps K :=
  w.eps (if cfg.singleSlack then 0 else k) (number cfg.c h)

/-- A walk through the code's tables: `Path cfg rs s` means that following the realisations `rs` from the root leads
to node number `s`. -/
inductive MpcCfg.Path (cfg : MpcCfg K d) : List Nat → Nat → Prop
  | root : MpcCfg.Path cfg [] 0
  | step {rs s b} : MpcCfg.Path cfg rs s → rs.length < cfg.N → b < nBranches cfg.c cfg.nRobust rs.length →
      MpcCfg.Path cfg (rs ++ [cfg.cur rs.length s b]) (cfg.child rs.length s b)

end DoMpc

namespace DoMpc
open Spec
variable {K : Type} [Field K] [LinearOrder K] {d : Dims}

/-- Stage cost, in physical units, of stage `k` after history `h` when `r` occurs: the algebraic state is the one of that
branch. -/
def MpcCfg.stageCost (cfg : MpcCfg K d) (w : OptX K d) (q : OptP K d) (k : Nat) (h : List Nat) (r : Nat) : K :=
  cfg.lterm (cfg.X w k h) (cfg.U w k h) (cfg.Z w cfg.zLast k (extend cfg.nRobust k h r)) (q.tvp k) (q.p r)

/-- Terminal cost of the leaf with history `h`, `r` having occurred in the last stage. -/
def MpcCfg.leafCost (cfg : MpcCfg K d) (w : OptX K d) (q : OptP K d) (h : List Nat) (r : Nat) : K :=
  cfg.mterm (cfg.X w cfg.N h) (q.tvp cfg.N) (q.p r)

/-- The algebraic states cannot differ between the branches of a node: there are none, or no branching. -/
def MpcCfg.NoAlgBranching (cfg : MpcCfg K d) : Prop := d.nz = 0 ∨ cfg.nRobust = 0 ∨ cfg.c = 1

end DoMpc
