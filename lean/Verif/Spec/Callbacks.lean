import Verif.Model.Callbacks
import Verif.Props.MpcRun
import Verif.Props.Simulator
import Verif.Props.MheRun

/-!
# What one expects of user functions with memory
-/
namespace DoMpc.Spec
variable {K : Type} [Field K] [LinearOrder K] {d : Dims} {ne ns nM nE : Nat} {W Ref : Type}

/-- the calls of `mpc.make_step` in the program -/
def mpcSteps : List (UserOp K d ne ns nM nE W Ref) → List (Call K d nM)
  | [] => []
  | .mpcStep S x0 :: ops => ⟨x0, S⟩ :: mpcSteps ops
  | _ :: ops => mpcSteps ops

/-- the calls of `simulator.make_step` in the program -/
def simSteps : List (UserOp K d ne ns nM nE W Ref) → List (SimCall K)
  | [] => []
  | .simStep c :: ops => c :: simSteps ops
  | _ :: ops => simSteps ops

/-- the calls of `mhe.make_step` in the program -/
def mheSteps : List (UserOp K d ne ns nM nE W Ref) → List (MheCall K d ne ns nE)
  | [] => []
  | .mheStep S y0 :: ops => ⟨S, y0⟩ :: mheSteps ops
  | _ :: ops => mheSteps ops

/-- the program calls `init_algebraic_variables` -/
def Inits (ops : List (UserOp K d ne ns nM nE W Ref)) : Prop := ∃ op ∈ ops, ∃ root, op = .simInit root

/-- the program registers a measurement function -/
def RegistersY (ops : List (UserOp K d ne ns nM nE W Ref)) : Prop := ∃ op ∈ ops, ∃ f, op = .setMheY f

/-- `n` times, `h` apart, from `t` on -/
def timesFrom (t h : K) (n : Nat) : List K := (List.range n).map fun k : Nat => t + k * h

/-- the times with which function `w` was called by `b` -/
def timesOf (w : Which) (b : By) (calls : List (Which × By × K)) : List K := calls.filterMap fun c => if c.1 = w ∧ c.2.1 = b then some c.2.2 else none

/-- How often an action calls function `w` while registering it: `tvp_fun` (and the simulator's `p_fun`) twice, the others once. -/
def registers (w : Which) : UserOp K d ne ns nM nE W Ref → Nat
  | .setMpcTvp _ => if w = .mpcTvp then 2 else 0
  | .setMpcP _ => if w = .mpcP then 1 else 0
  | .setSimTvp _ => if w = .simTvp then 2 else 0
  | .setSimP _ => if w = .simP then 2 else 0
  | .setMheTvp _ => if w = .mheTvp then 2 else 0
  | .setMheP _ => if w = .mheP then 1 else 0
  | .setMheY _ => if w = .mheY then 1 else 0
  | _ => 0

end DoMpc.Spec
