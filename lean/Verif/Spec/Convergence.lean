import Verif.Spec.Guarantees

/-!
# Asymptotic stability of a set point
-/
namespace DoMpc
open Spec
variable {K : Type} [Field K] [LinearOrder K] {d : Dims}

/-- every component of `x` is closer to that of `xs` than `ε` -/
def Near {n : Nat} (xs x : Vec K n) (ε : K) : Prop := ∀ j, |x j - xs j| < ε

/-- The costs and penalties are not negative, and the stage cost stays above a positive number as long as the state is not close to `xs`. -/
structure PositiveCosts (cfg : MpcCfg K d) (xs : Vec K d.nx) : Prop where
  stage : ∀ x u z tv p, 0 ≤ cfg.lterm x u z tv p
  terminal : ∀ x tv p, 0 ≤ cfg.mterm x tv p
  penalties : ∀ call ∈ cfg.nl, call.soft = true → 0 ≤ call.penalty
  away : ∀ ε > 0, ∃ η > 0, ∀ x u z tv p, ¬ Near xs x ε → η ≤ cfg.lterm x u z tv p

/-- Close to `xs` the state is in the terminal set and the terminal cost is small. -/
def SmallTerminalCost (cfg : MpcCfg K d) (xs : Vec K d.nx) : Prop :=
  ∀ η > 0, ∃ δ > 0, ∀ x tv p, Near xs x δ → Within cfg.xtlb cfg.xtub x ∧ cfg.mterm x tv p < η

/-- an endless run of the closed loop, iteration `n` with the solver `S n` -/
def EndlessRun (EM : MpcEnv K d) (ES : SimEnv K d) (S : Nat → SolverArgs K d → SolverResult K d EM.nLagr) (L : Nat → Loop K d) : Prop :=
  ∀ n, (L n).step EM ES (S n) = some (L (n + 1))

/-- the loop starts with the measured state and with synchronised clocks -/
def InStep (l : Loop K d) : Prop := l.x = List.ofFn l.sim.x0 ∧ l.mpc.t0 = l.sim.t0

end DoMpc
