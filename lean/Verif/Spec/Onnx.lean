import Verif.Model.Onnx
import Mathlib.LinearAlgebra.Matrix.Defs
import Mathlib.Data.Matrix.Mul

/-!
# The meaning of an ONNX graph and of the operators, independently of the converter

A graph is a system of equations, one for each node, between named tensors.  The operators are those of the ONNX documentation, for matrices.
-/
namespace DoMpc.Onnx.Spec

variable {V : Type}

/-- `ws` are the values of the tensors `ns` -/
def Values (val : String → Option V) (ns : List String) (ws : List V) : Prop := ns.map val = ws.map some

/-- The equation of a node: its (first) output is the operator applied to the values of its inputs. -/
def NodeHolds (ops : Ops V) (val : String → Option V) (n : Node) : Prop :=
  ∃ f ws o v, ops n.op = some f ∧ Values val n.inputs ws ∧ n.outputs.head? = some o ∧ f ws n.attrs = .ok v ∧ val o = some v

/-- the names of the inputs that the user must supply -/
def IsInput (G : Graph V) (n : String) : Prop := n ∈ G.inputs.map (·.1) ∧ n ∉ G.initializers.map (·.1)

/-- the names of the outputs of the nodes -/
def outputs (ns : List Node) : List String := ns.filterMap fun n => n.outputs.head?

/-- `val` is a solution of the equations of the graph for the inputs `given`. -/
structure IsEvaluation (G : Graph V) (ops : Ops V) (given : String → Option V) (val : String → Option V) : Prop where
  input : ∀ n, IsInput G n → val n = given n
  init : ∀ e ∈ G.initializers, val e.1 = some e.2
  node : ∀ n ∈ G.nodes, NodeHolds ops val n
  none : ∀ k, ¬ IsInput G k → k ∉ G.initializers.map (·.1) → k ∉ outputs G.nodes → val k = none

/-- Every tensor is defined once (required by the ONNX standard). -/
structure SingleAssignment (G : Graph V) : Prop where
  inputs : (G.inputs.map (·.1)).Nodup
  inits : (G.initializers.map (·.1)).Nodup
  outs : (outputs G.nodes).Nodup
  noInput : ∀ o ∈ outputs G.nodes, o ∉ G.inputs.map (·.1)
  noInit : ∀ o ∈ outputs G.nodes, o ∉ G.initializers.map (·.1)

/-- Every tensor is defined before it is used. -/
def Topological (G : Graph V) : Prop :=
  ∀ pre n post, G.nodes = pre ++ n :: post → ∀ i ∈ n.inputs, i ∈ G.inputs.map (·.1) ∨ i ∈ G.initializers.map (·.1) ∨ i ∈ outputs pre

/-- The keyword arguments name exactly the inputs. -/
def NamesMatch (G : Graph V) (call : List (String × V)) : Prop := ∀ n, n ∈ call.map (·.1) ↔ IsInput G n

/-- The shapes of the keyword arguments are accepted: only one-dimensional inputs are compared, and only in the first dimension. -/
def ShapesAccepted (G : Graph V) (shape : V → List Nat) (call : List (String × V)) : Prop :=
  ∀ e ∈ G.inputs, IsInput G e.1 → ∀ v, call.lookup e.1 = some v → e.2 ≠ [] ∧ shape v ≠ [] ∧ (e.2.length = 1 → e.2.head? = (shape v).head?)

/-! ## operators -/

/-- The CasADi matrix `A` is the matrix `M`. -/
def Is {m n : Nat} (A : CMat) (M : Matrix (Fin m) (Fin n) ℝ) : Prop :=
  A.r = m ∧ A.c = n ∧ ∀ (i : Fin m) (j : Fin n), A.get i j = M i j

/-- ONNX `Relu` -/
noncomputable def relu (x : ℝ) : ℝ := if 0 ≤ x then x else 0
/-- ONNX `Elu` -/
noncomputable def elu (alpha x : ℝ) : ℝ := if x < 0 then alpha * (Real.exp x - 1) else x
/-- ONNX `Sigmoid` -/
noncomputable def sigmoid (x : ℝ) : ℝ := (1 + Real.exp (-x))⁻¹

/-- ONNX `Reshape` (row by row), as a function of the position -/
def reshaped {m n : Nat} (M : Matrix (Fin m) (Fin n) ℝ) (r c : Nat) (h : m * n = r * c) : Matrix (Fin r) (Fin c) ℝ := fun i j =>
  have hk : i.val * c + j.val < m * n := by
    have h1 : (i.val + 1) * c ≤ r * c := Nat.mul_le_mul_right c i.isLt
    have h2 := j.isLt
    rw [Nat.add_mul] at h1
    omega
  have hn : 0 < n := by rcases Nat.eq_zero_or_pos n with h0 | h0; · subst h0; omega
                        · exact h0
  M ⟨(i.val * c + j.val) / n, Nat.div_lt_of_lt_mul (by rw [Nat.mul_comm n m]; exact hk)⟩ ⟨(i.val * c + j.val) % n, Nat.mod_lt _ hn⟩

end DoMpc.Onnx.Spec
