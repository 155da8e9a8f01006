import Verif.Model.Files
import Mathlib.Analysis.SpecialFunctions.Trigonometric.DerivHyp

/-!
# `ONNXConversion` (`/repo/do_mpc/sysid/_onnxconversion.py`)

First the evaluation of a graph for arbitrary operations and tensors; then the operations themselves on CasADi matrices over the real numbers.
-/
namespace DoMpc.Onnx

/-- The value of an attribute of a node (`onnx.AttributeProto`). -/
inductive AttrVal where
  | int (i : Int)
  | float (f : ℝ)
  | ints (l : List Int)

/-- the attributes of a node, in the order of the file -/
abbrev Attrs := List (String × AttrVal)

/-- A node of the graph. -/
structure Node where
  op : String
  inputs : List String
  outputs : List String
  attrs : Attrs := []

/-- An ONNX graph with initialisers as tensors of type `V` (`_onnxconversion.py:112-134`). -/
structure Graph (V : Type) where
  /-- `graph.input`: names and shapes -/
  inputs : List (String × List Nat)
  initializers : List (String × V)
  nodes : List Node

variable {V : Type}

/-- `self.initialized_tensors` (`_onnxconversion.py:117-119`) -/
def Graph.initDict (G : Graph V) : List (String × V) := G.initializers.foldl (fun d e => dictSet d e.1 e.2) []

/-- `self.inputshape` (`_onnxconversion.py:123-126`): the inputs without an initialiser. -/
def Graph.inputShape (G : Graph V) : List (String × List Nat) :=
  G.inputs.foldl (fun d e => if e.1 ∈ G.initDict.map (·.1) then d else dictSet d e.1 e.2) []

/-- The operations: `hasattr(self.operations, n.op_type)`, `getattr(…)(*ins, attribute=…)`. -/
abbrev Ops (V : Type) := String → Option (List V → Attrs → Except String V)

/-- The check of the shape of an input (`_onnxconversion.py:222-226`), `false` = refused: only one-dimensional inputs are compared. -/
def shapeOk (expected given : List Nat) : Except String Bool :=
  match expected, given with
  | [], _ => .error "IndexError"
  | _, [] => .error "IndexError"
  | e :: es, g :: gs => .ok (!(decide (es = []) && decide (e ≠ g) && decide (e :: es ≠ g :: gs)))

/-- The loop that checks and stores the inputs (`_onnxconversion.py:218-228`). -/
def checkInputs (shape : V → List Nat) (kwargs : List (String × V)) : List (String × List Nat) → List (String × V) → Except String (List (String × V))
  | [], acc => .ok acc
  | (n, s) :: rest, acc =>
    match kwargs.lookup n with
    | none => .error "KeyError"
    | some v =>
      match shapeOk s (shape v) with
      | .error e => .error e
      | .ok false => .error "Exception"
      | .ok true => checkInputs shape kwargs rest (dictSet acc n v)

/-- `ins`: the values of the inputs of a node (`_onnxconversion.py:241-262`) -/
def collect (all : List (String × V)) : List String → Except String (List V)
  | [] => .ok []
  | n :: ns =>
    match all.lookup n with
    | none => .error "KeyError"
    | some v =>
      match collect all ns with
      | .error e => .error e
      | .ok vs => .ok (v :: vs)

/-- The loop over the nodes (`_onnxconversion.py:231-275`). -/
def evalNodes (ops : Ops V) : List Node → (all node : List (String × V)) → Except String (List (String × V))
  | [], _, node => .ok node
  | n :: ns, all, node =>
    match collect all n.inputs with
    | .error e => .error e
    | .ok ins =>
      match ops n.op with
      | none => .error "Exception"
      | some f =>
        match f ins n.attrs with
        | .error e => .error e
        | .ok out =>
          match n.outputs with
          | [] => .error "IndexError"
          | o :: _ => evalNodes ops ns (dictSet all o out) (dictSet node o out)

/-- `convert(**kwargs)` (`_onnxconversion.py:182-275`): the new `node_values`.  The keyword `verbose` is an argument of the method itself; the types of
the values are not modelled. -/
def Graph.convert (G : Graph V) (ops : Ops V) (shape : V → List Nat) (call : List (String × V)) : Except String (List (String × V)) :=
  let kwargs := call.filter fun e => e.1 ≠ "verbose"
  if kwargs.length ≠ G.inputShape.length then .error "Exception"
  else if !(G.inputShape.all fun e => e.1 ∈ kwargs.map (·.1)) then .error "Exception"
  else
    match checkInputs shape kwargs G.inputShape [] with
    | .error e => .error e
    | .ok input => evalNodes ops G.nodes (G.initDict.foldl (fun d e => dictSet d e.1 e.2) input) input

/-- The converter: `node_values`, absent before the first successful `convert`. -/
abbrev Conv (V : Type) := Option (List (String × V))

/-- a call of `convert`: a refused call leaves the old `node_values` (`_onnxconversion.py:274-275`) -/
def Conv.call (G : Graph V) (ops : Ops V) (shape : V → List Nat) (s : Conv V) (kw : List (String × V)) : Conv V × Option String :=
  match G.convert ops shape kw with
  | .ok d => (some d, none)
  | .error e => (s, some e)

/-- a history of calls of `convert` -/
def Conv.run (G : Graph V) (ops : Ops V) (shape : V → List Nat) : Conv V → List (List (String × V)) → Conv V
  | s, [] => s
  | s, k :: ks => Conv.run G ops shape (Conv.call G ops shape s k).1 ks

/-- `converter[key]` (`_onnxconversion.py:279-299`) -/
def Conv.get (s : Conv V) (key : String) : Except String V :=
  match s with
  | none => .error "AttributeError"
  | some d =>
    match d.lookup key with
    | some v => .ok v
    | none => .error "Exception"

/-! ## the operations -/

/-- A CasADi matrix; entries outside of the shape are irrelevant. -/
structure CMat where
  r : Nat
  c : Nat
  get : Nat → Nat → ℝ

/-- elementwise function -/
def CMat.map (f : ℝ → ℝ) (A : CMat) : CMat := ⟨A.r, A.c, fun i j => f (A.get i j)⟩

/-- CasADi's binary operations: equal shapes, a scalar, or one shape a horizontal multiple of the other. -/
def CMat.zip (f : ℝ → ℝ → ℝ) (A B : CMat) : Except String CMat :=
  if A.r = B.r ∧ A.c = B.c then .ok ⟨A.r, A.c, fun i j => f (A.get i j) (B.get i j)⟩
  else if A.r = 1 ∧ A.c = 1 then .ok ⟨B.r, B.c, fun i j => f (A.get 0 0) (B.get i j)⟩
  else if B.r = 1 ∧ B.c = 1 then .ok ⟨A.r, A.c, fun i j => f (A.get i j) (B.get 0 0)⟩
  else if A.r = B.r ∧ 0 < B.c ∧ A.c % B.c = 0 then .ok ⟨A.r, A.c, fun i j => f (A.get i j) (B.get i (j % B.c))⟩
  else if A.r = B.r ∧ 0 < A.c ∧ B.c % A.c = 0 then .ok ⟨A.r, B.c, fun i j => f (A.get i (j % A.c)) (B.get i j)⟩
  else .error "RuntimeError"

/-- `casadi.mtimes` of two matrices: product, or scaling by a scalar -/
noncomputable def CMat.mul (A B : CMat) : Except String CMat :=
  if A.c = B.r then .ok ⟨A.r, B.c, fun i j => ∑ k ∈ Finset.range A.c, A.get i k * B.get k j⟩
  else if A.r = 1 ∧ A.c = 1 then .ok (B.map (A.get 0 0 * ·))
  else if B.r = 1 ∧ B.c = 1 then .ok (A.map (· * B.get 0 0))
  else .error "RuntimeError"

/-- `casadi.transpose` -/
def CMat.T (A : CMat) : CMat := ⟨A.c, A.r, fun i j => A.get j i⟩

/-- `casadi.vertcat(*args)` -/
def vertcat : List CMat → Except String CMat
  | [] => .ok ⟨0, 1, fun _ _ => 0⟩
  | [A] => .ok A
  | A :: rest =>
    match vertcat rest with
    | .error e => .error e
    | .ok B => if A.c = B.c then .ok ⟨A.r + B.r, A.c, fun i j => if i < A.r then A.get i j else B.get (i - A.r) j⟩ else .error "RuntimeError"

/-- `casadi.horzcat(*args)` -/
def horzcat : List CMat → Except String CMat
  | [] => .ok ⟨1, 0, fun _ _ => 0⟩
  | [A] => .ok A
  | A :: rest =>
    match horzcat rest with
    | .error e => .error e
    | .ok B => if A.r = B.r then .ok ⟨A.r, A.c + B.c, fun i j => if j < A.c then A.get i j else B.get i (j - A.c)⟩ else .error "RuntimeError"

/-- `Tanh` (`_onnxconversion.py:318-319`) -/
noncomputable def opTanh : List CMat → Except String CMat
  | [x] => .ok (x.map Real.tanh)
  | _ => .error "TypeError"

/-- `Sigmoid` (`_onnxconversion.py:321-323`) -/
noncomputable def opSigmoid : List CMat → Except String CMat
  | [x] => .ok (x.map fun a => 1 / (1 + Real.exp (-a)))
  | _ => .error "TypeError"

/-- `Relu` (`_onnxconversion.py:325-326`) -/
noncomputable def opRelu : List CMat → Except String CMat
  | [x] => .ok (x.map fun a => max 0 a)
  | _ => .error "TypeError"

/-- `Elu` (`_onnxconversion.py:328-329`): the attribute `alpha` is not read. -/
noncomputable def opElu : List CMat → Except String CMat
  | [x] => .ok (x.map fun a => max 0 a + min 0 (Real.exp a - 1))
  | _ => .error "TypeError"

/-- `MatMul` (`_onnxconversion.py:331-332`), two arguments -/
noncomputable def opMatMul : List CMat → Except String CMat
  | [A, B] => A.mul B
  | _ => .error "TypeError"

/-- the loop of `Add` -/
noncomputable def addLoop : CMat → List CMat → Except String CMat
  | acc, [] => .ok acc
  | acc, A :: rest =>
    match acc.zip (· + ·) A with
    | .error e => .error e
    | .ok s => addLoop s rest

/-- `Add` (`_onnxconversion.py:334-341`): starts with the number 0 -/
noncomputable def opAdd (args : List CMat) : Except String CMat := addLoop ⟨1, 1, fun _ _ => 0⟩ args

/-- `Mul` (`_onnxconversion.py:343-344`) -/
noncomputable def opMul : List CMat → Except String CMat
  | A :: B :: _ => A.zip (· * ·) B
  | _ => .error "IndexError"

/-- `Sub` (`_onnxconversion.py:346-347`) -/
noncomputable def opSub : List CMat → Except String CMat
  | A :: B :: _ => A.zip (· - ·) B
  | _ => .error "IndexError"

/-- `k.i if k.type == 2 else k.f` (`_onnxconversion.py:354-356`); the last attribute of a name wins; lists have the float value 0. -/
noncomputable def attrNum (attrs : Attrs) (n : String) : Option ℝ :=
  (attrs.reverse.lookup n).map fun | .int i => (i : ℝ) | .float f => f | .ints _ => 0

/-- `Gemm` (`_onnxconversion.py:349-381`) for a two-dimensional `C` -/
noncomputable def opGemm (args : List CMat) (attrs : Attrs) : Except String CMat :=
  match args with
  | A :: B :: C :: _ =>
    let A := if attrNum attrs "transA" = some 1 then A.T else A
    let B := if attrNum attrs "transB" = some 1 then B.T else B
    let alpha := (attrNum attrs "alpha").getD 1
    let beta := (attrNum attrs "beta").getD 1
    match A.mul B with
    | .error e => .error e
    | .ok P => (P.map (alpha * ·)).zip (· + ·) (C.map (beta * ·))
  | _ => .error "IndexError"

/-- `Concat` (`_onnxconversion.py:385-389`): `attribute[0].i in (0, 2)` -/
def opConcat (args : List CMat) (attrs : Attrs) : Except String CMat :=
  match attrs with
  | (_, .int i) :: _ => if i = 0 ∨ i = 2 then vertcat args else horzcat args
  | (_, _) :: _ => vertcat args
  | [] => .error "IndexError"

/-- Python's `slice(start, end)` on a dimension of size `n`: the first index and the number of indices -/
def pySlice (n : Nat) (s e : Int) : Nat × Nat :=
  let clamp (a : Int) : Nat := if a < 0 then (a + n).toNat else min a.toNat n
  (clamp s, clamp e - clamp s)

/-- the loop of `Slice` over `zip(ax, starts, ends)`; `slices` has two places, negative axes count from the end -/
def sliceLoop : List (Int × Int × Int) → (Option (Int × Int) × Option (Int × Int)) → Except String (Option (Int × Int) × Option (Int × Int))
  | [], s => .ok s
  | (a, b, e) :: rest, s =>
    if a = 0 ∨ a = -2 then sliceLoop rest (some (b, e), s.2)
    else if a = 1 ∨ a = -1 then sliceLoop rest (s.1, some (b, e))
    else .error "IndexError"

/-- the part of a matrix selected by a slice in each dimension -/
def CMat.slice (A : CMat) (s : Option (Int × Int) × Option (Int × Int)) : CMat :=
  let rr := match s.1 with | some (b, e) => pySlice A.r b e | none => (0, A.r)
  let cc := match s.2 with | some (b, e) => pySlice A.c b e | none => (0, A.c)
  ⟨rr.2, cc.2, fun i j => A.get (rr.1 + i) (cc.1 + j)⟩

/-- `attribute[k].ints` -/
def attrInts (attrs : Attrs) (k : Nat) : Except String (List Int) :=
  match attrs[k]? with
  | some (_, .ints l) => .ok l
  | some _ => .ok []
  | none => .error "IndexError"

/-- `Slice` (`_onnxconversion.py:399-410`): the attributes are taken by position: axes, ends, starts. -/
def opSlice (args : List CMat) (attrs : Attrs) : Except String CMat :=
  match attrInts attrs 0, attrInts attrs 1, attrInts attrs 2, args with
  | .ok ax, .ok ends, .ok starts, A :: _ =>
    match sliceLoop (ax.zip (starts.zip ends)) (none, none) with
    | .error e => .error e
    | .ok s => .ok (A.slice s)
  | .error e, _, _, _ => .error e
  | _, .error e, _, _ => .error e
  | _, _, .error e, _ => .error e
  | _, _, _, [] => .error "IndexError"

/-- `Reshape` (`_onnxconversion.py:412-416`) to a shape with two positive entries: `casadi.reshape` goes column by column. -/
def reshape (A : CMat) (r c : Nat) : Except String CMat :=
  if A.r * A.c = r * c then .ok ⟨r, c, fun i j => let k := i + j * r; A.get (k % A.r) (k / A.r)⟩ else .error "RuntimeError"

/-- The class `ONNXOperations` (`_onnxconversion.py:303-419`); `Reshape` and `Shape` (whose second argument or result is not a matrix) are treated
separately. -/
noncomputable def casadiOps : Ops CMat := fun op =>
  if op = "Tanh" then some fun a _ => opTanh a
  else if op = "Sigmoid" then some fun a _ => opSigmoid a
  else if op = "Relu" then some fun a _ => opRelu a
  else if op = "Elu" then some fun a _ => opElu a
  else if op = "MatMul" then some fun a _ => opMatMul a
  else if op = "Add" then some fun a _ => opAdd a
  else if op = "Sum" then some fun a _ => opAdd a
  else if op = "Mul" then some fun a _ => opMul a
  else if op = "Sub" then some fun a _ => opSub a
  else if op = "Gemm" then some opGemm
  else if op = "Concat" then some opConcat
  else if op = "Slice" then some opSlice
  else if op = "Unsqueeze" ∨ op = "Squeeze" then some fun a _ => match a with | A :: _ => .ok A | [] => .error "IndexError"
  else none

end DoMpc.Onnx
