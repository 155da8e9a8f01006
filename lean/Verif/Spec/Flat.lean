import Verif.Model.Flat

/-!
# What power indices mean
-/
namespace DoMpc.FlatSpec

/-- a Python index into a list of length `n` -/
def InRange (n : Nat) (i : Int) : Prop := -(n : Int) ≤ i ∧ i < n

/-- the number of the element that a Python index selects -/
def counted (n : Nat) (i : Int) : Nat := (if i < 0 then n + i else i).toNat

/-- the structure has the entry, and every repeat index is in range -/
def Exists (S : SStruct) (nm : String) (idx : List Int) : Prop := ∃ e ∈ S, e.name = nm ∧ List.Forall₂ InRange e.rep idx

/-- the block that a power index selects -/
def selected (S : SStruct) (nm : String) (idx : List Int) : List Nat :=
  match S.find? (·.name = nm) with
  | some e => List.zipWith counted e.rep idx
  | none => []

/-- Blocks that fit to the structure. -/
def Fits {α : Type} (S : SStruct) (v : String → List Nat → List α) : Prop :=
  ∀ e ∈ S, ∀ i, List.Forall₂ (fun a n => a < n) i e.rep → (v e.name i).length = e.sub.size

/-- the entries have different names -/
def Distinct (S : SStruct) : Prop := (S.map (·.name)).Nodup

section Mpc
variable {K : Type} [Field K] [LinearOrder K] {d : Dims}

/-- the names fit to the dimensions of the model -/
structure Ok (V : VarNames) (d : Dims) : Prop where
  x : V.x.size = d.nx
  z : V.z.size = d.nz
  u : V.u.size = d.nu
  tvp : V.tvp.size = d.ntv
  p : V.p.size = d.np

/-- The two points agree on every variable that `opt_x` has. -/
structure SameEntries (cfg : MpcCfg K d) (w w' : OptX K d) : Prop where
  x : ∀ k ≤ cfg.N, ∀ s < cfg.nMax, ∀ i ≤ cfg.ifcn.ncoll, w.x k s i = w'.x k s i
  z : ∀ k < cfg.N, ∀ s < cfg.nMax, ∀ i < max cfg.ifcn.ncoll 1, w.z k s i = w'.z k s i
  u : ∀ k < cfg.N, ∀ s < cfg.nU, w.u k s = w'.u k s
  eps : ∀ k < cfg.nEps, ∀ s < cfg.nMax, ∀ sl ∈ cfg.nl, sl.soft = true → ∀ i < sl.dim, w.eps k s sl.name i = w'.eps k s sl.name i

/-- The two points agree on every parameter that `opt_p` has. -/
structure SameParams (cfg : MpcCfg K d) (q q' : OptP K d) : Prop where
  x0 : q.x0 = q'.x0
  tvp : ∀ k ≤ cfg.N, q.tvp k = q'.tvp k
  p : ∀ c < cfg.c, q.p c = q'.p c
  uPrev : q.uPrev = q'.uPrev

/-- The integrator uses only the collocation points it has. -/
def OwnPoints (I : Ifcn K d) : Prop :=
  ∀ x xs xs' u zs zs' tv p w, (∀ i < I.ncoll, xs i = xs' i) → (∀ i < max I.ncoll 1, zs i = zs' i) →
    I.g x xs u zs tv p w = I.g x xs' u zs' tv p w ∧ I.xf x xs u zs tv p w = I.xf x xs' u zs' tv p w

end Mpc

end DoMpc.FlatSpec
