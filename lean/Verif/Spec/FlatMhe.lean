import Verif.Spec.Flat
import Verif.Model.FlatMhe

/-!
# The variables and parameters of an estimator
-/
namespace DoMpc.FlatSpec
variable {K : Type} [Field K] [LinearOrder K] {d : Dims} {ne ns : Nat}

/-- the names fit to the dimensions of the model and of the estimated parameters -/
structure OkMhe (V : MheNames) (d : Dims) (ne ns : Nat) : Prop where
  x : V.x.size = d.nx
  z : V.z.size = d.nz
  u : V.u.size = d.nu
  tvp : V.tvp.size = d.ntv
  w : V.w.size = d.nw
  v : V.v.size = d.nv
  y : V.y.size = d.ny
  pEst : V.pEst.size = ne
  pSet : V.pSet.size = ns

/-- The two points agree on every variable that `opt_x` has. -/
structure SameMheX (cfg : MheCfg K d ne ns) (o o' : MheX K d ne) : Prop where
  x : ∀ k ≤ cfg.N, ∀ i ≤ cfg.ifcn.ncoll, o.x k i = o'.x k i
  z : ∀ k < cfg.N, ∀ i < max cfg.ifcn.ncoll 1, o.z k i = o'.z k i
  u : ∀ k < cfg.N, o.u k = o'.u k
  w : ∀ k < cfg.N, o.w k = o'.w k
  v : ∀ k < cfg.N, o.v k = o'.v k
  eps : ∀ k < cfg.nEps, ∀ sl ∈ cfg.nl, sl.soft = true → ∀ i < sl.dim, o.eps k sl.name i = o'.eps k sl.name i
  pEst : o.pEst = o'.pEst

/-- The two points agree on every parameter that `opt_p` has. -/
structure SameMheP (cfg : MheCfg K d ne ns) (q q' : MheP K d ne ns) : Prop where
  xPrev : q.xPrev = q'.xPrev
  pEstPrev : q.pEstPrev = q'.pEstPrev
  pSet : q.pSet = q'.pSet
  tvp : ∀ k < cfg.N, q.tvp k = q'.tvp k
  yMeas : ∀ k < cfg.N, q.yMeas k = q'.yMeas k

end DoMpc.FlatSpec
