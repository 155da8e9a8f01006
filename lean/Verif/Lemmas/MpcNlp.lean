import Verif.Lemmas.Mpc
import Verif.Spec.Mpc
import Verif.Spec.MpcReading

/-! Helper lemmas for the MPC problem. -/
set_option linter.unusedSectionVars false
namespace DoMpc
open Spec
variable {K : Type} [Field K] [LinearOrder K] [IsStrictOrderedRing K] {d : Dims}

theorem kEps_eq (cfg : MpcCfg K d) {k : Nat} (hk : k < cfg.N) : cfg.kEps k = if cfg.singleSlack then 0 else k := by
  unfold MpcCfg.kEps MpcCfg.nEps; split_ifs <;> omega

/-- Helper: nonlinear rows of the default setting in terms of the specification. -/
theorem nlRows_holds (cfg : MpcCfg K d) (hc : 0 < cfg.c) (hcol : cfg.nlColloc = false)
    (hn : (cfg.nl.map (·.name)).Nodup) (w : OptX K d) (q : OptP K d) :
    (∀ ksb ∈ cfg.loop, ∀ r ∈ cfg.nlRowsAt w q ksb.1 ksb.2.1 ksb.2.2, r.Holds) ↔
      RespectsConstraints cfg.nl cfg.c cfg.nRobust cfg.N q.tvp q.p (cfg.X w) (cfg.U w) (cfg.Z w 0) (cfg.E w) := by
  have h1 := loop_forall cfg hc (fun k s _ cur => ∀ r ∈ nlRows cfg.nl (cfg.xPhys w k s cfg.xLast)
    (cfg.uPhys w k (cfg.sU s)) (cfg.zPhys w k s 0) (q.tvp k) (q.p cur) (w.eps (cfg.kEps k) s), r.Holds)
  simp only [MpcCfg.nlRowsAt, hcol, Bool.false_eq_true, if_false]
  rw [h1]
  unfold RespectsConstraints
  refine forall_congr' fun k => forall_congr' fun hk => forall_congr' fun h => forall_congr' fun hh =>
    forall_congr' fun r => forall_congr' fun hr => ?_
  rw [kEps_eq cfg hk]
  unfold nlRows
  simp only [List.mem_flatMap, List.mem_map, List.mem_range]
  constructor
  · intro H call hcall i hi
    have := H _ ⟨call, hcall, i, hi, rfl⟩
    simp only [Row.Holds, Bound.le, true_and] at this
    rw [nlConsValue_eq cfg.nl hn call hcall] at this
    split_ifs with hs
    · rw [if_pos hs] at this; exact this
    · rw [if_neg hs, sub_zero] at this; exact this
  · rintro H row ⟨call, hcall, i, hi, rfl⟩
    have := H call hcall i hi
    simp only [Row.Holds, Bound.le, true_and]
    rw [nlConsValue_eq cfg.nl hn call hcall]
    split_ifs at this with hs
    · rw [if_pos hs]; exact this
    · rw [if_neg hs, sub_zero]; exact this

theorem discrete_solves (m : DaeModel K d) (cfg : MpcCfg K d) (hif : cfg.ifcn = discreteIfcn m cfg.sx cfg.su cfg.sz 1)
    (hx : ∀ i, 0 < cfg.sx i) (x : Vec K d.nx) (ξ : Nat → Vec K d.nx) (u : Vec K d.nu) (ζ : Nat → Vec K d.nz)
    (tv : Vec K d.ntv) (p : Vec K d.np) (x' : Vec K d.nx) :
    cfg.ifcn.Solves x ξ u ζ tv p x' ↔
      m.alg (x * cfg.sx) (u * cfg.su) (ζ 0 * cfg.sz) tv p 0 = 0 ∧
      x' * cfg.sx = m.rhs (x * cfg.sx) (u * cfg.su) (ζ 0 * cfg.sz) tv p 0 := by
  unfold Ifcn.Solves
  rw [hif]
  simp only [discreteIfcn, mul_one, List.mem_ofFn, forall_exists_index, forall_apply_eq_imp_iff]
  apply and_congr
  · exact ⟨fun h => funext h, fun h j => by rw [h]; rfl⟩
  · constructor
    · rintro rfl; funext j; simp only [Pi.mul_apply, Pi.div_apply]; exact div_mul_cancel₀ _ (hx j).ne'
    · intro h; rw [← h]; funext j; simp only [Pi.mul_apply, Pi.div_apply]; exact mul_div_cancel_right₀ _ (hx j).ne'

theorem path_history (cfg : MpcCfg K d) (hc : 0 < cfg.c) {rs : List Nat} {s : Nat} (hp : cfg.Path rs s) :
    rs.length ≤ cfg.N ∧ IsHistory cfg.c cfg.nRobust rs.length (rs.take cfg.nRobust) ∧
      s = number cfg.c (rs.take cfg.nRobust) := by
  induction hp with
  | root => exact ⟨Nat.zero_le _, ⟨by simp, by simp⟩, by simp [number]⟩
  | @step rs s b hp hl hb ih =>
    obtain ⟨_, hh, rfl⟩ := ih
    have ho := treeTables_offset cfg.N cfg.nRobust cfg.c hc hl (isHistory_number_lt hh)
    have hoff := offset_history hh
    have hcur : ((b : Int) + branchOffsetValue cfg.c cfg.nRobust rs.length (number cfg.c (rs.take cfg.nRobust))) =
        (cfg.cur rs.length (number cfg.c (rs.take cfg.nRobust)) b : Int) := by
      unfold MpcCfg.cur MpcCfg.tree
      rw [ho, hoff]; split_ifs <;> omega
    have hmay := (mayOccur_iff hh _).mpr ⟨b, hb, hcur⟩
    have hext : extend cfg.nRobust rs.length (rs.take cfg.nRobust) (cfg.cur rs.length (number cfg.c (rs.take cfg.nRobust)) b) =
        (rs ++ [cfg.cur rs.length (number cfg.c (rs.take cfg.nRobust)) b]).take cfg.nRobust := by
      unfold extend
      split_ifs with hk
      · rw [List.take_of_length_le (by omega), List.take_of_length_le (by simp; omega)]
      · rw [List.take_append_of_le_length (by omega)]
    refine ⟨by simp; omega, ?_, ?_⟩
    · have := isHistory_extend hh hmay
      rw [hext] at this
      simpa using this
    · have h2 := child_history hh hb hcur
      rw [hext] at h2
      rw [← h2]
      unfold MpcCfg.child MpcCfg.tree
      rw [treeTables_child _ _ _ hc hl (isHistory_number_lt hh) hb, Int.toNat_natCast]

end DoMpc
