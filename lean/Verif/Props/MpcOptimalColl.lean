import Verif.Props.MpcOptimal
import Verif.Props.Collocation
import Verif.Spec.CollStage

/-! # Property C12 for continuous-time models: optimality carries over from the solver's problem to the collocation problem -/
set_option linter.unusedSectionVars false
namespace DoMpc
open Spec Polynomial
variable {K : Type} [Field K] [LinearOrder K] [IsStrictOrderedRing K] {d : Dims}

/-- Settings for which dynamics, bounds and constraints of the problem handed to the solver are the documented ones. -/
structure MpcCfg.CollConstraints (cfg : MpcCfg K d) (m : DaeModel K d) (deg ni : Nat) (tau : Nat → K) (tStep : K) : Prop where
  setup : setupCollocation m cfg.sx cfg.su cfg.sz 1 deg ni tau tStep = .ok cfg.ifcn
  tau0 : tau 0 = 0
  tauInj : ∀ i ≤ deg, ∀ j ≤ deg, tau i = tau j → i = j
  cpos : 0 < cfg.c
  sx : ∀ i, 0 < cfg.sx i
  su : ∀ i, 0 < cfg.su i
  sz : ∀ i, 0 < cfg.sz i
  noColl : cfg.nlColloc = false
  names : (cfg.nl.map (·.name)).Nodup
  noAlg : cfg.NoAlgBranching
  slack : cfg.singleSlack = false

/-- … and its cost.  The stage cost and a user-defined penalty on input changes must not depend
on the algebraic states: they get the ones at the *end* of the interval (`C08_fails_collocation_time`). -/
structure MpcCfg.CollRegular (cfg : MpcCfg K d) (m : DaeModel K d) (deg ni : Nat) (tau : Nat → K) (tStep : K) : Prop
    extends cfg.CollConstraints m deg ni tau tStep where
  horizon : cfg.nRobust < cfg.N
  lterm : ∀ x u z z' tv p, cfg.lterm x u z tv p = cfg.lterm x u z' tv p
  rterm : ∀ f, cfg.rterm = .user f → (∀ i, cfg.su i = 1) ∧ ∀ x u v z z' tv p, f x u v z tv p = f x u v z' tv p

/-- The collocation problem a configuration and the parameters of one step stand for. -/
def MpcCfg.collProblem (cfg : MpcCfg K d) (m : DaeModel K d) (deg ni : Nat) (tau : Nat → K) (tStep : K) (q : OptP K d) : CollStage K d :=
  { cfg.problem m q with deg := deg, ni := ni, tau := tau, tStep := tStep, allPoints := cfg.consColloc }

/-! ## the cost depends on the nodes only -/

/-- Policies that agree on all nodes have the same cost. -/
theorem cost_congr (P : MultiStage K d) (π π' : Policy K d) (hN : 0 < P.N)
    (hX : ∀ k h, IsHistory P.c P.nR k h → π.X k h = π'.X k h) (hU : ∀ k < P.N, ∀ h, IsHistory P.c P.nR k h → π.U k h = π'.U k h)
    (hE : ∀ k h, IsHistory P.c P.nR k h → π.E k h = π'.E k h)
    (hL : ∀ x u k h r, IsHistory P.c P.nR k h → MayOccur P.c P.nR k h r →
      P.stage x u (π.Z k (extend P.nR k h r)) (P.tvp k) (P.p r) = P.stage x u (π'.Z k (extend P.nR k h r)) (P.tvp k) (P.p r))
    (hR : ∀ x u v k h r, IsHistory P.c P.nR k h → MayOccur P.c P.nR k h r →
      P.change x u v (π.Z k (extend P.nR k h r)) (P.tvp k) (P.p r) = P.change x u v (π'.Z k (extend P.nR k h r)) (P.tvp k) (P.p r)) :
    P.cost π = P.cost π' := by
  unfold MultiStage.cost
  have e1 : ∀ k < P.N, ∀ h, IsHistory P.c P.nR k h → inputBefore P.nR P.uLast π.U k h = inputBefore P.nR P.uLast π'.U k h := by
    intro k hk h hh
    unfold inputBefore
    split_ifs with h0
    · rfl
    · apply hU _ (by omega)
      unfold previous
      exact ⟨by rw [List.length_take, hh.1]; omega, fun b hb => hh.2 b (List.mem_of_mem_take hb)⟩
  congr 1
  · congr 1
    · unfold averageCost
      congr 1
      apply sum_map_congr
      intro σ hσ
      rw [mem_allHistories_iff] at hσ
      unfold scenarioCost
      congr 1
      · apply sum_map_congr
        intro k hk
        have hk : k < P.N := List.mem_range.mp hk
        have hkn : IsHistory P.c P.nR k (known P.nR k σ) := by
          unfold known
          exact ⟨by simp [hσ.1]; omega, fun b hb => hσ.2 b (List.mem_of_mem_take hb)⟩
        have hre : MayOccur P.c P.nR k (known P.nR k σ) (realisation P.nR k σ) := by
          unfold MayOccur realisation known
          split_ifs with hkR
          · have hl : k < σ.length := by rw [hσ.1]; omega
            rw [List.getD_eq_getElem?_getD, List.getElem?_eq_getElem hl, Option.getD_some]
            exact hσ.2 _ (List.getElem_mem hl)
          · rw [List.take_of_length_le (by rw [hσ.1]; omega)]
        dsimp only
        rw [hX k _ hkn, hU k hk _ hkn, hL _ _ k _ _ hkn hre]
      · dsimp only
        rw [hX _ _ hσ]
    · apply branchSum_congr
      intro k hk h hh r hr
      rw [hE k h hh]
  · apply branchSum_congr
    intro k hk h hh r hr
    rw [hX k h hh, hU k hk h hh, e1 k hk h hh, hR _ _ _ k h r hh hr]

theorem changeTerm_sum' (cfg : MpcCfg K d) (hc : 0 < cfg.c) (hu : ∀ i, 0 < cfg.su i) (hz : cfg.NoAlgBranching)
    (hrt : ∀ f, cfg.rterm = .user f → ∀ i, cfg.su i = 1) (w : OptX K d) (q : OptP K d) :
    (cfg.loop.map fun ksb => cfg.rtermAt w q ksb.1 ksb.2.1 ksb.2.2).sum =
      branchSum cfg.c cfg.N cfg.nRobust fun k h r =>
        cfg.changeTerm (cfg.X w k h) (cfg.U w k h) (inputBefore cfg.nRobust q.uPrev (cfg.U w) k h)
          (cfg.Z w cfg.zLast k (extend cfg.nRobust k h r)) (q.tvp k) (q.p r) := by
  cases hr : cfg.rterm with
  | factor r =>
    rw [C09_default_change_penalty cfg hc hu r hr]
    unfold MpcCfg.changeTerm
    rw [hr]
  | user f =>
    rw [C09_user_rterm_partial cfg hc (hrt f hr) hz f hr]
    unfold MpcCfg.changeTerm
    rw [hr]

section
variable {cfg : MpcCfg K d} {m : DaeModel K d} {deg ni : Nat} {tau : Nat → K} {tStep : K}

theorem MpcCfg.CollConstraints.ni_pos (hR : cfg.CollConstraints m deg ni tau tStep) : 0 < ni :=
  (setupCollocation_ok m _ _ _ _ deg ni tau tStep cfg.ifcn hR.setup).1
theorem MpcCfg.CollConstraints.ncoll (hR : cfg.CollConstraints m deg ni tau tStep) : cfg.ifcn.ncoll = ni * (deg + 1) := by
  rw [(setupCollocation_ok m _ _ _ _ deg ni tau tStep cfg.ifcn hR.setup).2.1, Nat.mul_comm]
theorem MpcCfg.CollConstraints.ncoll_pos (hR : cfg.CollConstraints m deg ni tau tStep) : 0 < ni * (deg + 1) :=
  Nat.mul_pos hR.ni_pos (by omega)

theorem change_indep (hR : cfg.CollRegular m deg ni tau tStep) (x : Vec K d.nx) (u v : Vec K d.nu) (z z' : Vec K d.nz) (tv : Vec K d.ntv) (p : Vec K d.np) :
    cfg.changeTerm x u v z tv p = cfg.changeTerm x u v z' tv p := by
  unfold MpcCfg.changeTerm
  cases hr : cfg.rterm with
  | factor r => rfl
  | user f => exact (hR.rterm f hr).2 x u v z z' tv p

/-- Objective of the NLP = cost of any policy that agrees with it on the nodes. -/
theorem C12_objective_collocation (hR : cfg.CollRegular m deg ni tau tStep) (w : OptX K d) (q : OptP K d) (π : CollPolicy K d)
    (hX : ∀ k h, IsHistory cfg.c cfg.nRobust k h → cfg.X w k h = π.X k h)
    (hU : ∀ k < cfg.N, ∀ h, IsHistory cfg.c cfg.nRobust k h → cfg.U w k h = π.U k h)
    (hE : ∀ k h, IsHistory cfg.c cfg.nRobust k h → cfg.E w k h = π.E k h) :
    cfg.obj w q = (cfg.collProblem m deg ni tau tStep q).policyCost π := by
  have h1 : cfg.obj w q = (cfg.problem m q).cost ⟨cfg.X w, cfg.U w, cfg.Z w cfg.zLast, cfg.E w⟩ := by
    rw [C08_objective_average_partial cfg hR.cpos hR.horizon hR.noAlg,
      changeTerm_sum' cfg hR.cpos hR.su hR.noAlg (fun f hf => (hR.rterm f hf).1)]
    rfl
  rw [h1]
  exact cost_congr (cfg.problem m q) _ π.atNodes (by have := hR.horizon; show 0 < cfg.N; omega) hX hU hE
    (fun x u k h r _ _ => hR.lterm _ _ _ _ _ _) (fun x u v k h r _ _ => change_indep hR _ _ _ _ _ _ _)

theorem extend_inj {c nR k : Nat} {h h2 : List Nat} {r r2 : Nat} (hr : MayOccur c nR k h r) (hr2 : MayOccur c nR k h2 r2)
    (he : extend nR k h r = extend nR k h2 r2) : h = h2 ∧ r = r2 := by
  unfold extend at he
  unfold MayOccur at hr hr2
  split_ifs at he hr hr2
  · exact ⟨(List.append_inj' he rfl).1, by simpa using (List.append_inj' he rfl).2⟩
  · exact ⟨he, by rw [hr, hr2, he]⟩

/-- every history after a stage extends a history before it -/
theorem exists_extend {c nR k : Nat} {h' : List Nat} (hh : IsHistory c nR (k + 1) h') :
    ∃ h r, IsHistory c nR k h ∧ MayOccur c nR k h r ∧ extend nR k h r = h' := by
  by_cases hk : k < nR
  · have hl : h'.length = k + 1 := by rw [hh.1]; omega
    have hne : h' ≠ [] := by intro h; simp [h] at hl
    refine ⟨h'.dropLast, h'.getLast hne, ⟨by rw [List.length_dropLast, hl]; omega, fun b hb => hh.2 b (List.mem_of_mem_dropLast hb)⟩, ?_, ?_⟩
    · unfold MayOccur; rw [if_pos hk]; exact hh.2 _ (List.getLast_mem hne)
    · unfold extend; rw [if_pos hk]; exact List.dropLast_append_getLast hne
  · refine ⟨h', h'.getLastD 0, ⟨by rw [hh.1]; omega, hh.2⟩, ?_, ?_⟩
    · unfold MayOccur; rw [if_neg hk]
    · unfold extend; rw [if_neg hk]

/-- The rows of the NLP without the restriction to problems without constraints. -/
theorem rows_iff_collocation (hR : cfg.CollConstraints m deg ni tau tStep) (w : OptX K d) (q : OptP K d) :
    (∀ r ∈ cfg.rows w q, r.Holds) ↔
      (cfg.X w 0 [] = q.x0 ∧
      ∀ k < cfg.N, ∀ h, IsHistory cfg.c cfg.nRobust k h → ∀ r, MayOccur cfg.c cfg.nRobust k h r →
        ∃ P : Nat → Fin d.nx → K[X],
          IsCollocationSolution m deg ni tau (tStep / ni) (cfg.X w k h) (cfg.U w k h) (q.tvp k) (q.p r) 0
            (cfg.X w (k + 1) (extend cfg.nRobust k h r)) P
            (fun i j => cfg.zPhys w k (number cfg.c (extend cfg.nRobust k h r)) (i * (deg + 1) + j)) ∧
          (∀ i < ni, ∀ j ≤ deg, ¬ (i = 0 ∧ j = 0) →
            valueAt (P i) (tau j) = cfg.xPhys w (k + 1) (number cfg.c (extend cfg.nRobust k h r)) (i * (deg + 1) + j - 1)) ∧
          w.x (k + 1) (number cfg.c (extend cfg.nRobust k h r)) (ni * (deg + 1) - 1) = w.x (k + 1) (number cfg.c (extend cfg.nRobust k h r)) cfg.xLast) ∧
      RespectsConstraints cfg.nl cfg.c cfg.nRobust cfg.N q.tvp q.p (cfg.X w) (cfg.U w) (cfg.Z w 0) (cfg.E w) := by
  rw [rows_holds, nlRows_holds cfg hR.cpos hR.noColl hR.names, initRows_holds cfg hR.sx]
  have h1 := loop_forall cfg hR.cpos (fun k s ch cur => cfg.ifcn.Solves (w.x k s cfg.xLast) (w.x (k+1) ch)
    (w.u k (cfg.sU s)) (w.z k ch) (q.tvp k) (q.p cur) (w.x (k+1) ch cfg.xLast))
  simp only [dynRows_holds]
  rw [h1, ← and_assoc]
  apply and_congr _ Iff.rfl
  apply and_congr Iff.rfl
  refine forall_congr' fun k => forall_congr' fun hk => forall_congr' fun h => forall_congr' fun hh =>
    forall_congr' fun r => forall_congr' fun hr => ?_
  exact C10_collocation_iff m cfg.sx cfg.su cfg.sz hR.sx deg ni tau hR.tau0 hR.tauInj tStep cfg.ifcn hR.setup _ _ _ _ _ _ _

theorem point_lt {ni deg i j : Nat} (hi : i < ni) (hj : j ≤ deg) : i * (deg + 1) + j < ni * (deg + 1) := by
  calc i * (deg + 1) + j < i * (deg + 1) + (deg + 1) := by omega
    _ = (i + 1) * (deg + 1) := by ring
    _ ≤ ni * (deg + 1) := Nat.mul_le_mul_right _ hi

/-- A feasible point of the NLP is an admissible policy: there are polynomials that make its nodes and algebraic states one. -/
theorem C12_feasible_is_admissible_collocation (hR : cfg.CollConstraints m deg ni tau tStep) (w : OptX K d) (q : OptP K d) (hw : cfg.Feasible w q) :
    ∃ P, (cfg.collProblem m deg ni tau tStep q).Admissible
      ⟨cfg.X w, cfg.U w, cfg.E w, P, fun k h i j => cfg.Z w (i * (deg + 1) + j) k h⟩ := by
  obtain ⟨⟨hx0, hdyn⟩, hcons⟩ := (rows_iff_collocation hR w q).mp hw.1
  have hB := (C06_bounds_iff_physical cfg hR.sx hR.su hR.sz hR.names w).mp hw.2
  have hN := C06_feasible_nodes_within_bounds cfg hR.cpos hR.sx hR.su hR.sz hR.names w q hw
  have hlt : ∀ k h, IsHistory cfg.c cfg.nRobust k h → number cfg.c h < cfg.nMax := fun k h hh =>
    lt_of_lt_of_le (isHistory_number_lt hh) (Nat.pow_le_pow_right hR.cpos (by omega))
  -- the polynomials of a branch
  have hbr : ∀ k h', ∃ P : Nat → Fin d.nx → K[X], k < cfg.N → ∀ h r, IsHistory cfg.c cfg.nRobust k h → MayOccur cfg.c cfg.nRobust k h r →
      extend cfg.nRobust k h r = h' →
      IsCollocationSolution m deg ni tau (tStep / ni) (cfg.X w k h) (cfg.U w k h) (q.tvp k) (q.p r) 0 (cfg.X w (k + 1) h') P
        (fun i j => cfg.zPhys w k (number cfg.c h') (i * (deg + 1) + j)) ∧
      (∀ i < ni, ∀ j ≤ deg, ¬ (i = 0 ∧ j = 0) → valueAt (P i) (tau j) = cfg.xPhys w (k + 1) (number cfg.c h') (i * (deg + 1) + j - 1)) := by
    intro k h'
    by_cases hex : k < cfg.N ∧ ∃ h r, IsHistory cfg.c cfg.nRobust k h ∧ MayOccur cfg.c cfg.nRobust k h r ∧ extend cfg.nRobust k h r = h'
    · obtain ⟨hk, h, r, hh, hr, rfl⟩ := hex
      obtain ⟨P, p1, p2, _⟩ := hdyn k hk h hh r hr
      refine ⟨P, fun _ h2 r2 _ hr2 he => ?_⟩
      obtain ⟨rfl, rfl⟩ := extend_inj hr2 hr he
      exact ⟨p1, p2⟩
    · exact ⟨0, fun hk h r hh hr he => absurd ⟨hk, h, r, hh, hr, he⟩ hex⟩
  choose P hP using hbr
  refine ⟨P, ⟨hx0, ?_, hN.1, ?_, hN.2.1, hN.2.2, ?_, ?_, ?_, ?_⟩⟩
  · intro k hk h hh r hr
    exact (hP k _ hk h r hh hr rfl).1
  · intro hall k hk h' hh' i hi j hj hij e
    obtain ⟨h, r, hh, hr, he⟩ := exists_extend hh'
    have hk' : k + 1 < cfg.N := hk
    have hv := (hP k h' (by omega) h r hh hr he).2 i hi j hj hij
    show (cfg.xlb e).le (valueAt (P k h' i) (tau j) e) ∧ _
    have hv' : valueAt (P k h' i) (tau j) e = cfg.xPhys w (k + 1) (number cfg.c h') (i * (deg + 1) + j - 1) e := by rw [hv]
    have hi' : i < ni := hi
    have hj' : j ≤ deg := hj
    have hlt2 := point_lt hi' hj'
    have := hB.1 (k + 1) (by omega) hk' _ (hlt _ h' hh') (i * (deg + 1) + j - 1) (by unfold MpcCfg.xLast; rw [hR.ncoll]; omega) (Or.inl hall) e
    rw [← hv'] at this
    exact this
  · intro k hk h hh i hi j hj hall e
    have hi' : i < ni := hi
    have hj' : j ≤ deg := hj
    have hlt2 := point_lt hi' hj'
    refine hB.2.2.1 k hk _ (hlt _ h hh) (i * (deg + 1) + j) (by unfold MpcCfg.zLast; rw [hR.ncoll]; omega) ?_ e
    rcases hall with hall | ⟨rfl, rfl⟩
    · exact Or.inl hall
    · right; simp
  · intro k hk h hh r hr call hcall i hi
    have h2 := hcons k hk h hh r hr call hcall i hi
    have hz := noAlgBranching_Z cfg hR.noAlg w 0 k hh hr
    simp only [Nat.zero_mul, Nat.zero_add]
    show if call.soft then call.ub.ge (call.expr (cfg.X w k h) (cfg.U w k h) (cfg.Z w 0 k (extend cfg.nRobust k h r)) (q.tvp k) (q.p r) i -
      cfg.E w k h call.name i) else call.ub.ge (call.expr (cfg.X w k h) (cfg.U w k h) (cfg.Z w 0 k (extend cfg.nRobust k h r)) (q.tvp k) (q.p r) i)
    rw [hz]
    exact h2
  · intro k hk h hh call hcall hs i hi
    have := hB.2.2.2.2 k (by unfold MpcCfg.nEps; rw [hR.slack]; exact hk) _ (hlt _ h hh) call hcall hs i hi
    have hE : cfg.E w k h = w.eps k (number cfg.c h) := by simp [MpcCfg.E, hR.slack]
    show 0 ≤ cfg.E w k h call.name i ∧ call.maxViolation.ge (cfg.E w k h call.name i)
    rw [hE]; exact this
  · intro ho k hk h h' _ _
    have ho' : cfg.openLoop = true := ho
    simp [MpcCfg.U, ho']

/-- solver point of a policy -/
noncomputable def MpcCfg.encodeColl (cfg : MpcCfg K d) (deg ni : Nat) (tau : Nat → K) (π : CollPolicy K d) : OptX K d where
  x := fun k s i =>
    match k with
    | 0 => π.X 0 (cfg.dec 0 s) / cfg.sx
    | k + 1 =>
      if i + 1 < ni * (deg + 1) then valueAt (π.P k (cfg.dec (k + 1) s) ((i + 1) / (deg + 1))) (tau ((i + 1) % (deg + 1))) / cfg.sx
      else π.X (k + 1) (cfg.dec (k + 1) s) / cfg.sx
  u := fun k s => π.U k (cfg.dec k s) / cfg.su
  z := fun k s i => π.ζ k (cfg.dec (k + 1) s) (i / (deg + 1)) (i % (deg + 1)) / cfg.sz
  eps := fun k s => π.E k (cfg.dec k s)

/-- Every admissible policy is a feasible point of the NLP, with the same nodes. -/
theorem admissible_is_feasible_coll (hR : cfg.CollConstraints m deg ni tau tStep) (q : OptP K d) (π : CollPolicy K d)
    (hπ : (cfg.collProblem m deg ni tau tStep q).Admissible π) :
    cfg.Feasible (cfg.encodeColl deg ni tau π) q ∧
      (∀ k h, IsHistory cfg.c cfg.nRobust k h → cfg.X (cfg.encodeColl deg ni tau π) k h = π.X k h) ∧
      (∀ k < cfg.N, ∀ h, IsHistory cfg.c cfg.nRobust k h → cfg.U (cfg.encodeColl deg ni tau π) k h = π.U k h) ∧
      (∀ k h, IsHistory cfg.c cfg.nRobust k h → cfg.E (cfg.encodeColl deg ni tau π) k h = π.E k h) := by
  set w := cfg.encodeColl deg ni tau π with hwdef
  have hnc := hR.ncoll
  have hncp := hR.ncoll_pos
  have eXn : ∀ k s, cfg.xPhys w k s cfg.xLast = π.X k (cfg.dec k s) := by
    intro k s
    unfold MpcCfg.xPhys MpcCfg.xLast
    rw [hnc, hwdef]
    unfold MpcCfg.encodeColl
    cases k with
    | zero => exact div_mul_vec _ _ hR.sx
    | succ k =>
      dsimp only
      rw [if_neg (by omega)]
      exact div_mul_vec _ _ hR.sx
  have eXi : ∀ k s i j, i < ni → j ≤ deg → ¬ (i = 0 ∧ j = 0) →
      cfg.xPhys w (k + 1) s (i * (deg + 1) + j - 1) = valueAt (π.P k (cfg.dec (k + 1) s) i) (tau j) := by
    intro k s i j hi hj hij
    unfold MpcCfg.xPhys
    rw [hwdef]
    unfold MpcCfg.encodeColl
    dsimp only
    have hlt2 := point_lt hi hj
    have hpos : 0 < i * (deg + 1) + j := by
      rcases Nat.eq_zero_or_pos i with h | h
      · subst h; have : j ≠ 0 := fun h => hij ⟨rfl, h⟩; omega
      · have : 0 < i * (deg + 1) := Nat.mul_pos h (by omega)
        omega
    have e1 : i * (deg + 1) + j - 1 + 1 = i * (deg + 1) + j := by omega
    have e2 : (i * (deg + 1) + j) / (deg + 1) = i := by
      rw [Nat.mul_comm, Nat.mul_add_div (by omega), Nat.div_eq_of_lt (by omega)]; omega
    have e3 : (i * (deg + 1) + j) % (deg + 1) = j := by
      rw [Nat.mul_comm, Nat.mul_add_mod, Nat.mod_eq_of_lt (by omega)]
    rw [e1, if_pos hlt2, e2, e3]
    exact div_mul_vec _ _ hR.sx
  have eZi : ∀ k s i j, j ≤ deg → cfg.zPhys w k s (i * (deg + 1) + j) = π.ζ k (cfg.dec (k + 1) s) i j := by
    intro k s i j hj
    unfold MpcCfg.zPhys
    rw [hwdef]
    unfold MpcCfg.encodeColl
    dsimp only
    have e2 : (i * (deg + 1) + j) / (deg + 1) = i := by
      rw [Nat.mul_comm, Nat.mul_add_div (by omega), Nat.div_eq_of_lt (by omega)]; omega
    have e3 : (i * (deg + 1) + j) % (deg + 1) = j := by
      rw [Nat.mul_comm, Nat.mul_add_mod, Nat.mod_eq_of_lt (by omega)]
    rw [e2, e3]
    exact div_mul_vec _ _ hR.sz
  have eUp : ∀ k s, cfg.uPhys w k s = π.U k (cfg.dec k s) := fun k s => div_mul_vec _ _ hR.su
  have eX : ∀ k h, IsHistory cfg.c cfg.nRobust k h → cfg.X w k h = π.X k h := by
    intro k h hh
    unfold MpcCfg.X; rw [eXn, dec_number cfg hh]
  have eZ : ∀ i j k h, j ≤ deg → IsHistory cfg.c cfg.nRobust (k + 1) h → cfg.Z w (i * (deg + 1) + j) k h = π.ζ k h i j := by
    intro i j k h hj hh
    unfold MpcCfg.Z; rw [eZi _ _ _ _ hj, dec_number cfg hh]
  have eE : ∀ k h, IsHistory cfg.c cfg.nRobust k h → cfg.E w k h = π.E k h := by
    intro k h hh
    have : cfg.E w k h = π.E k (cfg.dec k (number cfg.c h)) := by
      unfold MpcCfg.E; rw [hR.slack]; rfl
    rw [this, dec_number cfg hh]
  have eU : ∀ k < cfg.N, ∀ h, IsHistory cfg.c cfg.nRobust k h → cfg.U w k h = π.U k h := by
    intro k hk h hh
    unfold MpcCfg.U; rw [eUp]
    split_ifs with ho
    · exact hπ.oneInput ho k hk _ _ (dec_isHistory cfg hR.cpos k 0) hh
    · rw [dec_number cfg hh]
  have hd := dec_isHistory cfg hR.cpos
  refine ⟨⟨?_, ?_⟩, eX, eU, eE⟩
  · rw [rows_iff_collocation hR]
    refine ⟨⟨?_, ?_⟩, ?_⟩
    · rw [eX 0 [] ⟨by simp, by simp⟩]; exact hπ.start
    · intro k hk h hh r hr
      have h1 := isHistory_extend hh hr
      refine ⟨π.P k (extend cfg.nRobust k h r), ?_, ?_, ?_⟩
      · have hs : IsCollocationSolution m deg ni tau (tStep / ni) (π.X k h) (π.U k h) (q.tvp k) (q.p r) 0
            (π.X (k + 1) (extend cfg.nRobust k h r)) (π.P k (extend cfg.nRobust k h r)) (π.ζ k (extend cfg.nRobust k h r)) := hπ.dynamics k hk h hh r hr
        rw [eX k h hh, eU k hk h hh, eX _ _ h1]
        refine ⟨hs.degree, hs.start, ?_, ?_, hs.join, hs.final⟩
        · intro i hi j hj1 hj2
          have := hs.ode i hi j hj1 hj2
          rw [eZi _ _ _ _ hj2, dec_number cfg h1]
          exact this
        · intro i hi j hj
          have := hs.algebraic i hi j hj
          rw [eZi _ _ _ _ hj, dec_number cfg h1]
          exact this
      · intro i hi j hj hij
        rw [eXi _ _ _ _ hi hj hij, dec_number cfg h1]
      · have a1 : w.x (k + 1) (number cfg.c (extend cfg.nRobust k h r)) (ni * (deg + 1) - 1) =
            π.X (k + 1) (cfg.dec (k + 1) (number cfg.c (extend cfg.nRobust k h r))) / cfg.sx := by
          rw [hwdef]; unfold MpcCfg.encodeColl; dsimp only; rw [if_neg (by omega)]
        have a2 : w.x (k + 1) (number cfg.c (extend cfg.nRobust k h r)) cfg.xLast =
            π.X (k + 1) (cfg.dec (k + 1) (number cfg.c (extend cfg.nRobust k h r))) / cfg.sx := by
          rw [hwdef]; unfold MpcCfg.encodeColl MpcCfg.xLast; dsimp only; rw [if_neg (by rw [hnc]; omega)]
        rw [a1, a2]
    · intro k hk h hh r hr call hcall i hi
      have h1 := isHistory_extend hh hr
      have hz0 := eZ 0 0 k _ (Nat.zero_le _) h1
      simp only [Nat.zero_mul, Nat.zero_add] at hz0
      rw [← noAlgBranching_Z cfg hR.noAlg _ 0 k hh hr, eX k h hh, eU k hk h hh, hz0, eE k h hh]
      exact hπ.constraints k hk h hh r hr call hcall i hi
  · rw [C06_bounds_iff_physical cfg hR.sx hR.su hR.sz hR.names]
    refine ⟨?_, ?_, ?_, ?_, ?_⟩
    · intro k h1 h2 s _ i hi hall j
      obtain ⟨k, rfl⟩ : ∃ k', k = k' + 1 := ⟨k - 1, by omega⟩
      by_cases hlast : i + 1 < ni * (deg + 1)
      · have hall' : cfg.consColloc = true := hall.resolve_right (by unfold MpcCfg.xLast; rw [hnc]; omega)
        have hdm : (i + 1) / (deg + 1) * (deg + 1) + (i + 1) % (deg + 1) = i + 1 := by rw [Nat.mul_comm]; exact Nat.div_add_mod _ _
        have hq : (i + 1) / (deg + 1) < ni := Nat.div_lt_of_lt_mul (by rw [Nat.mul_comm]; exact hlast)
        have hr : (i + 1) % (deg + 1) ≤ deg := by have := Nat.mod_lt (i + 1) (show 0 < deg + 1 by omega); omega
        have hne : ¬ ((i + 1) / (deg + 1) = 0 ∧ (i + 1) % (deg + 1) = 0) := by
          rintro ⟨e1, e2⟩; rw [e1, e2] at hdm; omega
        have := eXi k s _ _ hq hr hne
        rw [hdm, Nat.add_sub_cancel] at this
        rw [this]
        exact hπ.inside hall' k h2 _ (hd (k + 1) s) _ hq _ hr hne j
      · have : cfg.xPhys w (k + 1) s i = π.X (k + 1) (cfg.dec (k + 1) s) := by
          unfold MpcCfg.xPhys
          rw [hwdef]; unfold MpcCfg.encodeColl; dsimp only
          rw [if_neg hlast]
          exact div_mul_vec _ _ hR.sx
        rw [this]
        exact hπ.states (k + 1) h1 h2 _ (hd _ s) j
    · intro s _ j
      rw [eXn]; exact hπ.terminal _ (hd cfg.N s) j
    · intro k hk s _ i hi hall j
      have hi' : i < ni * (deg + 1) := by unfold MpcCfg.zLast at hi; rw [hnc] at hi; omega
      have hdm : i / (deg + 1) * (deg + 1) + i % (deg + 1) = i := by rw [Nat.mul_comm]; exact Nat.div_add_mod _ _
      have hq : i / (deg + 1) < ni := Nat.div_lt_of_lt_mul (by rw [Nat.mul_comm]; exact hi')
      have hr : i % (deg + 1) ≤ deg := by have := Nat.mod_lt i (show 0 < deg + 1 by omega); omega
      have := eZi k s (i / (deg + 1)) (i % (deg + 1)) hr
      rw [hdm] at this
      rw [this]
      refine hπ.algebraic k hk _ (hd (k + 1) s) _ hq _ hr ?_ j
      rcases hall with h | h
      · exact Or.inl h
      · right; subst h; simp
    · intro k hk s _ j
      rw [eUp]; exact hπ.inputs k hk _ (hd k s) j
    · intro k hk s _ sl hsl hs i hi
      have hk' : k < cfg.N := by unfold MpcCfg.nEps at hk; rw [hR.slack] at hk; simpa using hk
      exact hπ.slacks k hk' _ (hd k s) sl hsl hs i hi

/-- Every admissible policy is a feasible point of the NLP with the same cost. -/
theorem C12_admissible_is_feasible_collocation (hR : cfg.CollRegular m deg ni tau tStep) (q : OptP K d) (π : CollPolicy K d)
    (hπ : (cfg.collProblem m deg ni tau tStep q).Admissible π) :
    cfg.Feasible (cfg.encodeColl deg ni tau π) q ∧
      cfg.obj (cfg.encodeColl deg ni tau π) q = (cfg.collProblem m deg ni tau tStep q).policyCost π := by
  obtain ⟨h, eX, eU, eE⟩ := admissible_is_feasible_coll hR.toCollConstraints q π hπ
  exact ⟨h, C12_objective_collocation hR _ q π eX eU eE⟩

/-- **C12** (partial, continuous-time models): if the solver returns a global minimiser of its problem, there are polynomials that together with the nodes of
the minimiser form an optimal policy of the documented multi-stage collocation problem, and the input that `make_step` returns is its first input. -/
theorem C12_first_input_collocation_partial (hR : cfg.CollRegular m deg ni tau tStep) (w : OptX K d) (q : OptP K d) (hw : cfg.NlpOptimal w q) :
    ∃ π : CollPolicy K d, (cfg.collProblem m deg ni tau tStep q).Optimal π ∧ π.X = cfg.X w ∧ π.U 0 [] = cfg.uPhys w 0 0 := by
  obtain ⟨P, hP⟩ := C12_feasible_is_admissible_collocation hR.toCollConstraints w q hw.1
  refine ⟨⟨cfg.X w, cfg.U w, cfg.E w, P, fun k h i j => cfg.Z w (i * (deg + 1) + j) k h⟩, ⟨hP, fun π' hπ' => ?_⟩, rfl, by simp [MpcCfg.U, number]⟩
  obtain ⟨h1, h2⟩ := C12_admissible_is_feasible_collocation hR q π' hπ'
  rw [← h2, ← C12_objective_collocation hR w q _ (fun _ _ _ => rfl) (fun _ _ _ _ => rfl) (fun _ _ _ => rfl)]
  exact hw.2 _ h1

/-- The solver's problem is feasible iff the documented problem is. -/
theorem C12_feasible_iff_collocation (hR : cfg.CollConstraints m deg ni tau tStep) (q : OptP K d) :
    (∃ w, cfg.Feasible w q) ↔ ∃ π, (cfg.collProblem m deg ni tau tStep q).Admissible π :=
  ⟨fun ⟨w, hw⟩ => let ⟨_, hP⟩ := C12_feasible_is_admissible_collocation hR w q hw; ⟨_, hP⟩,
   fun ⟨π, hπ⟩ => ⟨_, (admissible_is_feasible_coll hR q π hπ).1⟩⟩

end

/-! ## An integrator with an algebraic state that follows the state -/
namespace CollEx

abbrev dm : Dims := ⟨1, 1, 1, 0, 0, 0, 0, 0, 0⟩

/-- `x' = u`, `0 = z - x` -/
def model : DaeModel ℚ dm :=
  ⟨fun _ u _ _ _ _ => u, fun x _ z _ _ _ => z - x, fun _ _ _ _ _ _ => Fin.elim0, fun _ _ _ _ _ => Fin.elim0⟩

/-- the collocation points of degree one -/
def tau : Nat → ℚ := fun j => (j : ℚ)

/-- one interval of length 1, one element of degree one; the inputs are bounded by 1 and 2, the state by 5 -/
def cfg (F : Ifcn ℚ dm) (L : ℚ → ℚ → ℚ) : MpcCfg ℚ dm where
  N := 1
  nRobust := 0
  c := 1
  ifcn := F
  sx := fun _ => 2
  su := fun _ => 3
  sz := fun _ => 5
  xlb := fun _ => .ninf
  xub := fun _ => .fin 5
  ulb := fun _ => .fin 1
  uub := fun _ => .fin 2
  zlb := fun _ => .ninf
  zub := fun _ => .pinf
  xtlb := fun _ => .ninf
  xtub := fun _ => .fin 5
  nl := []
  lterm := fun x _ z _ _ => L (x 0) (z 0)
  mterm := fun x _ _ => x 0
  rterm := .factor fun _ => 0

def q : OptP ℚ dm := ⟨0, fun _ => Fin.elim0, fun _ => Fin.elim0, 0⟩

/-- apply the input 1 -/
noncomputable def pol : CollPolicy ℚ dm where
  X := fun k _ _ => k
  U := fun _ _ _ => 1
  E := fun _ _ _ _ => 0
  P := fun _ _ _ _ => X
  ζ := fun _ _ _ j _ => j

theorem regular {F : Ifcn ℚ dm} (hF : setupCollocation model (fun _ => 2) (fun _ => 3) (fun _ => 5) 1 1 1 tau 1 = .ok F) (L : ℚ → ℚ → ℚ)
    (hL : ∀ x z z', L x z = L x z') : (cfg F L).CollRegular model 1 1 tau 1 where
  setup := hF
  tau0 := by simp [tau]
  tauInj := by intro i _ j _ h; simpa [tau] using h
  cpos := Nat.one_pos
  sx := fun _ => (by decide +kernel : (0 : ℚ) < 2)
  su := fun _ => (by decide +kernel : (0 : ℚ) < 3)
  sz := fun _ => (by decide +kernel : (0 : ℚ) < 5)
  noColl := rfl
  names := List.nodup_nil
  horizon := Nat.one_pos
  noAlg := Or.inr (Or.inl rfl)
  slack := rfl
  lterm := fun _ _ _ _ _ _ => hL _ _ _
  rterm := fun f h => by simp [cfg] at h

theorem admissible (F : Ifcn ℚ dm) (L : ℚ → ℚ → ℚ) : ((cfg F L).collProblem model 1 1 tau 1 q).Admissible pol where
  start := by funext e; simp [pol, MpcCfg.collProblem, MpcCfg.problem, q]
  dynamics := by
    intro k hk h hh r hr
    have hk0 : k = 0 := by have : k < 1 := hk; omega
    subst hk0
    refine ⟨?_, ?_, ?_, ?_, ?_, ?_⟩
    · intro i hi e; simp [pol, MpcCfg.collProblem]
    · funext e; simp [valueAt, pol]
    · intro i hi j h1 h2; funext e; simp [slopeAt, pol, MpcCfg.collProblem, MpcCfg.problem, model]
    · intro i hi j h1; funext e; simp [valueAt, pol, MpcCfg.collProblem, MpcCfg.problem, model, tau]
    · intro i hi; exact absurd hi (by simp [MpcCfg.collProblem])
    · funext e; simp [valueAt, pol]
  states := fun k h1 h2 => by have : k < 1 := h2; omega
  inside := fun _ k hk => by have : k + 1 < 1 := hk; omega
  terminal := fun h _ j => ⟨trivial, by show (((1 : Nat) : ℚ)) ≤ 5; norm_num⟩
  inputs := fun k _ h _ j => ⟨by show (1 : ℚ) ≤ 1; norm_num, by show (1 : ℚ) ≤ 2; norm_num⟩
  algebraic := fun k _ h _ i _ j _ _ e => ⟨trivial, trivial⟩
  constraints := fun _ _ _ _ _ _ call hcall => by simp [MpcCfg.collProblem, MpcCfg.problem, cfg] at hcall
  slacks := fun _ _ _ _ call hcall => by simp [MpcCfg.collProblem, MpcCfg.problem, cfg] at hcall
  oneInput := fun h => by simp [MpcCfg.collProblem, MpcCfg.problem, cfg] at h

end CollEx

/-- Non-vacuity of C12 for continuous-time models: a regular configuration whose problem is feasible. -/
example : ∃ F, (CollEx.cfg F fun x _ => x).CollRegular CollEx.model 1 1 CollEx.tau 1 ∧ ∃ w, (CollEx.cfg F fun x _ => x).Feasible w CollEx.q := by
  obtain ⟨⟨F, hF, _⟩, _⟩ := C11_bookkeeping CollEx.model (fun _ => 2) (fun _ => 3) (fun _ => 5) 1 1 1 CollEx.tau 1 one_pos
  have hR := CollEx.regular hF (fun x _ => x) (fun _ _ _ => rfl)
  exact ⟨F, hR, (C12_feasible_iff_collocation hR.toCollConstraints CollEx.q).mpr ⟨_, CollEx.admissible F _⟩⟩

/-- **C08** fails for a continuous-time model whose stage cost depends on an algebraic state: the solver's objective takes the states at the beginning
of each interval and the algebraic states at its end.  Here `z = x` in the model, the plan moves the state from 0 to 1, and the cost
`lterm = z` with `mterm = x` is `z(0) + x(1) = 1`, but the objective is 2. -/
theorem C08_fails_collocation_time :
    ∃ (d : Dims) (m : DaeModel ℚ d) (cfg : MpcCfg ℚ d) (tau : Nat → ℚ) (w : OptX ℚ d) (q : OptP ℚ d) (π : CollPolicy ℚ d),
      setupCollocation m cfg.sx cfg.su cfg.sz 1 1 1 tau 1 = .ok cfg.ifcn ∧ cfg.Feasible w q ∧
      (cfg.collProblem m 1 1 tau 1 q).Admissible π ∧
      (∀ k h, IsHistory cfg.c cfg.nRobust k h → cfg.X w k h = π.X k h) ∧
      (∀ k < cfg.N, ∀ h, IsHistory cfg.c cfg.nRobust k h → cfg.U w k h = π.U k h) ∧
      cfg.obj w q = 2 ∧ (cfg.collProblem m 1 1 tau 1 q).policyCost π = 1 := by
  obtain ⟨⟨F, hF, _⟩, _⟩ := C11_bookkeeping CollEx.model (fun _ => 2) (fun _ => 3) (fun _ => 5) 1 1 1 CollEx.tau 1 one_pos
  have hR := CollEx.regular hF (fun x _ => x) (fun _ _ _ => rfl)
  have hnc : F.ncoll = 2 := hR.ncoll
  have hf := (C12_admissible_is_feasible_collocation hR CollEx.q _ (CollEx.admissible F _)).1
  have hX : ∀ k h, (CollEx.cfg F fun _ z => z).X ((CollEx.cfg F fun x _ => x).encodeColl 1 1 CollEx.tau CollEx.pol) k h = fun _ => (k : ℚ) := by
    intro k h
    funext e
    unfold MpcCfg.X MpcCfg.xPhys MpcCfg.xLast MpcCfg.encodeColl
    cases k with
    | zero => simp [CollEx.cfg, CollEx.pol]
    | succ k => simp [CollEx.cfg, CollEx.pol, hnc]
  have hU : ∀ k h, (CollEx.cfg F fun _ z => z).U ((CollEx.cfg F fun x _ => x).encodeColl 1 1 CollEx.tau CollEx.pol) k h = fun _ => (1 : ℚ) := by
    intro k h
    funext e
    unfold MpcCfg.U MpcCfg.uPhys MpcCfg.encodeColl
    simp [CollEx.cfg, CollEx.pol]
  refine ⟨_, CollEx.model, CollEx.cfg F fun _ z => z, CollEx.tau, _, CollEx.q, CollEx.pol, hF, hf, CollEx.admissible F _, ?_, ?_, ?_, ?_⟩
  · intro k h _; rw [hX]; rfl
  · intro k _ h _; rw [hU]; rfl
  · rw [C08_objective_average_partial _ Nat.one_pos Nat.one_pos (Or.inr (Or.inl rfl)), changeTerm_sum' _ Nat.one_pos
      (fun _ => (by decide +kernel : (0 : ℚ) < 3)) (Or.inr (Or.inl rfl)) (fun f h => by simp [CollEx.cfg] at h)]
    have hZ : (CollEx.cfg F fun _ z => z).Z ((CollEx.cfg F fun x _ => x).encodeColl 1 1 CollEx.tau CollEx.pol)
        (CollEx.cfg F fun _ z => z).zLast 0 [] = fun _ => (1 : ℚ) := by
      funext e
      have : (CollEx.cfg F fun _ z => z).zLast = 1 := by simp [MpcCfg.zLast, CollEx.cfg, hnc]
      rw [this]
      unfold MpcCfg.Z MpcCfg.zPhys MpcCfg.encodeColl
      simp [CollEx.cfg, CollEx.pol]
    have hl : ∀ r, (CollEx.cfg F fun _ z => z).stageCost ((CollEx.cfg F fun x _ => x).encodeColl 1 1 CollEx.tau CollEx.pol) CollEx.q 0 [] r = 1 :=
      fun r => congrFun hZ 0
    have hm : ∀ r, (CollEx.cfg F fun _ z => z).leafCost ((CollEx.cfg F fun x _ => x).encodeColl 1 1 CollEx.tau CollEx.pol) CollEx.q [] r = 1 := by
      intro r
      have := congrFun (hX 1 []) 0
      rw [Nat.cast_one] at this
      exact this
    have e1 : (CollEx.cfg F fun _ z => z).c = 1 := rfl
    have e2 : (CollEx.cfg F fun _ z => z).N = 1 := rfl
    have e3 : (CollEx.cfg F fun _ z => z).nRobust = 0 := rfl
    have e4 : (CollEx.cfg F fun _ z => z).nl = [] := rfl
    have e5 : ∀ x u v z tv p, (CollEx.cfg F fun _ z => z).changeTerm x u v z tv p = 0 := fun x u v z tv p => by
      simp [MpcCfg.changeTerm, CollEx.cfg]
    simp only [e1, e2, e3, e4, e5]
    simp [averageCost, allHistories, scenarioCost, branchSum, occurring, known, realisation, slackCost, hl, hm]
    norm_num
  · simp [CollStage.policyCost, MultiStage.cost, averageCost, allHistories, scenarioCost, branchSum, occurring, CollEx.cfg, MpcCfg.collProblem, 
      MpcCfg.problem, CollPolicy.atNodes, CollEx.pol, slackCost, MpcCfg.changeTerm]

end DoMpc
