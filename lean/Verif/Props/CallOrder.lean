import Verif.Spec.CallOrder
import Verif.Props.LiveLoop
import Verif.Props.MheLifeConf
import Verif.Props.MheConfigured
import Verif.Props.Configured

/-!
# C117: the order of configuration calls
-/
set_option linter.unusedSectionVars false
namespace DoMpc
open Spec
variable {K : Type} [Field K] [LinearOrder K] {d : Dims} {ne ns : Nat}

/-! ## Lists of calls -/

theorem callsFor_snoc {α ι : Type} (item : α → Option ι) (it : ι) (ops : List α) (op : α) :
    callsFor item it (ops ++ [op]) = callsFor item it ops ++ (open Classical in if item op = some it then [op] else []) := by
  unfold callsFor
  rw [List.filter_append]
  congr 1
  by_cases h : item op = some it <;> simp [h]

theorem lastOf_callsFor {α β ι : Type} (item : α → Option ι) (it : ι) (f : α → Option β) (h : ∀ op, (f op).isSome = true ↔ item op = some it) (ops : List α) (v : β) :
    lastOf f ops v = ((callsFor item it ops).getLast?.bind f).getD v := by
  induction ops using List.reverseRecOn with
  | nil => rfl
  | append_singleton ops op ih =>
    rw [lastOf_snoc, callsFor_snoc]
    by_cases hi : item op = some it
    · obtain ⟨b, hb⟩ := Option.isSome_iff_exists.1 ((h op).2 hi)
      rw [if_pos hi, List.getLast?_append]
      simp [hb]
    · have hn : f op = none := by
        cases hf : f op with
        | none => rfl
        | some b => exact absurd ((h op).1 (by rw [hf]; rfl)) hi
      rw [if_neg hi, List.append_nil, hn, ih]
      rfl

theorem filterMap_callsFor {α β ι : Type} (item : α → Option ι) (it : ι) (f : α → Option β) (h : ∀ op, (f op).isSome = true ↔ item op = some it) (ops : List α) :
    ops.filterMap f = (callsFor item it ops).filterMap f := by
  induction ops with
  | nil => rfl
  | cons op ops ih =>
    unfold callsFor at ih ⊢
    by_cases hi : item op = some it
    · rw [List.filter_cons_of_pos (by simpa using hi), List.filterMap_cons, List.filterMap_cons, ih]
    · have hn : f op = none := by
        cases hf : f op with
        | none => rfl
        | some b => exact absurd ((h op).1 (by rw [hf]; rfl)) hi
      rw [List.filter_cons_of_neg (by simpa using hi), List.filterMap_cons_none hn, ih]

theorem lastOf_same {α β ι : Type} {item : α → Option ι} {all : ι → Prop} {a b : List α} (hs : SameLast item all a b) (it : ι) (f : α → Option β)
    (h : ∀ op, (f op).isSome = true ↔ item op = some it) (v : β) : lastOf f a v = lastOf f b v := by
  rw [lastOf_callsFor item it f h, lastOf_callsFor item it f h, (hs it).1]

/-- no item twice: every order is as good -/
theorem sameLast_of_perm {α ι : Type} {item : α → Option ι} (all : ι → Prop) {a b : List α} (hp : a.Perm b)
    (hd : a.Pairwise fun x y => ∀ it, item x = some it → item y ≠ some it) : SameLast item all a b := by
  intro it
  have h1 : callsFor item it a = callsFor item it b := by
    have hp' : (callsFor item it a).Perm (callsFor item it b) := hp.filter _
    have hl : (callsFor item it a).Pairwise fun _ _ => False := by
      have h2 := hd.sublist (List.filter_sublist (p := fun op => (open Classical in decide (item op = some it))))
      refine h2.imp_of_mem ?_
      intro x y hx hy hxy
      have hx := (List.mem_filter.1 hx).2
      have hy := (List.mem_filter.1 hy).2
      exact hxy it (by simpa using hx) (by simpa using hy)
    match hc : callsFor item it a, hl, hp' with
    | [], _, hp' => exact (List.nil_perm.1 hp').symm
    | [x], _, hp' => exact List.singleton_perm.1 hp' |>.symm ▸ rfl
    | x :: y :: l, hl, _ => exact ((List.pairwise_cons.1 hl).1 y List.mem_cons_self).elim
  exact ⟨by rw [h1], fun _ => h1⟩

/-- a call that is overwritten later is as good as none -/
theorem sameLast_of_overwritten {α ι : Type} {item : α → Option ι} (all : ι → Prop) (pre mid post : List α) (x y : α) (it : ι) (hx : item x = some it) (hy : item y = some it)
    (hall : ¬ all it) : SameLast item all (pre ++ x :: (mid ++ y :: post)) (pre ++ (mid ++ y :: post)) := by
  intro it'
  by_cases h : it' = it
  · subst h
    refine ⟨?_, fun ha => absurd ha hall⟩
    unfold callsFor
    rw [List.filter_append, List.filter_append, List.filter_cons_of_pos (by simpa using hx), List.filter_append, List.filter_cons_of_pos (by simpa using hy)]
    simp [List.getLast?_append, List.getLast?_cons]
  · have : callsFor item it' (pre ++ x :: (mid ++ y :: post)) = callsFor item it' (pre ++ (mid ++ y :: post)) := by
      unfold callsFor
      rw [List.filter_append, List.filter_append, List.filter_cons_of_neg]
      simp only [decide_eq_true_eq]
      intro e
      rw [hx] at e
      exact h (Option.some.inj e).symm
    exact ⟨by rw [this], fun _ => this⟩

/-! ## The controller -/

section Mpc
variable (mk : Vec K d.nx → Vec K d.nu → Vec K d.nz → Ifcn K d)

/-- attributes that configuration calls do not touch -/
theorem mpc_untouched (S : MpcSettings) (ops : List (MpcOp K d)) (h : ∀ op ∈ ops, Configures op) :
    let o := (MpcObj.new S : MpcObj K d).run mk ops
    o.gen = 0 ∧ o.solver = none ∧ o.cat = false ∧ o.lamX = none := by
  induction ops using List.reverseRecOn with
  | nil => exact ⟨rfl, rfl, rfl, rfl⟩
  | append_singleton ops op ih =>
    obtain ⟨h1, h2, h3, h4⟩ := ih fun p hp => h p (by simp [hp])
    have hu := (conf_run mk S ops fun p hp => h p (by simp [hp])).unset.1
    have hop := h op (by simp)
    rw [MpcObj.run_append]
    generalize (MpcObj.new S : MpcObj K d).run mk ops = o at h1 h2 h3 h4 hu
    show (o.exec mk op).1.gen = 0 ∧ (o.exec mk op).1.solver = none ∧ (o.exec mk op).1.cat = false ∧ (o.exec mk op).1.lamX = none
    cases op with
    | bound s v b => cases s <;> cases v <;> exact ⟨h1, h2, h3, h4⟩
    | terminalBound s j b =>
      cases s
      · simp only [MpcObj.exec, MpcObj.writeTerminal]; cases o.termLb <;> exact ⟨h1, h2, h3, h4⟩
      · simp only [MpcObj.exec, MpcObj.writeTerminal]; cases o.termUb <;> exact ⟨h1, h2, h3, h4⟩
    | scaling v a =>
      simp only [MpcObj.exec, hu, Bool.false_eq_true, if_false]
      cases v <;> exact ⟨h1, h2, h3, h4⟩
    | settings s => exact ⟨h1, h2, h3, h4⟩
    | setParam s => simp only [MpcObj.exec, hu, Bool.false_eq_true, if_false]; exact ⟨h1, h2, h3, h4⟩
    | setObjective s => simp only [MpcObj.exec, hu, Bool.false_eq_true, if_false]; exact ⟨h1, h2, h3, h4⟩
    | setRterm s => simp only [MpcObj.exec, hu, Bool.false_eq_true, if_false]; exact ⟨h1, h2, h3, h4⟩
    | setNlCons s => simp only [MpcObj.exec, hu, Bool.false_eq_true, if_false]; exact ⟨h1, h2, h3, h4⟩
    | _ => exact hop.elim

/-- two histories with the same last calls: the objects differ at most in the constraints -/
theorem mpc_same (S : MpcSettings) (all : MpcItem d → Prop) (a b : List (MpcOp K d)) (ha : ∀ op ∈ a, Configures op) (hb : ∀ op ∈ b, Configures op)
    (hs : ∀ it, it ≠ .constraints → (callsFor mpcItem it a).getLast? = (callsFor mpcItem it b).getLast?) :
    (MpcObj.new S : MpcObj K d).run mk b = { (MpcObj.new S : MpcObj K d).run mk a with nl := b.filterMap nlConsOf } := by
  obtain ⟨a1, a2, a3, a4, a5, a6, a7, a8, ⟨atl, a9, a9'⟩, ⟨atu, a10, a10'⟩, a11, a12, a13⟩ := conf_run mk S a ha
  obtain ⟨b1, b2, b3, b4, b5, b6, b7, b8, ⟨btl, b9, b9'⟩, ⟨btu, b10, b10'⟩, b11, b12, b13⟩ := conf_run mk S b hb
  obtain ⟨a14, a15, a16, a17⟩ := mpc_untouched mk S a ha
  obtain ⟨b14, b15, b16, b17⟩ := mpc_untouched mk S b hb
  have L : ∀ {β : Type} (it : MpcItem d) (f : MpcOp K d → Option β) (v : β), it ≠ .constraints → (∀ op, (f op).isSome = true ↔ mpcItem op = some it) → lastOf f a v = lastOf f b v := by
    intro β it f v hit h
    rw [lastOf_callsFor mpcItem it f h, lastOf_callsFor mpcItem it f h, hs it hit]
  have hsc : ∀ v, lastOf (scalingOf v) a (1 : K) = lastOf (scalingOf v) b 1 := fun v => L (.scaling v) _ _ (by simp) (by
    intro op; cases op <;> simp [scalingOf, mpcItem])
  have hbd : ∀ s v, lastOf (boundOf s v) a (infOf s : Bound K) = lastOf (boundOf s v) b (infOf s) := fun s v => L (.bound s v) _ _ (by simp) (by
    intro op; cases op <;> simp [boundOf, mpcItem])
  have htl : ∀ s j (w : Bound K), lastOf (terminalOf s j) a w = lastOf (terminalOf s j) b w := fun s j w => L (.terminal s j) _ _ (by simp) (by
    intro op; cases op <;> simp [terminalOf, mpcItem])
  have hst : lastOf settingsOf a S = lastOf settingsOf b S := L .settings _ _ (by simp) (by intro op; cases op <;> simp [settingsOf, mpcItem])
  have hob : lastOf (fun op : MpcOp K d => (objectiveOf op).map some) a none = lastOf (fun op => (objectiveOf op).map some) b none := L .objective _ _ (by simp) (by
    intro op; cases op <;> simp [objectiveOf, mpcItem])
  have hrt : lastOf (rtermOf (K := K)) a (.factor 0) = lastOf rtermOf b (.factor 0) := L .rterm _ _ (by simp) (by intro op; cases op <;> simp [rtermOf, mpcItem])
  have gb : ∀ s v, ((MpcObj.new S : MpcObj K d).run mk b).getBound s v = ((MpcObj.new S : MpcObj K d).run mk a).getBound s v := fun s v => by rw [a8, b8, hbd]
  generalize (MpcObj.new S : MpcObj K d).run mk a = oa at *
  generalize (MpcObj.new S : MpcObj K d).run mk b = ob at *
  cases oa
  cases ob
  simp only at *
  rw [MpcObj.mk.injEq]
  refine ⟨by rw [b1, a1, hst], funext fun j => by rw [b5, a5, hsc], funext fun j => by rw [b6, a6, hsc], funext fun j => by rw [b7, a7, hsc],
    funext fun j => gb .lower (.x j), funext fun j => gb .upper (.x j), funext fun j => gb .lower (.u j), funext fun j => gb .upper (.u j),
    funext fun j => gb .lower (.z j), funext fun j => gb .upper (.z j), ?_, ?_, by rw [b2, a2, hob], by rw [b3, a3, hrt], b4, by rw [b13, a13], by rw [b14, a14],
    by rw [b12, a12], by rw [b15, a15], by rw [b11, a11], by rw [b16, a16], by rw [b17, a17]⟩
  · rw [b9, a9]; exact congrArg some (funext fun j => by rw [b9', a9', htl])
  · rw [b10, a10]; exact congrArg some (funext fun j => by rw [b10', a10', htl])

/-- **C117 (controller).**  Two configuration histories of a new controller, in which the last call for every item is the same and the calls of `set_nl_cons` are the same in the
same order, leave the same object: whatever is done with it afterwards. -/
theorem C117_order (S : MpcSettings) (a b : List (MpcOp K d)) (ha : ∀ op ∈ a, Configures op) (hb : ∀ op ∈ b, Configures op)
    (hs : SameLast mpcItem (fun it => it = .constraints) a b) : (MpcObj.new S : MpcObj K d).run mk a = (MpcObj.new S : MpcObj K d).run mk b := by
  rw [mpc_same mk S (fun _ => True) a b ha hb fun it _ => (hs it).1]
  have h1 : ((MpcObj.new S : MpcObj K d).run mk a).nl = b.filterMap nlConsOf := by
    rw [(conf_run mk S a ha).nl]
    have h : ∀ op : MpcOp K d, (nlConsOf op).isSome = true ↔ mpcItem op = some .constraints := by intro op; cases op <;> simp [nlConsOf, mpcItem]
    rw [filterMap_callsFor mpcItem .constraints _ h, filterMap_callsFor mpcItem .constraints nlConsOf h b, (hs .constraints).2 rfl]
  rw [← h1]

/-- **C117 (controller, permutations).**  If no item is set twice, any order of the calls leaves the same object. -/
theorem C117_permutation (S : MpcSettings) (a b : List (MpcOp K d)) (ha : ∀ op ∈ a, Configures op) (hp : a.Perm b)
    (hd : a.Pairwise fun x y => mpcItem x ≠ mpcItem y) : (MpcObj.new S : MpcObj K d).run mk a = (MpcObj.new S : MpcObj K d).run mk b :=
  C117_order mk S a b ha (fun op h => ha op (hp.mem_iff.2 h)) (sameLast_of_perm _ hp (hd.imp fun h it e e' => h (e.trans e'.symm)))

/-- **C117 (controller, overwritten calls).**  A call which is followed by another one for the same item (other than `set_nl_cons`) is as good as none. -/
theorem C117_overwritten (S : MpcSettings) (pre mid post : List (MpcOp K d)) (x y : MpcOp K d) (h : ∀ op ∈ pre ++ x :: (mid ++ y :: post), Configures op)
    (hxy : mpcItem x = mpcItem y) (hn : ∀ c, x ≠ .setNlCons c) :
    (MpcObj.new S : MpcObj K d).run mk (pre ++ x :: (mid ++ y :: post)) = (MpcObj.new S : MpcObj K d).run mk (pre ++ (mid ++ y :: post)) := by
  have hx := h x (by simp)
  have key : ∀ it, mpcItem x = some it → it ≠ .constraints → _ := fun it e hit =>
    C117_order mk S _ _ h (fun op ho => h op (by
      rcases List.mem_append.1 ho with ho | ho
      · exact List.mem_append_left _ ho
      · exact List.mem_append_right _ (List.mem_cons_of_mem _ ho)))
      (sameLast_of_overwritten _ pre mid post x y it e (hxy ▸ e) hit)
  cases x with
  | setNlCons c => exact absurd rfl (hn c)
  | setParam s => exact key _ rfl (by simp)
  | settings s => exact key _ rfl (by simp)
  | setObjective s => exact key _ rfl (by simp)
  | setRterm s => exact key _ rfl (by simp)
  | scaling v s => exact key _ rfl (by simp)
  | bound s v b => exact key _ rfl (by simp)
  | terminalBound s j b => exact key _ rfl (by simp)
  | _ => exact hx.elim

/-! ### The order of the constraints -/

theorem epsUb_perm {a b : List (NlCall K d)} (hp : a.Perm b) (hn : (a.map (·.name)).Nodup) (n : String) : epsUb a n = epsUb b n := by
  unfold epsUb slackVars
  refine (hp.filter _).foldl_eq' ?_ _
  intro x hx y hy z
  by_cases e : x = y
  · rw [e]
  · have hne : x.name ≠ y.name := fun he => e (List.inj_on_of_nodup_map hn (List.mem_filter.1 hx).1 (List.mem_filter.1 hy).1 he)
    by_cases h1 : x.name = n
    · have h2 : y.name ≠ n := fun h2 => hne (h1.trans h2.symm)
      simp [h1, h2]
    · simp [h1]

theorem nlConsValue_perm {a b : List (NlCall K d)} (hp : a.Perm b) (call : NlCall K d) (x u z tv p) (e : Eps K) (i : Nat) :
    nlConsValue a call x u z tv p e i = nlConsValue b call x u z tv p e i := by
  unfold nlConsValue slackVars
  refine (hp.filter _).foldl_eq' ?_ _
  intro s _ t _ v
  by_cases h1 : s.name = call.name <;> by_cases h2 : t.name = call.name <;> simp only [h1, h2, if_true, if_false]

theorem nlRows_perm {a b : List (NlCall K d)} (hp : a.Perm b) (x u z tv p) (e : Eps K) : (nlRows a x u z tv p e).Perm (nlRows b x u z tv p e) := by
  unfold nlRows
  have : (fun call : NlCall K d => (List.range call.dim).map fun i => (⟨.ninf, nlConsValue a call x u z tv p e i, call.ub⟩ : Row K)) =
      fun call => (List.range call.dim).map fun i => ⟨.ninf, nlConsValue b call x u z tv p e i, call.ub⟩ :=
    funext fun call => List.map_congr_left fun i _ => by rw [nlConsValue_perm hp]
  rw [this]
  exact hp.flatMap_right _

theorem rows_perm (c : MpcCfg K d) {b : List (NlCall K d)} (hp : c.nl.Perm b) (w q) : (c.rows w q).Perm (({ c with nl := b } : MpcCfg K d).rows w q) := by
  unfold MpcCfg.rows
  refine List.Perm.append (.refl _) ?_
  refine List.Perm.flatMap_left _ fun ksb _ => List.Perm.append (.refl _) ?_
  unfold MpcCfg.nlRowsAt
  by_cases h : c.nlColloc = true
  · rw [if_pos h]
    refine ((List.Perm.flatMap_left _ fun i _ => ?_ : List.Perm _ _)).trans (.of_eq (if_pos h).symm)
    exact nlRows_perm hp _ _ _ _ _ _
  · rw [if_neg h]
    exact (nlRows_perm hp _ _ _ _ _ _).trans (.of_eq (if_neg h).symm)

theorem obj_perm (c : MpcCfg K d) {b : List (NlCall K d)} (hp : c.nl.Perm b) (w q) : ({ c with nl := b } : MpcCfg K d).obj w q = c.obj w q := by
  unfold MpcCfg.obj
  refine congrArg List.sum (List.map_congr_left fun ksb _ => ?_)
  have : ({ c with nl := b } : MpcCfg K d).slackAt w ksb.1 ksb.2.1 = c.slackAt w ksb.1 ksb.2.1 := by
    unfold MpcCfg.slackAt epsTerm slackVars
    exact (((hp.symm.filter _).map _).sum_eq)
  rw [this]
  unfold MpcCfg.econAt MpcCfg.rtermAt
  rfl

variable [IsStrictOrderedRing K]

/-- **C117 (order of the constraints).**  Two configuration histories of a new controller, in which the last call for every item is the same and the calls of `set_nl_cons` are the
same in any order (different names): `setup()` succeeds for both or for none, and then both problems have the same feasible points, the same costs and the same minimisers (the
solver gets the constraints in another order). -/
theorem C117_constraints (S : MpcSettings) (a b : List (MpcOp K d)) (ha : ∀ op ∈ a, Configures op) (hb : ∀ op ∈ b, Configures op)
    (hs : ∀ it, it ≠ .constraints → (callsFor mpcItem it a).getLast? = (callsFor mpcItem it b).getLast?)
    (hp : (callsFor mpcItem .constraints a).Perm (callsFor mpcItem .constraints b)) (hn : ((a.filterMap nlConsOf).map (·.name)).Nodup) :
    let oa := ((MpcObj.new S : MpcObj K d).run mk a).exec mk .setup
    let ob := ((MpcObj.new S : MpcObj K d).run mk b).exec mk .setup
    (oa.2 = none ↔ ob.2 = none) ∧ (oa.2 = none → ∀ (w : OptX K d) (q : OptP K d),
      (Spec.SolverFeasible oa.1 w q ↔ Spec.SolverFeasible ob.1 w q) ∧ oa.1.solver.map (fun F => F.obj w q) = ob.1.solver.map (fun F => F.obj w q) ∧
      (SolverMinimises oa.1 w q ↔ SolverMinimises ob.1 w q)) := by
  intro oa ob
  have ca := conf_run mk S a ha
  have cb := conf_run mk S b hb
  have hab := mpc_same mk S (fun _ => True) a b ha hb hs
  have hcons : ∀ op : MpcOp K d, (nlConsOf op).isSome = true ↔ mpcItem op = some .constraints := by intro op; cases op <;> simp [nlConsOf, mpcItem]
  have hperm : ((MpcObj.new S : MpcObj K d).run mk a).nl.Perm (b.filterMap nlConsOf) := by
    rw [ca.nl, filterMap_callsFor mpcItem .constraints _ hcons, filterMap_callsFor mpcItem .constraints nlConsOf hcons b]
    exact hp.filterMap _
  have hnl : ((((MpcObj.new S : MpcObj K d).run mk a).nl).map (·.name)).Nodup := by rw [ca.nl]; exact hn
  have hiff : oa.2 = none ↔ ob.2 = none := by
    rw [C37_setup_succeeds_iff mk _ ca.unset.2.2, C37_setup_succeeds_iff mk _ cb.unset.2.2, hab]
    refine and_congr Iff.rfl (forall_congr' fun v => ?_)
    cases v <;> exact Iff.rfl
  refine ⟨hiff, fun h => ?_⟩
  obtain ⟨oba, h1, h2⟩ := setup_fresh mk _ ca.unset.2.2 h
  obtain ⟨obb, h3, h4⟩ := setup_fresh mk _ cb.unset.2.2 (hiff.1 h)
  have hobj : obb = oba := by rw [hab] at h3; exact Option.some.inj (h3.symm.trans h1)
  subst hobj
  have h2 : oa = _ := h2
  rw [hab] at h4
  have h4 : ob = _ := (congrArg (fun o => MpcObj.exec mk o .setup) hab).trans h4
  clear_value oa ob
  clear ca cb hab
  generalize hA : (MpcObj.new S : MpcObj K d).run mk a = A at *
  generalize hB : b.filterMap nlConsOf = nlb at *
  set c := A.validated.cfg mk obb with hc
  have hcb : ({ A with nl := nlb } : MpcObj K d).validated.cfg mk obb = { c with nl := nlb } := rfl
  have hperm' : c.nl.Perm nlb := hperm
  have hsol : oa.1.solver = some ⟨c.obj, c.rows⟩ := by rw [h2]
  have hprep : oa.1.prep = some ⟨c, c.obj, c.rows, c.lbx, c.ubx⟩ := by rw [h2]
  have hsolb : ob.1.solver = some ⟨({ c with nl := nlb } : MpcCfg K d).obj, ({ c with nl := nlb } : MpcCfg K d).rows⟩ := by
    rw [h4]; rfl
  have hprepb : ob.1.prep = some ⟨{ c with nl := nlb }, ({ c with nl := nlb } : MpcCfg K d).obj, ({ c with nl := nlb } : MpcCfg K d).rows,
      ({ c with nl := nlb } : MpcCfg K d).lbx, ({ c with nl := nlb } : MpcCfg K d).ubx⟩ := by
    rw [h4]; rfl
  have hub : ({ c with nl := nlb } : MpcCfg K d).ubx = c.ubx := by
    unfold MpcCfg.ubx
    have : (fun (n : String) (_ : Nat) => epsUb nlb n) = fun n _ => epsUb c.nl n := funext fun n => funext fun _ => (epsUb_perm hperm' hnl n).symm
    show MpcCfg.updateBounds { c with nl := nlb } c.xub c.xtub c.zub c.uub (fun n _ => epsUb nlb n) _ = _
    rw [this]
    rfl
  have hlb : ({ c with nl := nlb } : MpcCfg K d).lbx = c.lbx := rfl
  have feas : ∀ w q, Spec.SolverFeasible oa.1 w q ↔ Spec.SolverFeasible ob.1 w q := by
    intro w q
    unfold Spec.SolverFeasible
    rw [hsol, hprep, hsolb, hprepb, hub, hlb]
    have hr := rows_perm c hperm' w q
    constructor
    · rintro ⟨F, P, hF, hP, f1, f2, f3, f4, f5⟩
      cases hF; cases hP
      exact ⟨_, _, rfl, rfl, fun r hrm => f1 r (hr.mem_iff.2 hrm), f2, f3, f4, fun k hk s hs' sl hsl i hi =>
        f5 k hk s hs' sl ((hperm'.filter _).mem_iff.2 hsl) i hi⟩
    · rintro ⟨F, P, hF, hP, f1, f2, f3, f4, f5⟩
      cases hF; cases hP
      exact ⟨_, _, rfl, rfl, fun r hrm => f1 r (hr.mem_iff.1 hrm), f2, f3, f4, fun k hk s hs' sl hsl i hi =>
        f5 k hk s hs' sl ((hperm'.filter _).mem_iff.1 hsl) i hi⟩
  have cost : ∀ w q, ({ c with nl := nlb } : MpcCfg K d).obj w q = c.obj w q := fun w q => obj_perm c hperm' w q
  intro w q
  refine ⟨feas w q, ?_, ?_⟩
  · rw [hsol, hsolb]
    exact congrArg some (cost w q).symm
  · unfold SolverMinimises
    rw [hsol, hsolb]
    constructor
    · rintro ⟨m1, m2⟩
      refine ⟨(feas w q).1 m1, fun F hF w' hw' => ?_⟩
      cases hF
      show ({ c with nl := nlb } : MpcCfg K d).obj w q ≤ ({ c with nl := nlb } : MpcCfg K d).obj w' q
      rw [cost, cost]
      exact m2 _ rfl w' ((feas w' q).2 hw')
    · rintro ⟨m1, m2⟩
      refine ⟨(feas w q).2 m1, fun F hF w' hw' => ?_⟩
      cases hF
      have := m2 _ rfl w' ((feas w' q).1 hw')
      exact (cost w q).symm.le.trans (this.trans (cost w' q).le)

end Mpc

/-! ## The estimator -/

section Mhe
variable (T : MheTools K d ne ns)

/-- attributes that configuration calls do not touch -/
theorem mhe_untouched (S : MheSettings K) (ops : List (MheOp K d ne ns)) (h : ∀ op ∈ ops, MheConfigures op) :
    let o := (MheObj.new S : MheObj K d ne ns).run T ops
    o.gen = 0 ∧ o.solver = none ∧ o.cat = false ∧ o.yTmpl = fun _ => 0 := by
  induction ops using List.reverseRecOn with
  | nil => exact ⟨rfl, rfl, rfl, rfl⟩
  | append_singleton ops op ih =>
    obtain ⟨h1, h2, h3, h4⟩ := ih fun p hp => h p (by simp [hp])
    have hu := (mheConf_run T S ops fun p hp => h p (by simp [hp])).unset.1
    have hop := h op (by simp)
    rw [MheObj.run_append]
    generalize (MheObj.new S : MheObj K d ne ns).run T ops = o at h1 h2 h3 h4 hu
    show (o.exec T op).1.gen = 0 ∧ (o.exec T op).1.solver = none ∧ (o.exec T op).1.cat = false ∧ (o.exec T op).1.yTmpl = fun _ => 0
    cases op with
    | bound s v b => cases s <;> cases v <;> exact ⟨h1, h2, h3, h4⟩
    | scaling v a =>
      simp only [MheObj.exec, hu, Bool.false_eq_true, if_false]
      cases v <;> exact ⟨h1, h2, h3, h4⟩
    | settings s => exact ⟨h1, h2, h3, h4⟩
    | setTvpFun f v => cases v <;> exact ⟨h1, h2, h3, h4⟩
    | setPFun f v => cases v <;> exact ⟨h1, h2, h3, h4⟩
    | setYFun f v => cases v <;> exact ⟨h1, h2, h3, h4⟩
    | setParam s => simp only [MheObj.exec, hu, Bool.false_eq_true, if_false]; exact ⟨h1, h2, h3, h4⟩
    | setObjective s => simp only [MheObj.exec, hu, Bool.false_eq_true, if_false]; exact ⟨h1, h2, h3, h4⟩
    | setNlCons s => simp only [MheObj.exec, hu, Bool.false_eq_true, if_false]; exact ⟨h1, h2, h3, h4⟩
    | _ => exact hop.elim

/-- two histories with the same last calls: the objects differ at most in the constraints -/
theorem mhe_same (S : MheSettings K) (a b : List (MheOp K d ne ns)) (ha : ∀ op ∈ a, MheConfigures op) (hb : ∀ op ∈ b, MheConfigures op)
    (hs : ∀ it, it ≠ .constraints → (callsFor mheItem it a).getLast? = (callsFor mheItem it b).getLast?) :
    (MheObj.new S : MheObj K d ne ns).run T b = { (MheObj.new S : MheObj K d ne ns).run T a with nl := b.filterMap mheNlConsOf } := by
  obtain ⟨a1, a2, a3, a4, a5, a6, a7, a8, a9, a10, a11, a12, a13, a14, a15, a16⟩ := mheConf_run T S a ha
  obtain ⟨b1, b2, b3, b4, b5, b6, b7, b8, b9, b10, b11, b12, b13, b14, b15, b16⟩ := mheConf_run T S b hb
  obtain ⟨a17, a18, a19, a20⟩ := mhe_untouched T S a ha
  obtain ⟨b17, b18, b19, b20⟩ := mhe_untouched T S b hb
  have L : ∀ {β : Type} (it : MheItem d ne) (f : MheOp K d ne ns → Option β), it ≠ .constraints → (∀ op, (f op).isSome = true ↔ mheItem op = some it) → ∀ v : β, lastOf f a v = lastOf f b v := by
    intro β it f hit h v
    rw [lastOf_callsFor mheItem it f h, lastOf_callsFor mheItem it f h, hs it hit]
  have hsc : ∀ v, lastOf (mheScalingOf v) a (1 : K) = lastOf (mheScalingOf v) b 1 := fun v => L (.scaling v) _ (by simp) (by
    intro op; cases op <;> simp [mheScalingOf, mheItem]
    all_goals (rename_i v; cases v <;> simp)) _
  have hbd : ∀ s v, lastOf (mheBoundOf s v) a (infOf s : Bound K) = lastOf (mheBoundOf s v) b (infOf s) := fun s v => L (.bound s v) _ (by simp) (by
    intro op; cases op <;> simp [mheBoundOf, mheItem]
    all_goals (rename_i v; cases v <;> simp)) _
  have hst : lastOf mheSettingsOf a S = lastOf mheSettingsOf b S := L .settings _ (by simp) (by
    intro op; cases op <;> simp [mheSettingsOf, mheItem]
    all_goals (rename_i v; cases v <;> simp)) _
  have hob : lastOf (fun op : MheOp K d ne ns => (mheCostOf op).map some) a none = lastOf (fun op => (mheCostOf op).map some) b none := L .objective _ (by simp) (by
    intro op; cases op <;> simp [mheCostOf, mheItem]
    all_goals (rename_i v; cases v <;> simp)) _
  have htv : lastOf (fun op : MheOp K d ne ns => (mheTvpOf op).map some) a none = lastOf (fun op => (mheTvpOf op).map some) b none := L .tvpFun _ (by simp) (by
    intro op; cases op <;> simp [mheTvpOf, mheItem]
    all_goals (rename_i v; cases v <;> simp)) _
  have hpf : lastOf (fun op : MheOp K d ne ns => (mhePOf op).map some) a none = lastOf (fun op => (mhePOf op).map some) b none := L .pFun _ (by simp) (by
    intro op; cases op <;> simp [mhePOf, mheItem]
    all_goals (rename_i v; cases v <;> simp)) _
  have hyf : lastOf (fun op : MheOp K d ne ns => (mheYOf op).map fun f => some (MheYFun.user f)) a none = lastOf (fun op => (mheYOf op).map fun f => some (.user f)) b none :=
    L .yFun _ (by simp) (by
      intro op; cases op <;> simp [mheYOf, mheItem]
      all_goals (rename_i v; cases v <;> simp)) _
  have gb : ∀ s v, ((MheObj.new S : MheObj K d ne ns).run T b).getBound s v = ((MheObj.new S : MheObj K d ne ns).run T a).getBound s v := fun s v => by rw [a8, b8, hbd]
  generalize (MheObj.new S : MheObj K d ne ns).run T a = oa at *
  generalize (MheObj.new S : MheObj K d ne ns).run T b = ob at *
  cases oa
  cases ob
  simp only at *
  rw [MheObj.mk.injEq]
  exact ⟨by rw [b1, a1, hst], funext fun j => by rw [b4, a4, hsc], funext fun j => by rw [b5, a5, hsc], funext fun j => by rw [b6, a6, hsc], funext fun j => by rw [b7, a7, hsc],
    funext fun j => gb .lower (.x j), funext fun j => gb .upper (.x j), funext fun j => gb .lower (.u j), funext fun j => gb .upper (.u j),
    funext fun j => gb .lower (.z j), funext fun j => gb .upper (.z j), funext fun j => gb .lower (.p j), funext fun j => gb .upper (.p j),
    by rw [b2, a2, hob], by rw [b3], by rw [b14, a14], by rw [b17, a17], by rw [b9, a9, htv], by rw [b10, a10, hpf], by rw [b11, a11, hyf], by rw [b20, a20],
    by rw [b13, a13], by rw [b18, a18], by rw [b12, a12], by rw [b19, a19], by rw [b16, a16], by rw [b15, a15]⟩

theorem mheCons_item (op : MheOp K d ne ns) : (mheNlConsOf op).isSome = true ↔ mheItem op = some .constraints := by
  cases op <;> simp [mheNlConsOf, mheItem]
  all_goals (rename_i v; cases v <;> simp)

/-- **C117 (estimator).**  Two configuration histories of a new estimator, in which the last call for every item is the same and the calls of `set_nl_cons` are the same in the same
order, leave the same object. -/
theorem C117_estimator (S : MheSettings K) (a b : List (MheOp K d ne ns)) (ha : ∀ op ∈ a, MheConfigures op) (hb : ∀ op ∈ b, MheConfigures op)
    (hs : SameLast mheItem (fun it => it = .constraints) a b) : (MheObj.new S : MheObj K d ne ns).run T a = (MheObj.new S : MheObj K d ne ns).run T b := by
  rw [mhe_same T S a b ha hb fun it _ => (hs it).1]
  have h1 : ((MheObj.new S : MheObj K d ne ns).run T a).nl = b.filterMap mheNlConsOf := by
    rw [(mheConf_run T S a ha).nl, filterMap_callsFor mheItem .constraints _ mheCons_item, filterMap_callsFor mheItem .constraints mheNlConsOf mheCons_item b, (hs .constraints).2 rfl]
  rw [← h1]

/-- **C117 (estimator, permutations).**  If no item is set twice, any order of the calls leaves the same object (refused functions may occur anywhere). -/
theorem C117_permutation_estimator (S : MheSettings K) (a b : List (MheOp K d ne ns)) (ha : ∀ op ∈ a, MheConfigures op) (hp : a.Perm b)
    (hd : a.Pairwise fun x y => ∀ it, mheItem x = some it → mheItem y ≠ some it) : (MheObj.new S : MheObj K d ne ns).run T a = (MheObj.new S : MheObj K d ne ns).run T b :=
  C117_estimator T S a b ha (fun op h => ha op (hp.mem_iff.2 h)) (sameLast_of_perm _ hp hd)

/-- **C117 (estimator, overwritten calls).**  A call which is followed by another one for the same item (other than `set_nl_cons`) is as good as none. -/
theorem C117_overwritten_estimator (S : MheSettings K) (pre mid post : List (MheOp K d ne ns)) (x y : MheOp K d ne ns) (h : ∀ op ∈ pre ++ x :: (mid ++ y :: post), MheConfigures op)
    (it : MheItem d ne) (hx : mheItem x = some it) (hy : mheItem y = some it) (hit : it ≠ .constraints) :
    (MheObj.new S : MheObj K d ne ns).run T (pre ++ x :: (mid ++ y :: post)) = (MheObj.new S : MheObj K d ne ns).run T (pre ++ (mid ++ y :: post)) :=
  C117_estimator T S _ _ h (fun op ho => h op (by
    rcases List.mem_append.1 ho with ho | ho
    · exact List.mem_append_left _ ho
    · exact List.mem_append_right _ (List.mem_cons_of_mem _ ho))) (sameLast_of_overwritten _ pre mid post x y it hx hy hit)

/-! ### The order of the estimator's constraints -/

theorem mhe_obj_perm (c : MheCfg K d ne ns) {b : List (NlCall K d)} (hp : c.nl.Perm b) (w q) : ({ c with nl := b } : MheCfg K d ne ns).obj w q = c.obj w q := by
  unfold MheCfg.obj
  have : ∀ e : Eps K, epsTerm b e = epsTerm c.nl e := fun e => by
    unfold epsTerm slackVars
    exact ((hp.symm.filter _).map _).sum_eq
  simp only [this]
  rfl

theorem mhe_nlRowsAt_perm (c : MheCfg K d ne ns) {b : List (NlCall K d)} (hp : c.nl.Perm b) (w q k) :
    (∃ e, c.nlRowsAt w q k = .error e ∧ ({ c with nl := b } : MheCfg K d ne ns).nlRowsAt w q k = .error e) ∨
      ∃ r r', c.nlRowsAt w q k = .ok r ∧ ({ c with nl := b } : MheCfg K d ne ns).nlRowsAt w q k = .ok r' ∧ r.Perm r' := by
  have hat : ∀ i iz, (c.nlAt w q k i iz).Perm (({ c with nl := b } : MheCfg K d ne ns).nlAt w q k i iz) := fun i iz => nlRows_perm hp _ _ _ _ _ _
  unfold MheCfg.nlRowsAt
  by_cases h : c.nlColloc = true
  · by_cases h0 : c.ifcn.ncoll = 0
    · exact .inl ⟨_, by rw [if_pos h, if_pos h0], by rw [if_pos h, if_pos h0]⟩
    · refine .inr ⟨_, _, by rw [if_pos h, if_neg h0], by rw [if_pos h, if_neg h0], ?_⟩
      exact List.Perm.append (List.Perm.flatMap_left _ fun i _ => hat i i) (hat _ _)
  · exact .inr ⟨_, _, if_neg h, if_neg h, List.Perm.append (hat _ _) (hat _ _)⟩

/-- the loop of `MheCfg.rows` for two configurations whose rows agree up to the order, interval by interval -/
theorem mhe_rowsLoop_perm (R R' : Nat → Except String (List (Row K))) (D D' : Nat → List (Row K)) (hD : ∀ k, D' k = D k)
    (hR : ∀ k, (∃ e, R k = .error e ∧ R' k = .error e) ∨ ∃ r r', R k = .ok r ∧ R' k = .ok r' ∧ r.Perm r')
    (N : Nat) : ∀ rs, (List.range N).foldl (fun acc k => match acc with
        | .error e => .error e
        | .ok rs => match R k with
          | .error e => .error e
          | .ok nl => .ok (rs ++ (D k ++ nl))) (Except.ok (ε := String) []) = .ok rs →
      ∃ rs', (List.range N).foldl (fun acc k => match acc with
        | .error e => .error e
        | .ok rs => match R' k with
          | .error e => .error e
          | .ok nl => .ok (rs ++ (D' k ++ nl))) (Except.ok (ε := String) []) = .ok rs' ∧ rs.Perm rs' := by
  induction N with
  | zero =>
    intro rs h
    simp only [List.range_zero, List.foldl_nil, Except.ok.injEq] at h
    exact ⟨[], rfl, h ▸ .refl _⟩
  | succ n ih =>
    intro rs h
    rw [List.range_succ, List.foldl_append, List.foldl_cons, List.foldl_nil] at h ⊢
    generalize hF : (List.range n).foldl _ (Except.ok []) = F at h
    cases F with
    | error e => exact absurd h (by simp)
    | ok r0 =>
      obtain ⟨r0', hr0, hp0⟩ := ih r0 hF
      rw [hr0]
      rcases hR n with ⟨e, h1, -⟩ | ⟨r, r', h1, h2, hp1⟩
      · simp only [h1] at h
        exact absurd h (by simp)
      · simp only [h1, Except.ok.injEq] at h
        simp only [h2, hD]
        exact ⟨_, rfl, h ▸ List.Perm.append hp0 (List.Perm.append (.refl _) hp1)⟩

theorem mhe_rows_perm (c : MheCfg K d ne ns) {b : List (NlCall K d)} (hp : c.nl.Perm b) (w q) (rs) (h : c.rows w q = .ok rs) :
    ∃ rs', ({ c with nl := b } : MheCfg K d ne ns).rows w q = .ok rs' ∧ rs.Perm rs' :=
  mhe_rowsLoop_perm (fun k => c.nlRowsAt w q k) (fun k => ({ c with nl := b } : MheCfg K d ne ns).nlRowsAt w q k) (fun k => c.dynRows w q k ++ c.measRows w q k)
    (fun k => ({ c with nl := b } : MheCfg K d ne ns).dynRows w q k ++ ({ c with nl := b } : MheCfg K d ne ns).measRows w q k) (fun _ => rfl)
    (mhe_nlRowsAt_perm c hp w q) c.N rs h

theorem mhe_feasible_perm (c : MheCfg K d ne ns) {b : List (NlCall K d)} (hp : c.nl.Perm b) (hn : (c.nl.map (·.name)).Nodup) (w q) (h : c.Feasible w q) :
    ({ c with nl := b } : MheCfg K d ne ns).Feasible w q := by
  obtain ⟨rs, h1, h2, h3⟩ := h
  obtain ⟨rs', h4, h5⟩ := mhe_rows_perm c hp w q rs h1
  have hub : ({ c with nl := b } : MheCfg K d ne ns).ubx = c.ubx := by
    unfold MheCfg.ubx
    have : (fun (n : String) (_ : Nat) => epsUb b n) = fun n _ => epsUb c.nl n := funext fun n => funext fun _ => (epsUb_perm hp hn n).symm
    show MheCfg.updateBounds { c with nl := b } c.xub c.zub c.uub (fun n _ => epsUb b n) c.pub _ = _
    rw [this]
    rfl
  refine ⟨rs', h4, fun r hr => h2 r (h5.mem_iff.2 hr), ?_⟩
  unfold MheCfg.InBounds
  rw [hub]
  exact ⟨h3.1, h3.2.1, h3.2.2.1, fun k hk sl hsl i hi => h3.2.2.2.1 k hk sl ((hp.filter _).mem_iff.2 hsl) i hi, h3.2.2.2.2⟩

variable [IsStrictOrderedRing K]

/-- **C117 (order of the estimator's constraints).**  Two configuration histories of a new estimator, in which the last call for every item is the same and the calls of
`set_nl_cons` are the same in any order (different names): `setup()` succeeds for both or for none, and then both problems have the same feasible points, the same costs and the
same minimisers. -/
theorem C117_constraints_estimator (S : MheSettings K) (a b : List (MheOp K d ne ns)) (ha : ∀ op ∈ a, MheConfigures op) (hb : ∀ op ∈ b, MheConfigures op)
    (hs : ∀ it, it ≠ .constraints → (callsFor mheItem it a).getLast? = (callsFor mheItem it b).getLast?)
    (hp : (callsFor mheItem .constraints a).Perm (callsFor mheItem .constraints b)) (hn : ((a.filterMap mheNlConsOf).map (·.name)).Nodup) :
    let oa := ((MheObj.new S : MheObj K d ne ns).run T a).exec T .setup
    let ob := ((MheObj.new S : MheObj K d ne ns).run T b).exec T .setup
    (oa.2 = none ↔ ob.2 = none) ∧ (oa.2 = none → ∀ (w : MheX K d ne) (q : MheP K d ne ns),
      (MheSolverFeasible oa.1 w q ↔ MheSolverFeasible ob.1 w q) ∧ oa.1.solver.map (fun F => F.obj w q) = ob.1.solver.map (fun F => F.obj w q) ∧
      (MheSolverMinimises oa.1 w q ↔ MheSolverMinimises ob.1 w q)) := by
  intro oa ob
  have hab := mhe_same T S a b ha hb hs
  have hiff : oa.2 = none ↔ ob.2 = none := by
    rw [C86_setup_succeeds_iff T _ (mheConf_run T S a ha).unset.2.2.1, C86_setup_succeeds_iff T _ (mheConf_run T S b hb).unset.2.2.1, hab]
    refine and_congr Iff.rfl (and_congr Iff.rfl (and_congr Iff.rfl (and_congr (not_congr ?_) Iff.rfl)))
    unfold MheObj.crossed
    refine exists_congr fun v => and_congr Iff.rfl ?_
    cases v <;> exact Iff.rfl
  refine ⟨hiff, fun h => ?_⟩
  obtain ⟨ca, Aa⟩ := mheAfter_setup T S a ha h
  obtain ⟨cb, Ab⟩ := mheAfter_setup T S b hb (hiff.1 h)
  have hperm : (a.filterMap mheNlConsOf).Perm (b.filterMap (mheNlConsOf (K := K) (d := d) (ne := ne) (ns := ns))) := by
    rw [filterMap_callsFor mheItem .constraints _ mheCons_item, filterMap_callsFor mheItem .constraints mheNlConsOf mheCons_item b]
    exact hp.filterMap _
  have L : ∀ {β : Type} (it : MheItem d ne) (f : MheOp K d ne ns → Option β), it ≠ .constraints → (∀ op, (f op).isSome = true ↔ mheItem op = some it) → ∀ v : β, lastOf f b v = lastOf f a v := by
    intro β it f hit h v
    rw [lastOf_callsFor mheItem it f h, lastOf_callsFor mheItem it f h, hs it hit]
  have hcfg : mheWantedCfg T S b cb = { mheWantedCfg T S a ca with nl := b.filterMap mheNlConsOf } := by
    have hsc : ∀ v, lastOf (mheScalingOf v) b (1 : K) = lastOf (mheScalingOf v) a 1 := fun v => L (.scaling v) _ (by simp) (by
      intro op; cases op <;> simp [mheScalingOf, mheItem]
      all_goals (rename_i v; cases v <;> simp)) _
    have hbd : ∀ s v (w : Bound K), lastOf (mheBoundOf s v) b w = lastOf (mheBoundOf s v) a w := fun s v => L (.bound s v) _ (by simp) (by
      intro op; cases op <;> simp [mheBoundOf, mheItem]
      all_goals (rename_i v; cases v <;> simp))
    have hst : lastOf mheSettingsOf b S = lastOf mheSettingsOf a S := L .settings _ (by simp) (by
      intro op; cases op <;> simp [mheSettingsOf, mheItem]
      all_goals (rename_i v; cases v <;> simp)) _
    have hob : cb = ca := by
      have h1 := Ab.cost
      rw [L .objective (fun op : MheOp K d ne ns => (mheCostOf op).map some) (by simp) (by
        intro op; cases op <;> simp [mheCostOf, mheItem]
        all_goals (rename_i v; cases v <;> simp)), Aa.cost] at h1
      exact (Option.some.inj h1).symm
    unfold mheWantedCfg
    simp only [hsc, hbd, hst, hob]
  have hn' : ((mheWantedCfg T S a ca).nl.map (·.name)).Nodup := hn
  have hp' : (mheWantedCfg T S a ca).nl.Perm (b.filterMap mheNlConsOf) := hperm
  have feas : ∀ w q, MheSolverFeasible oa.1 w q ↔ MheSolverFeasible ob.1 w q := by
    intro w q
    rw [mheAfter_feasible T S a ca _ Aa w q, mheAfter_feasible T S b cb _ Ab w q, hcfg]
    refine ⟨mhe_feasible_perm _ hp' hn' w q, fun hf => ?_⟩
    exact mhe_feasible_perm { mheWantedCfg T S a ca with nl := b.filterMap mheNlConsOf } hp'.symm (((hp'.map _).nodup_iff).1 hn') w q hf
  have cost : ∀ w q, (mheWantedCfg T S b cb).obj w q = (mheWantedCfg T S a ca).obj w q := fun w q => by rw [hcfg]; exact mhe_obj_perm _ hp' w q
  intro w q
  have sa : oa.1.solver = _ := Aa.solver
  have sb : ob.1.solver = _ := Ab.solver
  refine ⟨feas w q, ?_, ?_⟩
  · rw [sa, sb]
    exact congrArg some (cost w q).symm
  · unfold MheSolverMinimises
    rw [sa, sb]
    refine and_congr (feas w q) ⟨fun m F hF w' hw' => ?_, fun m F hF w' hw' => ?_⟩
    · cases hF
      show (mheWantedCfg T S b cb).obj w q ≤ (mheWantedCfg T S b cb).obj w' q
      rw [cost, cost]
      exact m _ rfl w' ((feas w' q).2 hw')
    · cases hF
      have := m _ rfl w' ((feas w' q).1 hw')
      exact (cost w q).symm.le.trans (this.trans (cost w' q).le)

end Mhe

/-! ## The simulator -/

section Sim
variable [IsStrictOrderedRing K] (T : SimTools K d)

/-- the object that the calls ask for -/
theorem sim_asked (ops : List (SimOp K d)) (h : ∀ op ∈ ops, SimConfigures op) :
    (SimObj.new : SimObj K d).run T ops =
      { (SimObj.new : SimObj K d) with
        tStep := lastOf (fun op => (simStepOf op).map some) ops none
        tvpFun := lastOf (fun op => (simTvpOf op).map some) ops none
        pFun := lastOf (fun op => (simParamOf op).map some) ops none
        st := { (SimObj.new : SimObj K d).st with
          x0 := lastOf (fun | .x0 x => some x | _ => none) ops 0
          u0 := lastOf (fun | .u0 x => some x | _ => none) ops 0
          z0 := lastOf (fun | .z0 x => some x | _ => none) ops 0 } } := by
  induction ops using List.reverseRecOn with
  | nil => rfl
  | append_singleton ops op ih =>
    have hop := h op (by simp)
    rw [sim_run_snoc, ih fun p hp => h p (by simp [hp])]
    simp only [lastOf_snoc]
    cases op with
    | settings t => rfl
    | setParam t => rfl
    | setTvpFun f v => cases v <;> rfl
    | setPFun f v => cases v <;> rfl
    | x0 x => rfl
    | u0 x => rfl
    | z0 x => rfl
    | _ => exact hop.elim

/-- **C117 (simulator).**  Two configuration histories of a new simulator, in which the last call for every item is the same, leave the same object. -/
theorem C117_simulator (a b : List (SimOp K d)) (ha : ∀ op ∈ a, SimConfigures op) (hb : ∀ op ∈ b, SimConfigures op) (hs : SameLast simItem (fun _ => False) a b) :
    (SimObj.new : SimObj K d).run T a = (SimObj.new : SimObj K d).run T b := by
  rw [sim_asked T a ha, sim_asked T b hb,
    lastOf_same hs .tStep (fun op : SimOp K d => (simStepOf op).map some) (by
      intro op; cases op <;> simp [simStepOf, simItem]
      all_goals (rename_i v; cases v <;> simp)),
    lastOf_same hs .tvpFun (fun op : SimOp K d => (simTvpOf op).map some) (by
      intro op; cases op <;> simp [simTvpOf, simItem]
      all_goals (rename_i v; cases v <;> simp)),
    lastOf_same hs .pFun (fun op : SimOp K d => (simParamOf op).map some) (by
      intro op; cases op <;> simp [simParamOf, simItem]
      all_goals (rename_i v; cases v <;> simp)),
    lastOf_same hs .x0 (fun op : SimOp K d => match op with | .x0 x => some x | _ => none) (by
      intro op; cases op <;> simp [simItem]
      all_goals (rename_i v; cases v <;> simp)),
    lastOf_same hs .u0 (fun op : SimOp K d => match op with | .u0 x => some x | _ => none) (by
      intro op; cases op <;> simp [simItem]
      all_goals (rename_i v; cases v <;> simp)),
    lastOf_same hs .z0 (fun op : SimOp K d => match op with | .z0 x => some x | _ => none) (by
      intro op; cases op <;> simp [simItem]
      all_goals (rename_i v; cases v <;> simp))]

/-- **C117 (simulator, permutations).**  If no item is set twice, any order of the calls leaves the same object. -/
theorem C117_permutation_simulator (a b : List (SimOp K d)) (ha : ∀ op ∈ a, SimConfigures op) (hp : a.Perm b)
    (hd : a.Pairwise fun x y => ∀ it, simItem x = some it → simItem y ≠ some it) : (SimObj.new : SimObj K d).run T a = (SimObj.new : SimObj K d).run T b :=
  C117_simulator T a b ha (fun op h => ha op (hp.mem_iff.2 h)) (sameLast_of_perm _ hp hd)

/-- **C117 (simulator, overwritten calls).**  A call which is followed by another one for the same item is as good as none. -/
theorem C117_overwritten_simulator (pre mid post : List (SimOp K d)) (x y : SimOp K d) (h : ∀ op ∈ pre ++ x :: (mid ++ y :: post), SimConfigures op)
    (it : SimItem) (hx : simItem x = some it) (hy : simItem y = some it) :
    (SimObj.new : SimObj K d).run T (pre ++ x :: (mid ++ y :: post)) = (SimObj.new : SimObj K d).run T (pre ++ (mid ++ y :: post)) :=
  C117_simulator T _ _ h (fun op ho => h op (by
    rcases List.mem_append.1 ho with ho | ho
    · exact List.mem_append_left _ ho
    · exact List.mem_append_right _ (List.mem_cons_of_mem _ ho))) (sameLast_of_overwritten _ pre mid post x y it hx hy id)

end Sim

/-! ## Non-vacuity -/
namespace OrderEx
/-- one state, one input, one measurement -/
abbrev d1 : Dims := ⟨1, 1, 0, 0, 0, 0, 0, 1, 0⟩
def ob1 : Objective ℚ d1 := ⟨fun x _ _ _ _ => x ⟨0, by decide⟩ ^ 2, fun x _ _ => x ⟨0, by decide⟩ ^ 2⟩
def con (n : String) (b : ℚ) : NlCall ℚ d1 := { name := n, dim := 1, expr := fun x _ _ _ _ _ => x ⟨0, by decide⟩, ub := .fin b, soft := true, penalty := 1, maxViolation := .pinf }
def s1 : MpcSettings := { N := 3, nRobust := 0, c := 1, openLoop := false, singleSlack := false, nlColloc := false, consColloc := true, useTerminal := true }
def a : List (MpcOp ℚ d1) := [.setObjective ob1, .bound .lower (.x ⟨0, by decide⟩) (.fin 0), .bound .lower (.x ⟨0, by decide⟩) (.fin (-1)), .setNlCons (con "c" 1),
  .scaling (.u ⟨0, by decide⟩) 2, .setNlCons (con "e" 2), .bound .upper (.x ⟨0, by decide⟩) (.fin 5)]
def b : List (MpcOp ℚ d1) := [.setNlCons (con "e" 2), .bound .upper (.x ⟨0, by decide⟩) (.fin 5), .setNlCons (con "c" 1), .scaling (.u ⟨0, by decide⟩) 2,
  .bound .lower (.x ⟨0, by decide⟩) (.fin (-1)), .setObjective ob1]
example (mk : Vec ℚ d1.nx → Vec ℚ d1.nu → Vec ℚ d1.nz → Ifcn ℚ d1) :
    (∀ op ∈ a, Configures op) ∧ (∀ op ∈ b, Configures op) ∧ (∀ it, it ≠ .constraints → (callsFor mpcItem it a).getLast? = (callsFor mpcItem it b).getLast?) ∧
      (callsFor mpcItem .constraints a).Perm (callsFor mpcItem .constraints b) ∧ ((a.filterMap nlConsOf).map (·.name)).Nodup ∧
      (((MpcObj.new s1 : MpcObj ℚ d1).run mk a).exec mk .setup).2 = none := by
  have ha : ∀ op ∈ a, Configures op := by simp [a, Configures]
  refine ⟨ha, by simp [b, Configures], ?_, ?_, by decide, ?_⟩
  · intro it hit
    unfold callsFor a b
    cases it with
    | constraints => exact absurd rfl hit
    | bound s v =>
      cases s <;> rcases v with j | j | j <;> simp [List.filter_cons, mpcItem]
      all_goals (rw [show j = ⟨0, by decide⟩ from Subsingleton.elim (α := Fin 1) _ _]; simp)
    | scaling v => simp [List.filter_cons, mpcItem]
    | terminal s j => simp [List.filter_cons, mpcItem]
    | _ => simp [List.filter_cons, mpcItem]
  · unfold callsFor a b
    simp only [List.filter_cons, mpcItem]
    simp only [reduceCtorEq, Option.some.injEq, decide_true, decide_false, if_true, if_false, List.filter_nil, Bool.false_eq_true]
    exact List.Perm.swap _ _ _
  · rw [C37_setup_returns_iff mk s1 a ha]
    refine ⟨⟨ob1, by simp [a]⟩, fun v => ?_⟩
    rcases v with j | j | j
    · rw [show j = ⟨0, by decide⟩ from Subsingleton.elim (α := Fin 1) _ _]
      have h1 : lastOf (boundOf .lower (.x ⟨0, by decide⟩)) a .ninf = (.fin (-1) : Bound ℚ) := by decide +kernel
      have h2 : lastOf (boundOf .upper (.x ⟨0, by decide⟩)) a .pinf = (.fin 5 : Bound ℚ) := by decide +kernel
      rw [h1, h2]
      show (-1 : ℚ) ≤ 5
      decide +kernel
    · rw [show j = ⟨0, by decide⟩ from Subsingleton.elim (α := Fin 1) _ _]
      have h1 : lastOf (boundOf .lower (.u ⟨0, by decide⟩)) a .ninf = (.ninf : Bound ℚ) := by decide +kernel
      rw [h1]
      trivial
    · exact j.elim0

/-- the estimator: two constraints in another order, a bound overwritten, a refused function -/
def co1 : MheCost ℚ d1 0 0 := ⟨fun _ _ _ _ => 0, fun x xp _ _ _ => (x ⟨0, by decide⟩ - xp ⟨0, by decide⟩) ^ 2⟩
def sm1 : MheSettings ℚ := { N := 3, tStep := 1, measFromData := true, singleSlack := false, nlColloc := false, consColloc := true }
def am : List (MheOp ℚ d1 0 0) := [.setObjective co1, .bound .lower (.x ⟨0, by decide⟩) (.fin 0), .setTvpFun (fun _ _ => 0) false,
  .bound .lower (.x ⟨0, by decide⟩) (.fin (-1)), .setNlCons (con "c" 1), .setNlCons (con "e" 2)]
def bm : List (MheOp ℚ d1 0 0) := [.setNlCons (con "e" 2), .setNlCons (con "c" 1), .bound .lower (.x ⟨0, by decide⟩) (.fin (-1)), .setObjective co1]
example (T : MheTools ℚ d1 0 0) : (∀ op ∈ am, MheConfigures op) ∧ (∀ op ∈ bm, MheConfigures op) ∧
    (∀ it, it ≠ .constraints → (callsFor mheItem it am).getLast? = (callsFor mheItem it bm).getLast?) ∧
      (callsFor mheItem .constraints am).Perm (callsFor mheItem .constraints bm) ∧ ((am.filterMap mheNlConsOf).map (·.name)).Nodup ∧
      (((MheObj.new sm1 : MheObj ℚ d1 0 0).run T am).exec T .setup).2 = none := by
  have ha : ∀ op ∈ am, MheConfigures op := by simp [am, MheConfigures]
  refine ⟨ha, by simp [bm, MheConfigures], ?_, ?_, by decide, ?_⟩
  · intro it hit
    unfold callsFor am bm
    cases it with
    | constraints => exact absurd rfl hit
    | bound s v =>
      cases s <;> rcases v with j | j | j | j <;> simp [List.filter_cons, mheItem]
      all_goals (rw [show j = ⟨0, by decide⟩ from Subsingleton.elim (α := Fin 1) _ _]; simp)
    | scaling v => simp [List.filter_cons, mheItem]
    | _ => simp [List.filter_cons, mheItem]
  · unfold callsFor am bm
    simp only [List.filter_cons, mheItem]
    simp only [reduceCtorEq, Option.some.injEq, decide_true, decide_false, if_true, if_false, List.filter_nil, Bool.false_eq_true]
    exact List.Perm.swap _ _ _
  · rw [C86_setup_returns_iff T sm1 am ha]
    refine ⟨⟨co1, by simp [am]⟩, fun h => absurd h (by decide), fun h => absurd h (by decide), fun v hv => ?_, .inr (by decide +kernel), fun h => ?_⟩
    · rcases v with j | j | j | j
      · rw [show j = ⟨0, by decide⟩ from Subsingleton.elim (α := Fin 1) _ _]
        have h1 : lastOf (mheBoundOf .lower (.x ⟨0, by decide⟩)) am .ninf = (.fin (-1) : Bound ℚ) := by decide +kernel
        have h2 : lastOf (mheBoundOf .upper (.x ⟨0, by decide⟩)) am .pinf = (.pinf : Bound ℚ) := by decide +kernel
        rw [h1, h2]
        trivial
      · rw [show j = ⟨0, by decide⟩ from Subsingleton.elim (α := Fin 1) _ _]
        have h1 : lastOf (mheBoundOf .lower (.u ⟨0, by decide⟩)) am .ninf = (.ninf : Bound ℚ) := by decide +kernel
        rw [h1]
        trivial
      · exact j.elim0
      · exact j.elim0
    · have h1 : (lastOf mheSettingsOf am sm1).nlColloc = false := by decide +kernel
      rw [h1] at h
      exact absurd h (by decide)

/-- the simulator: two items exchanged, one overwritten -/
example (T : SimTools ℚ d1) :
    (SimObj.new : SimObj ℚ d1).run T [.settings 1, .x0 (fun _ => 1), .x0 (fun _ => 2), .setPFun (fun _ => 0) true] =
      (SimObj.new : SimObj ℚ d1).run T [.setPFun (fun _ => 0) true, .x0 (fun _ => 2), .setParam 1, .settings 1] := by
  refine C117_simulator T _ _ (by simp [SimConfigures]) (by simp [SimConfigures]) fun it => ⟨?_, fun h => h.elim⟩
  unfold callsFor
  cases it <;> simp [List.filter_cons, simItem]
end OrderEx
end DoMpc
