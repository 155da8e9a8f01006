import Verif.Spec.Graphics
import Verif.Props.Structure
import Verif.Props.Results

/-!
# C65 — plots show the recorded data
-/
set_option linter.unusedSectionVars false
set_option linter.unusedSimpArgs false
namespace DoMpc.Gfx
open Struct Spec

variable {K : Type}

/-! ## lines and the entries of the structures -/

/-- a line as it should be stored: power index, axis, dashed, steps -/
structure Tag where
  path : Path
  axis : Nat
  dashed : Bool
  steps : Bool

/-- the entries for the lines `tags` with numbers from `n` -/
def E (d : Bool) : List Tag → Nat → List (Path × Val Nat)
  | [], _ => []
  | t :: ts, n => if t.dashed = d then (t.path, .leaf n) :: E d ts (n + 1) else E d ts (n + 1)

theorem E_append (d : Bool) (a b : List Tag) (n : Nat) : E d (a ++ b) n = E d a n ++ E d b (n + a.length) := by
  induction a generalizing n with
  | nil => simp [E]
  | cons t ts ih =>
    simp only [List.cons_append, E, ih, List.length_cons]
    have : n + 1 + ts.length = n + (ts.length + 1) := by omega
    split <;> simp [this]

theorem E_other (d : Bool) (ts : List Tag) (n : Nat) (h : ∀ t ∈ ts, t.dashed ≠ d) : E d ts n = [] := by
  induction ts generalizing n with
  | nil => rfl
  | cons t ts ih =>
    rw [E, if_neg (h t List.mem_cons_self), ih _ (fun t' ht => h t' (List.mem_cons_of_mem _ ht))]

theorem E_mem (d : Bool) (ts : List Tag) (n : Nat) (e : Path × Val Nat) (h : e ∈ E d ts n) : ∃ t ∈ ts, t.path = e.1 ∧ t.dashed = d := by
  induction ts generalizing n with
  | nil => simp [E] at h
  | cons t ts ih =>
    rw [E] at h
    split at h
    · rcases List.mem_cons.1 h with rfl | h
      · exact ⟨t, List.mem_cons_self, rfl, ‹_›⟩
      · obtain ⟨t', h1, h2⟩ := ih _ h
        exact ⟨t', List.mem_cons_of_mem _ h1, h2⟩
    · obtain ⟨t', h1, h2⟩ := ih _ h
      exact ⟨t', List.mem_cons_of_mem _ h1, h2⟩

/-- lines added by one `axis.plot` -/
def block (p : Path) (axis : Nat) (dashed steps : Bool) (i n : Nat) : List Tag := (List.range' i n).map fun (j : Nat) => ⟨p ++ [.int j], axis, dashed, steps⟩

theorem block_entries (p : Path) (axis : Nat) (dashed steps : Bool) (i n m : Nat) :
    E dashed (block p axis dashed steps i n) m = asEntries (leavesList ((List.range' m n).map .leaf) i p) := by
  induction n generalizing i m with
  | zero => rfl
  | succ n ih =>
    unfold block at ih ⊢
    simp only [List.range'_succ, List.map_cons, E, if_true, leavesList, leaves, asEntries, List.map_append, List.map_nil, List.cons_append,
      List.nil_append, List.cons.injEq, true_and]
    exact ih (i + 1) (m + 1)

theorem wf_leaves (l : List Nat) : Val.WFList (l.map (Val.leaf (V := Nat))) := by
  induction l with
  | nil => simp [Val.WFList]
  | cons a l ih => simp [Val.WFList, Val.WF, ih]

theorem setItem_block (s : St Nat) (hs : StInv s) (p : Path) (axis : Nat) (dashed steps : Bool) (m n : Nat) (hp : ∀ q ∈ s.powerindex, ¬ p <+: q) :
    (St.setItem (.list ((List.range' m n).map .leaf)) p s).entries = s.entries ++ E dashed (block p axis dashed steps 0 n) m := by
  rw [set_new _ p s hs (by rw [Val.WF]; exact wf_leaves _) hp, leaves, block_entries]

theorem range_map_add (m n : Nat) : (List.range n).map (m + ·) = List.range' m n := by
  rw [List.range_eq_range', List.map_add_range']
  simp

theorem modify_at {α : Type} (f : α → α) (pre : List α) (a : α) (l : List α) : (pre ++ a :: l).modify pre.length f = pre ++ f a :: l := by
  induction pre with
  | nil => rfl
  | cons b pre ih => simpa using ih

/-- replacing the points of the lines of a structure -/
theorem setLines_E (f : Path → List (K × K)) (d : Bool) (ts : List Tag) (pre ls : List (Line K)) (hl : ls.length = ts.length) :
    setLines f (E d ts pre.length) (pre ++ ls) = pre ++ List.zipWith (fun t l => if t.dashed = d then { l with pts := f t.path } else l) ts ls := by
  induction ts generalizing pre ls with
  | nil =>
    have : ls = [] := List.eq_nil_of_length_eq_zero hl
    subst this
    simp [E, setLines]
  | cons t ts ih =>
    obtain ⟨l, ls, rfl⟩ : ∃ l ls', ls = l :: ls' := by
      cases ls with
      | nil => simp at hl
      | cons a b => exact ⟨a, b, rfl⟩
    have hl' : ls.length = ts.length := by simpa using hl
    rw [E]
    split
    · rename_i h
      rw [setLines]
      have hmod : (pre ++ l :: ls).modify pre.length (fun l => { l with pts := f t.path }) = (pre ++ [{ l with pts := f t.path }]) ++ ls := by
        rw [modify_at]
        simp
      rw [hmod]
      have := ih (pre ++ [{ l with pts := f t.path }]) ls hl'
      rw [List.length_append, List.length_singleton] at this
      rw [this]
      simp [h]
    · rename_i h
      have := ih (pre ++ [l]) ls hl'
      rw [List.length_append, List.length_singleton] at this
      rw [List.append_assoc] at this
      simp only [List.singleton_append] at this
      rw [this]
      simp [h]

/-! ## the invariant -/

structure Inv (g : G K) (ts : List Tag) : Prop where
  lines : g.lines.map (fun l => (l.axis, l.dashed, l.steps)) = ts.map fun t => (t.axis, t.dashed, t.steps)
  res : StInv g.result
  pre : StInv g.pred
  resE : g.result.entries = E false ts 0
  preE : g.pred.entries = E true ts 0

theorem Inv.length {g : G K} {ts : List Tag} (h : Inv g ts) : g.lines.length = ts.length := by
  have := congrArg List.length h.lines
  simpa using this

theorem Inv.resMem {g : G K} {ts : List Tag} (h : Inv g ts) (q : Path) (hq : q ∈ g.result.powerindex) : ∃ t ∈ ts, t.path = q ∧ t.dashed = false := by
  obtain ⟨v, hv⟩ := (mem_entries_fst g.result h.res q).1 hq
  rw [h.resE] at hv
  exact E_mem _ _ _ _ hv

theorem Inv.preMem {g : G K} {ts : List Tag} (h : Inv g ts) (q : Path) (hq : q ∈ g.pred.powerindex) : ∃ t ∈ ts, t.path = q ∧ t.dashed = true := by
  obtain ⟨v, hv⟩ := (mem_entries_fst g.pred h.pre q).1 hq
  rw [h.preE] at hv
  exact E_mem _ _ _ _ hv

/-- the lines that belong to a variable -/
def resTags (a : Added) : List Tag := block [.str a.ty, .str a.name] a.axis false (decide (a.ty = "_u")) 0 a.w
def predTags (S : Source K) (a : Added) (is : List Nat) : List Tag :=
  is.flatMap fun (i : Nat) => block [.str a.ty, .str a.name, .int (i : Int)] a.axis true (decide (a.ty = "_u")) 0 (S.scen a.ty)
def tagsOf (S : Source K) (a : Added) : List Tag :=
  resTags a ++ if S.mpc = true ∧ a.ty ≠ "_p" then predTags S a (List.range (predElems a.ty a.w)) else []

/-- the paths of the lines of a variable begin with its type and name -/
theorem tagsOf_path (S : Source K) (a : Added) (t : Tag) (ht : t ∈ tagsOf S a) : [.str a.ty, .str a.name] <+: t.path := by
  unfold tagsOf at ht
  rcases List.mem_append.1 ht with h | h
  · unfold resTags block at h
    obtain ⟨j, _, rfl⟩ := List.mem_map.1 h
    exact List.prefix_append _ _
  · split at h
    · unfold predTags at h
      obtain ⟨i, _, h⟩ := List.mem_flatMap.1 h
      unfold block at h
      obtain ⟨j, _, rfl⟩ := List.mem_map.1 h
      exact ⟨[.int i, .int j], rfl⟩
    · simp at h

theorem two_names {a b c d : String} {q : Path} (h1 : [Key.str a, .str b] <+: q) (h2 : [Key.str c, .str d] <+: q) : a = c ∧ b = d := by
  obtain ⟨r1, rfl⟩ := h1
  obtain ⟨r2, h⟩ := h2
  simp only [List.cons_append, List.nil_append, List.cons.injEq, Key.str.injEq] at h
  exact ⟨h.1.symm, h.2.1.symm⟩

theorem block_length (p : Path) (axis : Nat) (dashed steps : Bool) (i n : Nat) : (block p axis dashed steps i n).length = n := by simp [block]

theorem block_dashed (p : Path) (axis : Nat) (dashed steps : Bool) (i n : Nat) : ∀ t ∈ block p axis dashed steps i n, t.dashed = dashed := by
  intro t ht
  unfold block at ht
  obtain ⟨j, _, rfl⟩ := List.mem_map.1 ht
  rfl

theorem block_map (p : Path) (axis : Nat) (dashed steps : Bool) (i n : Nat) :
    (block p axis dashed steps i n).map (fun t => (t.axis, t.dashed, t.steps)) = List.replicate n (axis, dashed, steps) := by
  unfold block
  rw [List.map_map, List.eq_replicate_iff]
  refine ⟨by simp, fun b hb => ?_⟩
  obtain ⟨j, _, rfl⟩ := List.mem_map.1 hb
  rfl

theorem plot_lines (g : G K) (axis : Nat) (dashed steps : Bool) (cols : List (List (K × K))) :
    (g.plot axis dashed steps cols).1.lines.map (fun l => (l.axis, l.dashed, l.steps)) =
      g.lines.map (fun l => (l.axis, l.dashed, l.steps)) ++ List.replicate cols.length (axis, dashed, steps) := by
  unfold G.plot
  simp only [List.map_append, List.map_map, List.append_cancel_left_eq]
  rw [List.eq_replicate_iff]
  refine ⟨by simp, fun b hb => ?_⟩
  obtain ⟨j, _, rfl⟩ := List.mem_map.1 hb
  rfl

theorem plot_ids (g : G K) (axis : Nat) (dashed steps : Bool) (cols : List (List (K × K))) :
    (g.plot axis dashed steps cols).2 = List.range' g.lines.length cols.length := range_map_add _ _

section
variable [Add K] [Mul K] [Zero K] [NatCast K]

theorem addPreds_inv (S : Source K) (D : Snapshot K) (a : Added) (is : List Nat) (hnd : is.Nodup) (g : G K) (ts : List Tag) (h : Inv g ts)
    (hnew : ∀ t ∈ ts, t.dashed = true → ∀ i ∈ is, ¬ [Key.str a.ty, .str a.name, .int (i : Nat)] <+: t.path) :
    Inv (addPreds S D a.ty a.name a.axis (decide (a.ty = "_u")) is g) (ts ++ predTags S a is) := by
  induction is generalizing g ts with
  | nil => simpa [addPreds, predTags] using h
  | cons i is ih =>
    rw [List.nodup_cons] at hnd
    simp only [addPreds]
    have hb : predTags S a (i :: is) = block [.str a.ty, .str a.name, .int i] a.axis true (decide (a.ty = "_u")) 0 (S.scen a.ty) ++ predTags S a is := by
      simp [predTags]
    rw [hb, ← List.append_assoc]
    refine ih hnd.2 _ _ ?_ ?_
    · have hlen := h.length
      have hids := plot_ids g a.axis true (decide (a.ty = "_u")) ((List.range (S.scen a.ty)).map fun k => (D.pred0 a.ty a.name i k).map fun y => ((0 : K), y))
      rw [List.length_map, List.length_range] at hids
      refine ⟨?_, h.res, inv_setItem _ _ _ h.pre, ?_, ?_⟩
      · show List.map _ (g.plot _ _ _ _).1.lines = _
        rw [plot_lines, h.lines, List.map_append, block_map, List.length_map, List.length_range]
      · show g.result.entries = _
        rw [E_append, E_other false (block _ _ _ _ _ _) _ (fun t ht => by rw [block_dashed _ _ _ _ _ _ t ht]; simp), List.append_nil]
        exact h.resE
      · show (St.setItem _ _ g.pred).entries = _
        rw [hids, setItem_block g.pred h.pre _ a.axis true (decide (a.ty = "_u")) _ _ ?_, E_append, h.preE, hlen, Nat.zero_add]
        intro q hq hc
        obtain ⟨t, ht, rfl, hd⟩ := h.preMem q hq
        exact hnew t ht hd i List.mem_cons_self hc
    · intro t ht hd j hj
      rcases List.mem_append.1 ht with ht | ht
      · exact hnew t ht hd j (List.mem_cons_of_mem _ hj)
      · unfold block at ht
        obtain ⟨k, _, rfl⟩ := List.mem_map.1 ht
        rintro ⟨r, hr⟩
        simp only [List.cons_append, List.nil_append, List.cons.injEq, true_and, Key.int.injEq] at hr
        exact hnd.1 ((Int.ofNat_inj.1 hr.1) ▸ hj)

theorem addLine_inv (S : Source K) (D : Snapshot K) (g : G K) (ts : List Tag) (h : Inv g ts) (ty name : String) (axis w : Nat)
    (hty : ty ∈ ["_x", "_u", "_z", "_tvp", "_p", "_aux"]) (hw : S.width ty name = some w)
    (hnew : ∀ t ∈ ts, ¬ [Key.str ty, .str name] <+: t.path) : Inv (g.addLine S D ty name axis).1 (ts ++ tagsOf S ⟨ty, name, axis, w⟩) := by
  unfold G.addLine
  rw [if_neg (not_not.2 hty), hw]
  dsimp only
  have hids := plot_ids g axis false (decide (ty = "_u")) ((List.range w).map fun i => D.time.zip (D.vals ty name i))
  rw [List.length_map, List.length_range] at hids
  have h1 : Inv { (g.plot axis false (decide (ty = "_u")) ((List.range w).map fun i => D.time.zip (D.vals ty name i))).1 with
      result := St.setItem (.list ((g.plot axis false (decide (ty = "_u")) ((List.range w).map fun i => D.time.zip (D.vals ty name i))).2.map .leaf)) [.str ty, .str name]
        (g.plot axis false (decide (ty = "_u")) ((List.range w).map fun i => D.time.zip (D.vals ty name i))).1.result } (ts ++ resTags ⟨ty, name, axis, w⟩) := by
    refine ⟨?_, inv_setItem _ _ _ h.res, h.pre, ?_, ?_⟩
    · show List.map _ (g.plot _ _ _ _).1.lines = _
      rw [plot_lines, h.lines, List.map_append, resTags, block_map, List.length_map, List.length_range]
    · show (St.setItem _ _ g.result).entries = _
      rw [hids, setItem_block g.result h.res _ axis false (decide (ty = "_u")) _ _ ?_, E_append, h.resE, h.length, Nat.zero_add]
      · rfl
      · intro q hq hc
        obtain ⟨t, ht, rfl, _⟩ := h.resMem q hq
        exact hnew t ht hc
    · show g.pred.entries = _
      rw [E_append, E_other true (resTags _) _ (fun t ht => by rw [block_dashed _ _ _ _ _ _ t ht]; simp), List.append_nil]
      exact h.preE
  unfold tagsOf
  by_cases hm : S.mpc = true
  · by_cases hp : ty = "_p"
    · rw [if_pos (by simp [hm, hp]), if_neg (by simp [hp])]
      rw [List.append_nil]; exact h1
    · rw [if_neg (by simp [hp]), if_pos hm, if_pos (⟨hm, hp⟩ : S.mpc = true ∧ ty ≠ "_p"), ← List.append_assoc]
      have h2 := addPreds_inv S D ⟨ty, name, axis, w⟩ (List.range (predElems ty w)) List.nodup_range _ _ h1 (by
        intro t ht hd i _ hc
        rcases List.mem_append.1 ht with ht | ht
        · exact hnew t ht ((List.prefix_append [Key.str ty, .str name] [.int (i : Nat)]).trans hc)
        · rw [block_dashed _ _ _ _ _ _ t ht] at hd; simp at hd)
      exact ⟨h2.lines, h2.res, h2.pre, h2.resE, h2.preE⟩
  · rw [if_neg (by simp [hm]), if_neg hm, if_neg (fun h => hm h.1), List.append_nil]
    exact ⟨h1.lines, h1.res, h1.pre, h1.resE, h1.preE⟩

theorem setLines_map (f : Path → List (K × K)) (d : Bool) (g : G K) (ts : List Tag) (hl : g.lines.length = ts.length) :
    (setLines f (E d ts 0) g.lines).map (fun l => (l.axis, l.dashed, l.steps)) = g.lines.map fun l => (l.axis, l.dashed, l.steps) := by
  have := setLines_E f d ts [] g.lines hl
  rw [List.length_nil, List.nil_append, List.nil_append] at this
  rw [this, List.map_zipWith]
  clear this
  revert hl
  generalize g.lines = ls
  intro hl
  induction ts generalizing ls with
  | nil => rw [List.eq_nil_of_length_eq_zero hl]; rfl
  | cons t ts ih =>
    cases ls with
    | nil => simp at hl
    | cons l ls =>
      rw [List.zipWith_cons_cons, List.map_cons]
      congr 1
      · split <;> rfl
      · exact ih ls (by simpa using hl)

/-- the lines after `set_data` on the lines of a structure -/
theorem setLines_drawn (f : Path → List (K × K)) (d : Bool) (ls : List (Line K)) (ts : List Tag)
    (h : ls.map (fun l => (l.axis, l.dashed, l.steps)) = ts.map fun t => (t.axis, t.dashed, t.steps)) :
    ((setLines f (E d ts 0) ls).filter fun l => l.dashed = d).map (fun l => (l.axis, l.steps, l.pts)) =
      (ts.filter fun t => t.dashed = d).map fun t => (t.axis, t.steps, f t.path) := by
  have hl : ls.length = ts.length := by simpa using congrArg List.length h
  have := setLines_E f d ts [] ls hl
  rw [List.length_nil, List.nil_append, List.nil_append] at this
  rw [this]
  clear this
  induction ts generalizing ls with
  | nil => simp
  | cons t ts ih =>
    cases ls with
    | nil => simp at hl
    | cons l ls =>
      simp only [List.map_cons, List.cons.injEq, Prod.mk.injEq] at h
      have ih' := ih ls h.2 (by simpa using hl)
      rw [List.zipWith_cons_cons]
      by_cases hd : t.dashed = d
      · simp only [hd, if_true]
        rw [List.filter_cons_of_pos (by simp [h.1.2.1, hd]), List.filter_cons_of_pos (by simp [hd]), List.map_cons, List.map_cons, ih']
        simp [h.1.1, h.1.2.2]
      · simp only [hd, if_false]
        rw [List.filter_cons_of_neg (by simp [h.1.2.1, hd]), List.filter_cons_of_neg (by simp [hd])]
        exact ih'

theorem step_inv_setLines (g : G K) (ts : List Tag) (h : Inv g ts) (f : Path → List (K × K)) (d : Bool) :
    Inv { g with lines := setLines f (E d ts 0) g.lines } ts :=
  ⟨(setLines_map f d g ts h.length).trans h.lines, h.res, h.pre, h.resE, h.preE⟩

/-- after any calls in which no variable is added twice, the stored lines are those of the added variables -/
theorem run_inv (S : Source K) (ops : List (Op K)) (hnd : ((adds S ops).map fun a => (a.ty, a.name)).Nodup) :
    Inv (G.new.run S ops) ((adds S ops).flatMap (tagsOf S)) := by
  induction ops using List.reverseRecOn with
  | nil =>
    refine ⟨rfl, inv_empty, inv_empty, rfl, rfl⟩
  | append_singleton ops op ih =>
    have hadds : adds S (ops ++ [op]) = adds S ops ++ adds S [op] := by simp [adds, List.filterMap_append]
    rw [hadds] at hnd ⊢
    rw [List.map_append, List.nodup_append] at hnd
    have h := ih hnd.1
    have hrun : G.new.run S (ops ++ [op]) = ((G.new.run S ops).step S op).1 := by simp [G.run, List.foldl_append]
    rw [hrun, List.flatMap_append]
    cases op with
    | addLine ty name axis D =>
      by_cases hty : ty ∈ ["_x", "_u", "_z", "_tvp", "_p", "_aux"]
      · cases hw : S.width ty name with
        | none =>
          have : adds S [.addLine ty name axis D] = [] := by simp only [adds, List.filterMap_cons, if_pos hty, hw]; rfl
          rw [this, List.flatMap_nil, List.append_nil]
          simp only [G.step, G.addLine, if_neg (not_not.2 hty), hw]
          exact h
        | some w =>
          have ha : adds S [.addLine ty name axis D] = [⟨ty, name, axis, w⟩] := by simp only [adds, List.filterMap_cons, if_pos hty, hw]; rfl
          rw [ha] at hnd ⊢
          rw [List.flatMap_cons, List.flatMap_nil, List.append_nil]
          refine addLine_inv S D _ _ h ty name axis w hty hw (fun t ht hc => ?_)
          obtain ⟨a, ha', hat⟩ := List.mem_flatMap.1 ht
          obtain ⟨h1, h2⟩ := two_names (tagsOf_path S a t hat) hc
          exact hnd.2.2 (a.ty, a.name) (List.mem_map_of_mem ha') (ty, name) (by simp) (by rw [h1, h2])
      · have : adds S [.addLine ty name axis D] = [] := by simp only [adds, List.filterMap_cons, if_neg hty]; rfl
        rw [this, List.flatMap_nil, List.append_nil]
        simp only [G.step, G.addLine, if_pos hty]
        exact h
    | plotResults t D =>
      have : adds S [.plotResults t D] = [] := rfl
      rw [this, List.flatMap_nil, List.append_nil]
      simp only [G.step, G.plotResults]
      split
      · have := step_inv_setLines _ _ h (resultPts D t) false
        rw [← h.resE] at this
        exact this
      · exact h
    | plotPredictions t D =>
      have : adds S [.plotPredictions t D] = [] := rfl
      rw [this, List.flatMap_nil, List.append_nil]
      simp only [G.step, G.plotPredictions]
      split
      · exact h
      · split
        · split
          · exact h
          · rename_i now _
            have := step_inv_setLines _ _ h (predPts S D t now) true
            rw [← h.preE] at this
            exact this
        · exact h
    | clear =>
      have : adds S [.clear] = [] := rfl
      rw [this, List.flatMap_nil, List.append_nil]
      have := step_inv_setLines _ _ h (fun _ => []) false
      rw [← h.resE] at this
      exact this

theorem filter_tags (S : Source K) (as : List Added) (d : Bool) :
    ((as.flatMap (tagsOf S)).filter fun t => t.dashed = d) = as.flatMap fun a =>
      if d then (if S.mpc = true ∧ a.ty ≠ "_p" then predTags S a (List.range (predElems a.ty a.w)) else []) else resTags a := by
  rw [List.filter_flatMap]
  congr 1
  funext a
  have h1 : ∀ t ∈ resTags a, t.dashed = false := block_dashed _ _ _ _ _ _
  have h2 : ∀ t ∈ predTags S a (List.range (predElems a.ty a.w)), t.dashed = true := by
    intro t ht
    unfold predTags at ht
    obtain ⟨i, _, h⟩ := List.mem_flatMap.1 ht
    exact block_dashed _ _ _ _ _ _ t h
  unfold tagsOf
  rw [List.filter_append]
  cases d
  · rw [List.filter_eq_self.2 (fun t ht => by simp [h1 t ht])]
    simp only [Bool.false_eq_true, if_false]
    rw [List.filter_eq_nil_iff.2, List.append_nil]
    intro t ht
    split at ht
    · simp [h2 t ht]
    · simp at ht
  · rw [List.filter_eq_nil_iff.2 (fun t ht => by simp [h1 t ht]), List.nil_append]
    simp only [if_true]
    split
    · exact List.filter_eq_self.2 (fun t ht => by simp [h2 t ht])
    · rfl

theorem take_zip_eq {α β : Type} (xs : List α) (ys : List β) (n : Nat) : (xs.zip ys).take n = (xs.take n).zip (ys.take n) := by
  rw [List.zip_eq_zipWith, List.zip_eq_zipWith, List.take_zipWith]

theorem upTo_zip (xs ys : List K) (hl : ys.length = xs.length) (t : Int) (ht : (t.natAbs : Int) ≤ xs.length) :
    (if t = -1 then xs.zip ys else (upTo xs t).zip (upTo ys t)) = (xs.zip ys).take (samples xs.length t) := by
  unfold samples
  split
  · rename_i h
    subst h
    rw [if_neg (by omega), List.take_of_length_le]
    rw [List.length_zip, hl]; omega
  · unfold upTo
    by_cases h0 : 0 ≤ t
    · rw [if_pos h0, if_pos (by omega), if_pos (by omega), ← take_zip_eq]
      have h1 : (t + 1).toNat = t.toNat + 1 := by omega
      rw [h1]
      rcases Nat.le_total xs.length (t.toNat + 1) with h | h
      · rw [Nat.min_eq_left h, List.take_of_length_le (by rw [List.length_zip]; omega), List.take_of_length_le (by rw [List.length_zip]; omega)]
      · rw [Nat.min_eq_right h]
    · rw [if_neg h0, if_neg (by omega), if_neg (by omega), hl, ← take_zip_eq]
      have h1 : ((xs.length : Int) + (t + 1)).toNat = ((xs.length : Int) + 1 + t).toNat := by omega
      rw [h1]

theorem block_pts (f : Path → List (K × K)) (p : Path) (axis : Nat) (dashed steps : Bool) (n : Nat) :
    (block p axis dashed steps 0 n).map (fun t => (t.axis, t.steps, f t.path)) = (List.range n).map fun (j : Nat) => (axis, steps, f (p ++ [.int j])) := by
  unfold block
  rw [List.map_map, List.range_eq_range']
  rfl

theorem setLines_other (f : Path → List (K × K)) (d : Bool) (ls : List (Line K)) (ts : List Tag)
    (h : ls.map (fun l => (l.axis, l.dashed, l.steps)) = ts.map fun t => (t.axis, t.dashed, t.steps)) :
    ((setLines f (E d ts 0) ls).filter fun l => l.dashed = !d) = ls.filter fun l => l.dashed = !d := by
  have hl : ls.length = ts.length := by simpa using congrArg List.length h
  have := setLines_E f d ts [] ls hl
  rw [List.length_nil, List.nil_append, List.nil_append] at this
  rw [this]
  clear this
  induction ts generalizing ls with
  | nil => rw [List.eq_nil_of_length_eq_zero hl]; rfl
  | cons t ts ih =>
    cases ls with
    | nil => simp at hl
    | cons l ls =>
      simp only [List.map_cons, List.cons.injEq, Prod.mk.injEq] at h
      have ih' := ih ls h.2 (by simpa using hl)
      rw [List.zipWith_cons_cons]
      by_cases hd : t.dashed = d
      · simp only [hd, if_true]
        rw [List.filter_cons_of_neg (by simp [h.1.2.1, hd]), List.filter_cons_of_neg (by simp [h.1.2.1, hd]), ih']
      · simp only [hd, if_false]
        rw [List.filter_cons_of_pos (by cases d <;> simp_all), List.filter_cons_of_pos (by cases d <;> simp_all), ih']

/-! ## C65 -/

/-- C65 (results): after any calls in which no variable is added twice, a call of `plot_results(t_ind)` with an index within the record leaves exactly one
solid line for each element of each added variable, on the axis given with it, showing the recorded samples up to and including `t_ind` (counted from the
end if negative); the predictions are not touched.  With any other index it raises and changes nothing.
What is missing: variables that are added twice (`C65_fails_added_twice`). -/
theorem C65_results_partial (S : Source K) (ops : List (Op K)) (hnd : ((adds S ops).map fun a => (a.ty, a.name)).Nodup) (D : Snapshot K) (t : Int)
    (hv : ∀ a ∈ adds S ops, ∀ i < a.w, (D.vals a.ty a.name i).length = D.time.length) :
    let g := G.new.run S ops
    if (t.natAbs : Int) ≤ D.time.length then
      (g.plotResults D t).2 = none ∧ drawn false (g.plotResults D t).1 = resultLines D t (adds S ops) ∧
        drawn true (g.plotResults D t).1 = drawn true g
    else g.plotResults D t = (g, some "AssertionError") := by
  intro g
  have h : Inv g _ := run_inv S ops hnd
  split
  · rename_i ht
    unfold G.plotResults
    rw [if_pos ht]
    refine ⟨rfl, ?_, ?_⟩
    · show List.map _ (List.filter _ (setLines _ g.result.entries g.lines)) = _
      rw [h.resE, setLines_drawn _ _ _ _ h.lines, filter_tags, List.map_flatMap]
      unfold resultLines
      refine List.flatMap_congr fun a ha => ?_
      simp only [Bool.false_eq_true, if_false]
      rw [resTags, block_pts]
      refine List.map_congr_left fun i hi => ?_
      have hl := hv a ha i (List.mem_range.1 hi)
      rw [← upTo_zip D.time (D.vals a.ty a.name i) hl t ht]
      rfl
    · show List.map _ (List.filter _ (setLines _ g.result.entries g.lines)) = _
      rw [h.resE]
      exact congrArg _ (setLines_other (resultPts D t) false g.lines _ h.lines)
  · rename_i ht
    unfold G.plotResults
    rw [if_neg ht]

theorem zip_mapIdx {α β : Type} (f : Nat → α) (y : List β) : ((List.range y.length).map f).zip y = y.mapIdx fun j b => (f j, b) := by
  apply List.ext_getElem
  · simp
  · intro i h1 h2
    simp

/-- C65 (predictions): … and `plot_predictions(t_ind)` leaves exactly one dashed line for each element and each scenario of each added variable, showing
the trajectory predicted at `t_ind` over the time `t_now + j * t_step`; the results are not touched. -/
theorem C65_predictions_partial (S : Source K) (hm : S.mpc = true) (ops : List (Op K)) (hnd : ((adds S ops).map fun a => (a.ty, a.name)).Nodup)
    (D : Snapshot K) (t : Int) (now : K) (hnow : timeAt D.time t = some now) :
    let g := G.new.run S ops
    (g.plotPredictions S D t).2 = none ∧ drawn true (g.plotPredictions S D t).1 = predictionLines S D t now (adds S ops) ∧
      drawn false (g.plotPredictions S D t).1 = drawn false g := by
  intro g
  have h : Inv g _ := run_inv S ops hnd
  have ht : (t.natAbs : Int) ≤ D.time.length := by
    unfold timeAt at hnow
    split at hnow
    · have := (List.getElem?_eq_some_iff.1 hnow).1
      omega
    · split at hnow
      · omega
      · simp at hnow
  unfold G.plotPredictions
  rw [if_neg (by simp [hm]), if_pos ht, hnow]
  refine ⟨rfl, ?_, ?_⟩
  · show List.map _ (List.filter _ (setLines _ g.pred.entries g.lines)) = _
    rw [h.preE, setLines_drawn _ _ _ _ h.lines, filter_tags, List.map_flatMap]
    unfold predictionLines
    refine List.flatMap_congr fun a ha => ?_
    by_cases hp : a.ty = "_p"
    · simp [hp]
    · rw [if_pos rfl, if_pos (⟨hm, hp⟩ : S.mpc = true ∧ a.ty ≠ "_p"), if_neg hp]
      unfold predTags
      rw [List.map_flatMap]
      refine List.flatMap_congr fun i hi => ?_
      rw [block_pts]
      refine List.map_congr_left fun k _ => ?_
      rw [← zip_mapIdx]
      simp only [List.cons_append, List.nil_append, predPts, Int.toNat_natCast]
  · show List.map _ (List.filter _ (setLines _ g.pred.entries g.lines)) = _
    rw [h.preE]
    exact congrArg _ (setLines_other (predPts S D t now) true g.lines _ h.lines)

/-- `clear()` empties the result lines and leaves the predictions (although its documentation says all lines). -/
theorem C65_fails_clear (S : Source K) (ops : List (Op K)) (hnd : ((adds S ops).map fun a => (a.ty, a.name)).Nodup) :
    let g := G.new.run S ops
    drawn false g.clear = (adds S ops).flatMap (fun a => (List.range a.w).map fun _ => (a.axis, decide (a.ty = "_u"), [])) ∧
      drawn true g.clear = drawn true g := by
  intro g
  have h : Inv g _ := run_inv S ops hnd
  constructor
  · show List.map _ (List.filter _ (setLines _ g.result.entries g.lines)) = _
    rw [h.resE, setLines_drawn _ _ _ _ h.lines, filter_tags, List.map_flatMap]
    refine List.flatMap_congr fun a ha => ?_
    simp only [Bool.false_eq_true, if_false]
    rw [resTags]
    exact block_pts (fun _ => []) _ _ _ _ _
  · show List.map _ (List.filter _ (setLines _ g.result.entries g.lines)) = _
    rw [h.resE]
    exact congrArg _ (setLines_other (fun _ => []) false g.lines _ h.lines)

/-- The index after the last one is accepted by `plot_results` and raises an `IndexError` in `plot_predictions`. -/
theorem C65_fails_index (S : Source K) (hm : S.mpc = true) (D : Snapshot K) (g : G K) :
    (g.plotResults D D.time.length).2 = none ∧ g.plotPredictions S D D.time.length = (g, some "IndexError") := by
  constructor
  · unfold G.plotResults
    rw [if_pos (by simp)]
  · unfold G.plotPredictions
    rw [if_neg (by simp [hm]), if_pos (by simp)]
    have : timeAt D.time D.time.length = none := by
      unfold timeAt
      rw [if_pos (by omega)]
      simp
    rw [this]

/-- Before anything is recorded `plot_results()` raises (the default index -1 is out of range). -/
theorem C65_fails_empty (D : Snapshot K) (hD : D.time = []) (g : G K) : g.plotResults D (-1) = (g, some "AssertionError") := by
  unfold G.plotResults
  rw [if_neg (by simp [hD])]

/-- A parameter cannot be added to a plot of controller data: an error is raised, after its line was drawn. -/
theorem C65_fails_parameter (S : Source K) (hm : S.mpc = true) (D : Snapshot K) (g : G K) (name : String) (axis w : Nat) (hw : S.width "_p" name = some w) :
    (g.addLine S D "_p" name axis).2 = some "ValueError" ∧ (g.addLine S D "_p" name axis).1.lines.length = g.lines.length + w := by
  unfold G.addLine
  rw [if_neg (by simp), hw]
  dsimp only
  rw [if_pos (by simp [hm])]
  simp [G.plot]

/-! ## C66 -/

theorem addPreds_lines (S : Source K) (D : Snapshot K) (ty name : String) (axis : Nat) (steps : Bool) (is : List Nat) (g : G K) :
    drawn false (addPreds S D ty name axis steps is g) = drawn false g ∧ (addPreds S D ty name axis steps is g).axes = g.axes := by
  induction is generalizing g with
  | nil => exact ⟨rfl, rfl⟩
  | cons i is ih =>
    simp only [addPreds]
    obtain ⟨h1, h2⟩ := ih { (g.plot axis true steps ((List.range (S.scen ty)).map fun k => (D.pred0 ty name i k).map fun y => ((0 : K), y))).1 with
      pred := St.setItem (.list ((g.plot axis true steps ((List.range (S.scen ty)).map fun k => (D.pred0 ty name i k).map fun y => ((0 : K), y))).2.map .leaf))
        [.str ty, .str name, .int i] (g.plot axis true steps ((List.range (S.scen ty)).map fun k => (D.pred0 ty name i k).map fun y => ((0 : K), y))).1.pred }
    rw [h1, h2]
    refine ⟨?_, rfl⟩
    unfold drawn G.plot
    simp only [List.filter_append, List.map_append]
    have : ∀ cols : List (List (K × K)), ((cols.map fun c => (⟨axis, true, steps, c⟩ : Line K)).filter fun l => decide (l.dashed = false)) = [] := by
      intro cols
      rw [List.filter_eq_nil_iff]
      intro l hl
      obtain ⟨c, _, rfl⟩ := List.mem_map.1 hl
      simp
    rw [this, List.map_nil, List.append_nil]

theorem addLine_ok (S : Source K) (D : Snapshot K) (g : G K) (ty name : String) (axis w : Nat) (hty : ty ∈ ["_x", "_u", "_z", "_tvp", "_aux"])
    (hw : S.width ty name = some w) :
    (g.addLine S D ty name axis).2 = none ∧ (g.addLine S D ty name axis).1.axes = g.axes ++ [axis] ∧
      drawn false (g.addLine S D ty name axis).1 = drawn false g ++ (List.range w).map fun i => (axis, decide (ty = "_u"), D.time.zip (D.vals ty name i)) := by
  have hp : ty ≠ "_p" := by rintro rfl; simp at hty
  have hty' : ty ∈ ["_x", "_u", "_z", "_tvp", "_p", "_aux"] := by
    simp only [List.mem_cons, List.not_mem_nil, or_false] at hty ⊢
    rcases hty with h | h | h | h | h <;> simp [h]
  unfold G.addLine
  rw [if_neg (not_not.2 hty'), hw]
  dsimp only
  rw [if_neg (by simp [hp])]
  have hbase : ∀ st : St Nat, drawn false { (g.plot axis false (decide (ty = "_u")) ((List.range w).map fun i => D.time.zip (D.vals ty name i))).1 with result := st } =
      drawn false g ++ (List.range w).map fun i => (axis, decide (ty = "_u"), D.time.zip (D.vals ty name i)) := by
    intro st
    unfold drawn G.plot
    simp only [List.filter_append, List.map_append, List.append_cancel_left_eq]
    rw [List.filter_eq_self.2, List.map_map, List.map_map]
    · rfl
    · intro l hl
      obtain ⟨c, _, rfl⟩ := List.mem_map.1 hl
      simp
  refine ⟨rfl, ?_, ?_⟩
  · split
    · rw [(addPreds_lines _ _ _ _ _ _ _ _).2]; rfl
    · rfl
  · split
    · show drawn false (addPreds _ _ _ _ _ _ _ _) = _
      rw [(addPreds_lines _ _ _ _ _ _ _ _).1, hbase]
    · exact hbase (St.setItem (.list ((g.plot axis false (decide (ty = "_u")) ((List.range w).map fun i => D.time.zip (D.vals ty name i))).2.map .leaf)) [.str ty, .str name] g.result)

theorem addAll_ok (S : Source K) (D : Snapshot K) (l : List (String × String)) (hl : ∀ v ∈ l, v.1 ∈ ["_x", "_u", "_z", "_tvp", "_aux"] ∧ (S.width v.1 v.2).isSome)
    (i : Nat) (g : G K) :
    ∃ g', addAll S D l i g = (g', none) ∧ g'.axes = g.axes ++ List.range' i l.length ∧
      drawn false g' = drawn false g ++ (l.mapIdx fun j v => ((⟨v.1, v.2, i + j, (S.width v.1 v.2).getD 0⟩ : Added))).flatMap fun a =>
        (List.range a.w).map fun k => (a.axis, decide (a.ty = "_u"), D.time.zip (D.vals a.ty a.name k)) := by
  induction l generalizing i g with
  | nil => exact ⟨g, rfl, by simp, by simp⟩
  | cons v l ih =>
    obtain ⟨ty, name⟩ := v
    obtain ⟨h1, h2⟩ := hl (ty, name) List.mem_cons_self
    obtain ⟨w, hw⟩ := Option.isSome_iff_exists.1 h2
    obtain ⟨a1, a2, a3⟩ := addLine_ok S D g ty name i w h1 hw
    obtain ⟨g', b1, b2, b3⟩ := ih (fun v hv => hl v (List.mem_cons_of_mem _ hv)) (i + 1) (g.addLine S D ty name i).1
    refine ⟨g', ?_, ?_, ?_⟩
    · rw [addAll]
      have : g.addLine S D ty name i = ((g.addLine S D ty name i).1, none) := by rw [← a1]
      rw [this]
      exact b1
    · rw [b2, a2, List.length_cons, List.range'_succ, List.append_assoc]; rfl
    · rw [b3, a3, List.mapIdx_cons, List.flatMap_cons, List.append_assoc]
      simp only [hw, Option.getD_some, Nat.add_zero]
      congr 3
      congr 1
      funext j v
      congr 1
      omega

/-- C66: `default_plot` plots exactly the requested variables (by default all but the default ones), the `i`-th one on the `i`-th axis, with all recorded
samples.  What is missing: requests for algebraic states (`C66_fails_dae`). -/
theorem C66_default_plot_partial (M : Names) (S : Source K) (D : Snapshot K) (xs us as : Option (List String))
    (hx : ∀ l, xs = some l → l ⊆ M.x) (hu : ∀ l, us = some l → l ⊆ M.u) (ha : ∀ l, as = some l → l ⊆ M.aux)
    (hz0 : M.z ≠ []) (hu0 : M.u ≠ []) (ha0 : M.aux ≠ [])
    (hwx : ∀ n ∈ M.x, (S.width "_x" n).isSome) (hwz : ∀ n ∈ M.z, (S.width "_z" n).isSome) (hwu : ∀ n ∈ M.u, (S.width "_u" n).isSome)
    (hwa : ∀ n ∈ M.aux, (S.width "_aux" n).isSome)
    (hne : wanted M xs none us as ≠ [])
    (hv : ∀ v ∈ wanted M xs none us as, ∀ i < (S.width v.1 v.2).getD 0, (D.vals v.1 v.2 i).length = D.time.length) :
    ∃ g, defaultPlot M S D xs none us as = .ok g ∧ g.axes = List.range (wanted M xs none us as).length ∧
      drawn false g = resultLines D (-1) (onAxes S (wanted M xs none us as)) := by
  have hpick : ∀ (d ok : List String) (o : Option (List String)), (∀ l, o = some l → l ⊆ ok) → pick d ok o = .ok (o.getD d) := by
    intro d ok o ho
    cases o with
    | none => rfl
    | some l =>
      have : (l.all fun x => decide (x ∈ ok)) = true := List.all_eq_true.2 fun x hx => by simpa using ho l rfl hx
      simp [pick, this]
  have hdrop : ∀ (d ok : List String) (o : Option (List String)), d ≠ [] → (∀ l, o = some l → l ⊆ ok) → dropFirst d ok o = .ok (o.getD d.tail) := by
    intro d ok o hd ho
    cases o with
    | none =>
      cases d with
      | nil => exact absurd rfl hd
      | cons a t => rfl
    | some l =>
      have := hpick d ok (some l) ho
      unfold dropFirst
      dsimp only
      rw [this]; rfl
  have hch : chosen M xs none us as = .ok (wanted M xs none us as) := by
    unfold chosen
    rw [hpick M.x M.x xs hx, hdrop M.z M.u none hz0 (by simp), hdrop M.u M.u us hu0 hu, hdrop M.aux M.aux as ha0 ha]
    rfl
  have hsub : ∀ (o : Option (List String)) (d ok : List String), d ⊆ ok → (∀ l, o = some l → l ⊆ ok) → o.getD d ⊆ ok := by
    intro o d ok h1 h2
    cases o with
    | none => exact h1
    | some l => exact h2 l rfl
  have hall : ∀ v ∈ wanted M xs none us as, v.1 ∈ ["_x", "_u", "_z", "_tvp", "_aux"] ∧ (S.width v.1 v.2).isSome := by
    intro v hv
    unfold wanted at hv
    simp only [List.mem_append, List.mem_map] at hv
    rcases hv with ((⟨n, hn, rfl⟩ | ⟨n, hn, rfl⟩) | ⟨n, hn, rfl⟩) | ⟨n, hn, rfl⟩
    · exact ⟨by simp, hwx n (hsub xs _ _ (fun _ h => h) hx hn)⟩
    · exact ⟨by simp, hwz n (List.mem_of_mem_tail hn)⟩
    · exact ⟨by simp, hwu n (hsub us _ _ (fun _ h => List.mem_of_mem_tail h) hu hn)⟩
    · exact ⟨by simp, hwa n (hsub as _ _ (fun _ h => List.mem_of_mem_tail h) ha hn)⟩
  obtain ⟨g, h1, h2, h3⟩ := addAll_ok S D _ hall 0 G.new
  refine ⟨g, ?_, ?_, ?_⟩
  · unfold defaultPlot
    rw [hch]
    dsimp only
    rw [if_neg hne, h1]
  · rw [h2, List.range_eq_range']; rfl
  · rw [h3]
    unfold resultLines onAxes
    simp only [Nat.zero_add]
    show [] ++ _ = _
    rw [List.nil_append]
    refine List.flatMap_congr fun a ha => List.map_congr_left fun k hk => ?_
    obtain ⟨j, hj, rfl⟩ := List.mem_mapIdx.1 ha
    have := hv _ (List.getElem_mem hj) k (List.mem_range.1 hk)
    rw [List.take_of_length_le]
    rw [List.length_zip, this]
    unfold samples
    rw [if_neg (by omega)]
    omega

/-- **C66 fails** for requested algebraic states: the list is compared with the *inputs*, so that a valid name is refused (unless an input has the same
name), … -/
theorem C66_fails_dae (M : Names) (S : Source K) (D : Snapshot K) (xs us as : Option (List String)) (zs : List String)
    (hx : ∀ l, xs = some l → l ⊆ M.x) (z : String) (hz : z ∈ zs) (hzu : z ∉ M.u) :
    defaultPlot M S D xs (some zs) us as = .error "AssertionError" := by
  have hp : ∃ l, pick M.x M.x xs = .ok l := by
    cases xs with
    | none => exact ⟨_, rfl⟩
    | some l =>
      have : (l.all fun x => decide (x ∈ M.x)) = true := List.all_eq_true.2 fun x hx' => by simpa using hx l rfl hx'
      exact ⟨l, by simp [pick, this]⟩
  obtain ⟨l, hl⟩ := hp
  have hd : dropFirst M.z M.u (some zs) = .error "AssertionError" := by
    unfold dropFirst pick
    dsimp only
    rw [if_neg]
    intro h
    rw [List.all_eq_true] at h
    exact hzu (by simpa using h z hz)
  unfold defaultPlot chosen
  simp only [hl, hd]

/-! ## C67 -/

/-- C67 (frames): the `t`-th frame of an animation of controller data shows the samples up to `t` and the predictions made at `t`. -/
theorem C67_frames_partial (S : Source K) (hm : S.mpc = true) (ops : List (Op K)) (hnd : ((adds S ops).map fun a => (a.ty, a.name)).Nodup) (D : Snapshot K)
    (hv : ∀ a ∈ adds S ops, ∀ i < a.w, (D.vals a.ty a.name i).length = D.time.length) (n s : Nat) (hn : s + n ≤ D.time.length) :
    ∃ l, frames S D n s (G.new.run S ops) = .ok l ∧ l.length = n ∧ ∀ t < n, ∃ g now, l[t]? = some g ∧ D.time[s + t]? = some now ∧
      drawn false g = resultLines D (s + t : Nat) (adds S ops) ∧ drawn true g = predictionLines S D (s + t : Nat) now (adds S ops) := by
  induction n generalizing s ops with
  | zero => exact ⟨[], rfl, rfl, fun t ht => by omega⟩
  | succ n ih =>
    have hs : s < D.time.length := by omega
    have h1 := C65_results_partial S ops hnd D s hv
    dsimp only at h1
    rw [if_pos (by simp; omega)] at h1
    obtain ⟨a1, a2, a3⟩ := h1
    have e1 : G.new.run S (ops ++ [.plotResults s D]) = ((G.new.run S ops).plotResults D s).1 := by simp [G.run, List.foldl_append, G.step]
    have e1' : adds S (ops ++ [.plotResults s D]) = adds S ops := by simp [adds, List.filterMap_append]
    have h2 := C65_predictions_partial S hm (ops ++ [.plotResults s D]) (by rw [e1']; exact hnd) D s D.time[s]
      (by unfold timeAt; rw [if_pos (by omega)]; simp [hs])
    dsimp only at h2
    obtain ⟨b1, b2, b3⟩ := h2
    rw [e1, e1'] at b2
    rw [e1] at b1 b3
    have e2 : G.new.run S (ops ++ [.plotResults s D, .plotPredictions s D]) = ((((G.new.run S ops).plotResults D s).1).plotPredictions S D s).1 := by
      simp [G.run, List.foldl_append, G.step]
    have e2' : adds S (ops ++ [.plotResults s D, .plotPredictions s D]) = adds S ops := by simp [adds, List.filterMap_append]
    obtain ⟨l, c1, c2, c3⟩ := ih (ops ++ [.plotResults s D, .plotPredictions s D]) (by rw [e2']; exact hnd) (by rw [e2']; exact hv) (s + 1) (by omega)
    rw [e2] at c1
    rw [e2'] at c3
    refine ⟨((((G.new.run S ops).plotResults D s).1).plotPredictions S D s).1 :: l, ?_, by simp [c2], ?_⟩
    · rw [frames]
      have r1 : (G.new.run S ops).plotResults D s = (((G.new.run S ops).plotResults D s).1, none) := by rw [← a1]
      have r2 : (((G.new.run S ops).plotResults D s).1).plotPredictions S D s = (((((G.new.run S ops).plotResults D s).1).plotPredictions S D s).1, none) := by
        rw [← b1]
      rw [r1]
      dsimp only
      rw [r2]
      dsimp only
      rw [c1]
    · intro t ht
      cases t with
      | zero =>
        refine ⟨_, D.time[s], rfl, by simp [hs], ?_, b2⟩
        rw [b3]; exact a2
      | succ t =>
        obtain ⟨g, now, d1, d2, d3, d4⟩ := c3 t (by omega)
        have : s + (t + 1) = s + 1 + t := by omega
        rw [this]
        exact ⟨g, now, by simpa using d1, d2, d3, d4⟩

/-- **C67 fails** for the data of a simulator or an estimator: already the first frame raises, nothing is saved. -/
theorem C67_fails_simulator (S : Source K) (hm : S.mpc = false) (D : Snapshot K) (g : G K) (hD : D.time ≠ []) (fs : FS (List (G K)))
    (path name ext : String) (overwrite : Bool) (fuel : Nat) (r : FS (List (G K)) × Option String)
    (hr : animate S D g none fs path name ext overwrite fuel = some r) : r = (fs, some "AssertionError") := by
  obtain ⟨n, hn⟩ : ∃ n, D.time.length = n + 1 := ⟨D.time.length - 1, by have := List.length_pos_iff.2 hD; omega⟩
  have hf : frames S D D.time.length 0 g = .error "AssertionError" := by
    rw [hn, frames]
    have : g.plotResults D (0 : Nat) = ((g.plotResults D (0 : Nat)).1, none) := by
      unfold G.plotResults
      rw [if_pos (by simp)]
    rw [this]
    dsimp only
    unfold G.plotPredictions
    rw [if_pos (by simp [hm])]
  unfold animate at hr
  simp only [Option.getD_none, hf, Option.map_eq_some_iff] at hr
  obtain ⟨_, _, rfl⟩ := hr
  rfl

/-- **C67 fails** without `overwrite`: unless there is a file `name.pkl`, the animation is written to the same file as with `overwrite=True`, so that an
earlier animation is lost. -/
theorem C67_fails_overwrite (S : Source K) (D : Snapshot K) (g : G K) (n : Option Nat) (fs : FS (List (G K))) (path name ext : String) (fuel : Nat)
    (h : fs.isFile (path ++ name ++ ".pkl") = false) :
    animate S D g n fs path name ext false (fuel + 1) = animate S D g n fs path name ext true (fuel + 1) ∧
    (∀ l, frames S D (n.getD D.time.length) 0 g = .ok l → ∀ old, fs (path ++ name ++ "." ++ ext) = some (.file old) →
      ∃ fs', animate S D g n fs path name ext false (fuel + 1) = some (fs', none) ∧ fs' (path ++ name ++ "." ++ ext) = some (.file (some l))) := by
  have h1 : animFile fs path name ext false (fuel + 1) = some (path ++ name ++ "." ++ ext) := by
    unfold animFile
    rw [if_neg (by simp), freeResultName, if_neg (by simp [h])]
    rfl
  have h2 : animFile fs path name ext true (fuel + 1) = some (path ++ name ++ "." ++ ext) := rfl
  constructor
  · unfold animate
    rw [h1, h2]
  · intro l hl old _
    refine ⟨fs.put (path ++ name ++ "." ++ ext) (.file (some l)), ?_, by simp [FS.put]⟩
    unfold animate
    rw [h1]
    simp only [Option.map_some, hl]

/-- C67 (file name): without `overwrite` the first of `name`, `001_name`, `002_name`, … is chosen for which there is no file with the extension *`.pkl`*;
only one file is changed. -/
theorem C67_file_partial (S : Source K) (D : Snapshot K) (g : G K) (n : Option Nat) (fs : FS (List (G K))) (hfin : fs.Finite) (path name ext : String)
    (l : List (G K)) (hl : frames S D (n.getD D.time.length) 0 g = .ok l) :
    ∃ i, fs.isFile (path ++ candidate name i ++ ".pkl") = false ∧ (∀ j < i, fs.isFile (path ++ candidate name j ++ ".pkl") = true) ∧
      ∃ m, ∀ fuel ≥ m, animate S D g n fs path name ext false fuel = some (fs.put (path ++ candidate name i ++ "." ++ ext) (.file (some l)), none) := by
  obtain ⟨i, h1, h2, m, h3⟩ := freeResultName_ends fs hfin path name
  refine ⟨i, h1, h2, m, fun fuel hf => ?_⟩
  unfold animate animFile
  rw [if_neg (by simp), h3 fuel hf]
  simp only [Option.map_some, hl]

end

/-! ## examples -/

/-- controller data: a state with two elements, an input, three scenarios (one for the input) -/
def exS : Source Int where
  width ty name := if ty = "_x" ∧ name = "a" then some 2 else if ty = "_u" ∧ name = "v" then some 1 else if ty = "_z" ∧ name = "default" then some 0
    else if ty = "_u" ∧ name = "default" then some 0 else if ty = "_aux" ∧ name = "default" then some 1 else none
  mpc := true
  scen ty := if ty = "_u" then 1 else 3
  tStep := 5

/-- three samples -/
def exD : Snapshot Int where
  time := [0, 5, 10]
  vals ty _ i := if ty = "_u" then [7, 8, 9] else [100 * i, 100 * i + 1, 100 * i + 2]
  pred0 _ _ _ _ := [0, 0]
  pred ty _ i k t := if ty = "_u" then [t] else [100 * i + 10 * k + t, 1]

def exOps : List (Op Int) := [.addLine "_x" "a" 0 exD, .addLine "_x" "zzz" 0 exD, .addLine "_u" "v" 1 exD, .plotResults 0 exD, .clear]

/-- the hypotheses of `C65_results_partial`, `C65_predictions_partial` and `C67_frames_partial` are met -/
example : ((adds exS exOps).map fun a => (a.ty, a.name)).Nodup ∧ (∀ a ∈ adds exS exOps, ∀ i < a.w, (exD.vals a.ty a.name i).length = exD.time.length) ∧
    exS.mpc = true ∧ timeAt exD.time (-2) = some 5 ∧ (adds exS exOps).length = 2 ∧
    drawn false ((G.new.run exS exOps).plotResults exD 1).1 = [(0, false, [(0, 0), (5, 1)]), (0, false, [(0, 100), (5, 101)]), (1, true, [(0, 7), (5, 8)])] ∧
    drawn true ((G.new.run exS exOps).plotPredictions exS exD 1).1 =
      [(0, false, [(5, 1), (10, 1)]), (0, false, [(5, 11), (10, 1)]), (0, false, [(5, 21), (10, 1)]),
       (0, false, [(5, 101), (10, 1)]), (0, false, [(5, 111), (10, 1)]), (0, false, [(5, 121), (10, 1)]), (1, true, [(5, 1)])] := by
  decide +kernel

/-- **C65 fails** for a variable that is added twice, for instance to two axes: the second line replaces the first one in the structure, and the first
is never updated again. -/
theorem C65_fails_added_twice :
    let ops : List (Op Int) := [.addLine "_u" "v" 0 { exD with time := [], vals := fun _ _ _ => [] }, .addLine "_u" "v" 1 { exD with time := [], vals := fun _ _ _ => [] }]
    drawn false ((G.new.run exS ops).plotResults exD (-1)).1 ≠ resultLines exD (-1) (adds exS ops) ∧
    (0, true, []) ∈ drawn false ((G.new.run exS ops).plotResults exD (-1)).1 ∧
    (G.new.run exS ops).plotResults exD (-1) = (((G.new.run exS ops).plotResults exD (-1)).1, none) := by
  refine ⟨by decide +kernel, by decide +kernel, rfl⟩

/-- the hypotheses of `C66_default_plot_partial` are met -/
example : wanted ⟨["a"], ["default"], ["default", "v"], ["default"]⟩ (some ["a"]) none none none = [("_x", "a"), ("_u", "v")] ∧
    (∀ n ∈ ["default", "v"], (exS.width "_u" n).isSome) ∧ (∀ n ∈ ["a"], (exS.width "_x" n).isSome) ∧ (∀ n ∈ ["default"], (exS.width "_z" n).isSome ∧ (exS.width "_aux" n).isSome) ∧
    (∀ v ∈ [("_x", "a"), ("_u", "v")], ∀ i < (exS.width v.1 v.2).getD 0, (exD.vals v.1 v.2 i).length = exD.time.length) := by
  refine ⟨rfl, by decide +kernel, by decide +kernel, by decide +kernel, by decide +kernel⟩

/-- … and those of `C66_fails_dae`: the name of an algebraic state that is not the name of an input -/
example : "c" ∈ ["c"] ∧ "c" ∉ (⟨["a"], ["default", "c"], ["default", "v"], ["default"]⟩ : Names).u := by decide

end DoMpc.Gfx
