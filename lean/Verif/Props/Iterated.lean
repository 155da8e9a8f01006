import Verif.Model.Iterated
import Mathlib.Tactic.Push
import Mathlib.Tactic.NormNum

set_option linter.unusedSectionVars false

/-! # C53 (initial values are independent) and C55 (setting the time) -/
namespace DoMpc
variable {K : Type} [Zero K]

namespace Spec
/-- The expected behaviour: every attribute has its own value. -/
def ivStep (dim : IvSlot → Nat) (val : IvSlot → List K) : IOp K → IvSlot → List K
  | .create o => fun s => if s.1 = o then List.replicate (dim s) 0 else val s
  | .setArr s v => fun t => if t = s ∧ v.length = dim s then v else val t
  | .setStruct s t => fun r => if r = s ∧ (val t).length = dim s then val t else val r
  | .setItem s i a => fun t => if t = s then (val s).set i a else val t
  | .step o x u z => fun s => if s.1 = o then (match s.2 with | .x0 => x | .u0 => u | .z0 => z) else val s

/-- the operation assigns a structure to attribute `s` or from attribute `s` -/
def IOp.SharesStruct (s : IvSlot) : IOp K → Prop
  | .setStruct a b => a = s ∨ b = s
  | _ => False

/-- the operation gives attribute `s` a new object -/
def IOp.Rebinds (s : IvSlot) : IOp K → Prop
  | .create o => s.1 = o
  | .setArr a _ => a = s
  | .setStruct a _ => a = s
  | _ => False
end Spec
open Spec

/-- `s` is the only attribute that holds its structure -/
def IterSt.Private (st : IterSt K) (s : IvSlot) : Prop := ∀ t, st.ref t = st.ref s → t = s

/-- references are allocated -/
def IterSt.WF (st : IterSt K) : Prop := ∀ t, st.ref t < st.next

theorem IterSt.alloc_wf {st : IterSt K} (h : st.WF) (s : IvSlot) (v : List K) : (st.alloc s v).WF := by
  intro t
  simp only [alloc]
  split
  · omega
  · have := h t; omega

theorem IterSt.alloc_private {st : IterSt K} (h : st.WF) (a s : IvSlot) (v : List K) (hs : st.Private s ∨ s = a) :
    (st.alloc a v).Private s := by
  intro t ht
  simp only [alloc] at ht
  by_cases hsa : s = a
  · subst hsa
    by_cases hts : t = s
    · exact hts
    · simp only [if_neg hts, if_true] at ht
      have := h t; omega
  · by_cases hta : t = a
    · subst hta
      simp only [if_true, if_neg hsa] at ht
      have := h s; omega
    · simp only [if_neg hta, if_neg hsa] at ht
      rcases hs with hs | hs
      · exact hs t ht
      · exact absurd hs hsa

theorem IterSt.alloc_read {st : IterSt K} (h : st.WF) (a s : IvSlot) (v : List K) :
    (st.alloc a v).read s = if s = a then v else st.read s := by
  simp only [read, alloc]
  by_cases hsa : s = a
  · simp [hsa]
  · have := h s
    have : st.ref s ≠ st.next := by omega
    simp [hsa, this]

theorem IterSt.write_read_private {st : IterSt K} (a s : IvSlot) (v : List K) (hs : st.Private s) :
    (st.write a v).read s = if s = a then v else st.read s := by
  simp only [read, write]
  by_cases hsa : s = a
  · simp [hsa]
  · have : st.ref s ≠ st.ref a := fun h => hsa (hs a h.symm).symm
    simp [hsa, this]

theorem IterSt.exec_wf (dim : IvSlot → Nat) {st : IterSt K} (h : st.WF) (op : IOp K) : (st.exec dim op).1.WF := by
  cases op with
  | create o => exact alloc_wf (alloc_wf (alloc_wf h _ _) _ _) _ _
  | setArr s v =>
    simp only [exec]; split
    · exact alloc_wf h _ _
    · exact h
  | setStruct s t =>
    simp only [exec]; split
    · intro r
      dsimp only
      split
      · exact h t
      · exact h r
    · exact h
  | setItem s i a => exact h
  | step o x u z => exact h

theorem ivStep_private (dim : IvSlot → Nat) (st : IterSt K) (h : st.WF) (s : IvSlot) (hp : st.Private s) (op : IOp K)
    (hop : ¬ IOp.SharesStruct s op) :
    (st.exec dim op).1.Private s ∧ ∀ val : IvSlot → List K, val s = st.read s → (st.exec dim op).1.read s = ivStep dim val op s := by
  cases op with
  | create o =>
    have w1 := IterSt.alloc_wf h (o, .x0) (List.replicate (dim (o, .x0)) (0 : K))
    have w2 := IterSt.alloc_wf w1 (o, .u0) (List.replicate (dim (o, .u0)) (0 : K))
    refine ⟨?_, fun val hv => ?_⟩
    · exact IterSt.alloc_private w2 _ _ _ (.inl (IterSt.alloc_private w1 _ _ _ (.inl (IterSt.alloc_private h _ _ _ (.inl hp)))))
    · simp only [IterSt.exec, ivStep]
      rw [IterSt.alloc_read w2, IterSt.alloc_read w1, IterSt.alloc_read h]
      obtain ⟨n, k⟩ := s
      by_cases hn : n = o
      · subst hn; cases k <;> simp
      · simp [hn, hv]
  | setArr a v =>
    refine ⟨?_, fun val hv => ?_⟩
    · simp only [IterSt.exec]; split
      · exact IterSt.alloc_private h _ _ _ (.inl hp)
      · exact hp
    · simp only [IterSt.exec, ivStep]
      by_cases hl : v.length = dim a
      · rw [if_pos hl, IterSt.alloc_read h]
        by_cases hsa : s = a <;> simp [hsa, hl, hv]
      · rw [if_neg hl]
        simp [hl, hv]
  | setStruct a b =>
    simp only [IOp.SharesStruct, not_or] at hop
    refine ⟨?_, fun val hv => ?_⟩
    · simp only [IterSt.exec]; split
      · intro t ht
        dsimp only at ht
        rw [if_neg (Ne.symm hop.1)] at ht
        split at ht
        · exact absurd (hp b ht) hop.2
        · exact hp t ht
      · exact hp
    · have hsa : ¬ s = a := fun h => hop.1 h.symm
      simp only [IterSt.exec, ivStep, hsa, false_and, if_false]
      split
      · simp [IterSt.read, hsa, hv]
      · exact hv.symm
  | setItem a i x =>
    refine ⟨hp, fun val hv => ?_⟩
    simp only [IterSt.exec, ivStep]
    rw [IterSt.write_read_private _ _ _ hp]
    by_cases hsa : s = a
    · subst hsa; simp [hv]
    · simp [hsa, hv]
  | step o x u z =>
    refine ⟨hp, fun val hv => ?_⟩
    simp only [IterSt.exec, ivStep]
    rw [IterSt.write_read_private (st := (st.write (o, .x0) x).write (o, .z0) z) _ _ _ hp,
      IterSt.write_read_private (st := st.write (o, .x0) x) _ _ _ hp, IterSt.write_read_private _ _ _ hp]
    obtain ⟨n, k⟩ := s
    by_cases hn : n = o
    · subst hn; cases k <;> simp
    · simp [hn, hv]

/-- **C53, partial.**  Take any history of constructor calls, assignments, item assignments and `make_step`s on any number of objects
in which attribute `s` takes no part in an assignment *of a structure* (`a.x0 = b.x0`).  Then `s` always has the value expected when
every attribute has its own value: only operations on `s` itself change it.
Missing: assignments of structures (`C53_fails_shared`). -/
theorem C53_independent_partial (dim : IvSlot → Nat) (st : IterSt K) (h : st.WF) (s : IvSlot) (hp : st.Private s) (ops : List (IOp K))
    (hops : ∀ op ∈ ops, ¬ IOp.SharesStruct s op) :
    (st.run dim ops).read s = ops.foldl (ivStep dim) st.read s := by
  suffices ∀ val : IvSlot → List K, val s = st.read s → (st.run dim ops).read s = ops.foldl (ivStep dim) val s from this _ rfl
  intro val hv
  induction ops generalizing st val with
  | nil => exact hv.symm
  | cons op ops ih =>
    obtain ⟨h1, h2⟩ := ivStep_private dim st h s hp op (hops op (by simp))
    exact ih _ (IterSt.exec_wf dim h op) h1 (fun o ho => hops o (by simp [ho])) _ (h2 val hv).symm

theorem exec_same (dim : IvSlot → Nat) (st : IterSt K) (a b : IvSlot) (hab : st.ref a = st.ref b) (op : IOp K)
    (ha : ¬ IOp.Rebinds a op) (hb : ¬ IOp.Rebinds b op) : (st.exec dim op).1.ref a = (st.exec dim op).1.ref b := by
  cases op with
  | create o =>
    simp only [IOp.Rebinds] at ha hb
    have : ∀ (c : IvSlot) k, c.1 ≠ o → c ≠ (o, k) := fun c k h h' => h (by rw [h'])
    simp [IterSt.exec, IterSt.alloc, this _ _ ha, this _ _ hb, hab]
  | setArr s v =>
    simp only [IOp.Rebinds] at ha hb
    simp only [IterSt.exec]; split
    · simp [IterSt.alloc, Ne.symm ha, Ne.symm hb, hab]
    · exact hab
  | setStruct s t =>
    simp only [IOp.Rebinds] at ha hb
    simp only [IterSt.exec]; split
    · simp [Ne.symm ha, Ne.symm hb, hab]
    · exact hab
  | setItem s i x => exact hab
  | step o x u z => exact hab

/-- **What the code does instead**: after `a.x0 = b.x0` the two attributes are one object.  Whatever happens, as long as neither
attribute is assigned a new value, both read the same. -/
theorem C53_shared_structure (dim : IvSlot → Nat) (st : IterSt K) (a b : IvSlot) (hdim : (st.read b).length = dim a) (ops : List (IOp K))
    (hops : ∀ op ∈ ops, ¬ IOp.Rebinds a op ∧ ¬ IOp.Rebinds b op) :
    ((st.exec dim (.setStruct a b)).1.run dim ops).read a = ((st.exec dim (.setStruct a b)).1.run dim ops).read b := by
  have h0 : (st.exec dim (.setStruct a b)).1.ref a = (st.exec dim (.setStruct a b)).1.ref b := by
    simp only [IterSt.exec, if_pos hdim, if_true]
    split
    · rfl
    · rfl
  suffices ∀ st' : IterSt K, st'.ref a = st'.ref b → (st'.run dim ops).read a = (st'.run dim ops).read b from this _ h0
  intro st' h'
  induction ops generalizing st' with
  | nil => simp only [IterSt.run, IterSt.read, h']
  | cons op ops ih =>
    exact ih (fun o ho => hops o (by simp [ho])) _ (exec_same dim st' a b h' op (hops op (by simp)).1 (hops op (by simp)).2)

/-- nothing is constructed: all attributes hold the reference 0 of an empty structure -/
def iterInit : IterSt Int := ⟨fun _ => 0, fun _ => [], 1⟩

/-- controller 0, simulator 1, one state, one input, no algebraic states -/
def iterDim : IvSlot → Nat | (_, .x0) => 1 | (_, .u0) => 1 | (_, .z0) => 0

/-- the constructors, `simulator.x0 = [5]`, `mpc.x0 = simulator.x0`, then `simulator.make_step` -/
def iterHistory : List (IOp Int) := [.create 0, .create 1, .setArr (1, .x0) [5], .setStruct (0, .x0) (1, .x0), .step 1 [7] [2] []]

/-- **C53 fails for structures**: after the usual `mpc.x0 = simulator.x0`, a step of the simulator changes the controller's `x0`. -/
theorem C53_fails_shared : ((iterInit.run iterDim iterHistory).read (0, .x0) = [7]) ∧
    iterHistory.foldl (ivStep iterDim) iterInit.read (0, .x0) = [5] := by decide

/-- The constructor makes all attributes of the new object private, whatever exists. -/
theorem C53_constructor_private (dim : IvSlot → Nat) (st : IterSt K) (h : st.WF) (o : Nat) (k : IVar) :
    (st.exec dim (.create o)).1.Private (o, k) ∧ (st.exec dim (.create o)).1.read (o, k) = List.replicate (dim (o, k)) 0 := by
  have w1 := IterSt.alloc_wf h (o, .x0) (List.replicate (dim (o, .x0)) (0 : K))
  have w2 := IterSt.alloc_wf w1 (o, .u0) (List.replicate (dim (o, .u0)) (0 : K))
  refine ⟨?_, ?_⟩
  · cases k
    · exact IterSt.alloc_private w2 _ _ _ (.inl (IterSt.alloc_private w1 _ _ _ (.inl (IterSt.alloc_private h _ _ _ (.inr rfl)))))
    · exact IterSt.alloc_private w2 _ _ _ (.inl (IterSt.alloc_private w1 _ _ _ (.inr rfl)))
    · exact IterSt.alloc_private w2 _ _ _ (.inr rfl)
  · simp only [IterSt.exec]
    rw [IterSt.alloc_read w2, IterSt.alloc_read w1, IterSt.alloc_read h]
    cases k <;> simp

/-- Non-vacuity of `C53_independent_partial`: after the constructors the attributes are private; with `mpc.x0 = [5]` instead, the
controller keeps its value. -/
example : let st := ((iterInit.exec iterDim (.create 0)).1.exec iterDim (.create 1)).1
    st.WF ∧ st.Private (1, .x0) ∧
    (st.run iterDim [.setArr (1, .x0) [5], .setArr (0, .x0) [5], .step 1 [7] [2] []]).read (0, .x0) = [5] :=
  have h : iterInit.WF := fun _ => Nat.one_pos
  ⟨IterSt.exec_wf _ (IterSt.exec_wf _ h _) _, (C53_constructor_private _ _ (IterSt.exec_wf _ h _) 1 .x0).1, by decide⟩

/-- **C53: wrong sizes are refused** without any effect; right sizes are accepted. -/
theorem C53_sizes (dim : IvSlot → Nat) (st : IterSt K) (s t : IvSlot) (v : List K) :
    ((st.exec dim (.setArr s v)).2 = none ↔ v.length = dim s) ∧
    ((st.exec dim (.setStruct s t)).2 = none ↔ (st.read t).length = dim s) ∧
    (v.length ≠ dim s → (st.exec dim (.setArr s v)).1 = st) ∧
    ((st.read t).length ≠ dim s → (st.exec dim (.setStruct s t)).1 = st) := by
  refine ⟨?_, ?_, ?_, ?_⟩
  · simp only [IterSt.exec]; split <;> simp [*]
  · simp only [IterSt.exec]; split <;> simp [*]
  · intro h; simp [IterSt.exec, h]
  · intro h; simp [IterSt.exec, h]

/-! ### C55 -/

/-- **C55, partial.**  Numbers and NumPy arrays with one element set the time to that element; arrays of other sizes and other types are
refused.  Missing: `DM` (`C55_fails_dm`). -/
theorem C55_set_time_partial (a : K) (l : List K) :
    setT0 (.num a) = .ok [a] ∧ setT0 (.arr [a]) = .ok [a] ∧
    ((∃ r, setT0 (.arr l) = .ok r) ↔ l.length = 1) ∧ ¬ (∃ r, setT0 (.other : TimeArg K) = .ok r) := by
  refine ⟨rfl, rfl, ?_, ?_⟩
  · simp only [setT0]; split <;> simp [*]
  · simp [setT0]

/-- **C55 fails for every `DM`**, also those with one element, although the documentation lists the type. -/
theorem C55_fails_dm (l : List K) : setT0 (.dm l) = .error "AssertionError" := rfl

example : setT0 (.arr [(3 : Int), 4]) = .error "AssertionError" ∧ setT0 (.num (3 : Int)) = .ok [3] := by decide

end DoMpc
