import Verif.Spec.Onnx
import Verif.Lemmas.Files
import Verif.Props.ModelBuilder

/-!
# C61, C63 — `ONNXConversion.convert` evaluates the graph
-/
set_option linter.unusedSectionVars false
set_option linter.unusedSimpArgs false
namespace DoMpc.Onnx
open Spec

variable {V : Type}

/-! ## dictionaries -/

theorem dictSet_new {α β : Type} [DecidableEq α] (d : List (α × β)) (k : α) (v : β) (h : k ∉ d.map (·.1)) : dictSet d k v = d ++ [(k, v)] := by
  unfold dictSet
  rw [if_neg]
  simp only [List.any_eq_true, decide_eq_true_eq, not_exists, not_and]
  intro e he hk
  exact h (hk ▸ List.mem_map_of_mem he)

theorem foldl_dictSet_filter {α β γ : Type} [DecidableEq α] (p : α → Prop) [DecidablePred p] (l : List (α × β)) (d : List (α × β))
    (hl : (l.map (·.1)).Nodup) (hd : ∀ e ∈ l, e.1 ∉ d.map (·.1)) :
    l.foldl (fun d e => if p e.1 then d else dictSet d e.1 e.2) d = d ++ l.filter (fun e => ¬ p e.1) := by
  induction l generalizing d with
  | nil => simp
  | cons e l ih =>
    rw [List.map_cons, List.nodup_cons] at hl
    rw [List.foldl_cons]
    by_cases hp : p e.1
    · rw [if_pos hp, ih _ hl.2 (fun e' he' => hd e' (List.mem_cons_of_mem _ he'))]
      simp [hp]
    · rw [if_neg hp, dictSet_new _ _ _ (hd e (List.mem_cons_self)), ih _ hl.2]
      · simp [hp]
      · intro e' he'
        simp only [List.map_append, List.map_cons, List.map_nil, List.mem_append, List.mem_singleton, not_or]
        refine ⟨hd e' (List.mem_cons_of_mem _ he'), fun h => hl.1 (h ▸ List.mem_map_of_mem he')⟩

theorem foldl_dictSet_new {α β : Type} [DecidableEq α] (l : List (α × β)) (hl : (l.map (·.1)).Nodup) :
    l.foldl (fun d e => dictSet d e.1 e.2) [] = l := by
  have := foldl_dictSet_filter (γ := α) (fun _ => False) l [] hl (by simp)
  simpa using this

theorem lookup_foldl_update {α β : Type} [DecidableEq α] (l d : List (α × β)) (hl : (l.map (·.1)).Nodup) (k : α) :
    (l.foldl (fun d e => dictSet d e.1 e.2) d).lookup k = if k ∈ l.map (·.1) then l.lookup k else d.lookup k := by
  induction l generalizing d with
  | nil => simp
  | cons e l ih =>
    obtain ⟨a, b⟩ := e
    rw [List.map_cons, List.nodup_cons] at hl
    rw [List.foldl_cons, ih _ hl.2, lookup_dictSet, lookup_cons_ite]
    by_cases hk : k = a
    · subst hk
      simp only [hl.1, if_false, if_true, List.map_cons, List.mem_cons, true_or]
    · simp only [hk, if_false, List.map_cons, List.mem_cons, false_or]

theorem lookup_isSome_iff {α β : Type} [DecidableEq α] (l : List (α × β)) (k : α) : (∃ v, l.lookup k = some v) ↔ k ∈ l.map (·.1) := by
  induction l with
  | nil => simp
  | cons e l ih =>
    obtain ⟨a, b⟩ := e
    rw [lookup_cons_ite, List.map_cons, List.mem_cons, ← ih]
    by_cases hk : k = a <;> simp [hk]

theorem lookup_none_iff {α β : Type} [DecidableEq α] (l : List (α × β)) (k : α) : l.lookup k = none ↔ k ∉ l.map (·.1) := by
  rw [← lookup_isSome_iff]
  cases l.lookup k <;> simp

theorem lookup_filter_ne {α β : Type} [DecidableEq α] (l : List (α × β)) (a k : α) (h : k ≠ a) :
    (l.filter fun e => e.1 ≠ a).lookup k = l.lookup k := by
  induction l with
  | nil => rfl
  | cons e l ih =>
    obtain ⟨b, v⟩ := e
    by_cases hb : b = a
    · subst hb
      rw [List.filter_cons_of_neg (by simp), ih, lookup_cons_ite, if_neg h]
    · rw [List.filter_cons_of_pos (by simpa using hb), lookup_cons_ite, lookup_cons_ite, ih]

theorem initDict_eq (G : Graph V) (h : SingleAssignment G) : G.initDict = G.initializers := foldl_dictSet_new _ h.inits

theorem inputShape_eq (G : Graph V) (h : SingleAssignment G) :
    G.inputShape = G.inputs.filter fun e => e.1 ∉ G.initializers.map (·.1) := by
  have := foldl_dictSet_filter (γ := String) (fun n => n ∈ G.initializers.map (·.1)) G.inputs [] h.inputs (by simp)
  unfold Graph.inputShape
  rw [initDict_eq G h]
  simpa using this

theorem mem_inputShape (G : Graph V) (h : SingleAssignment G) (n : String) : n ∈ G.inputShape.map (·.1) ↔ IsInput G n := by
  rw [inputShape_eq G h]
  simp only [List.mem_map, List.mem_filter, IsInput]
  constructor
  · rintro ⟨e, ⟨he, hn⟩, rfl⟩
    exact ⟨⟨e, he, rfl⟩, by simpa using hn⟩
  · rintro ⟨⟨e, he, rfl⟩, hn⟩
    exact ⟨e, ⟨he, by simpa using hn⟩, rfl⟩

theorem inputShape_nodup (G : Graph V) (h : SingleAssignment G) : (G.inputShape.map (·.1)).Nodup := by
  rw [inputShape_eq G h]
  exact h.inputs.sublist (List.Sublist.map _ List.filter_sublist)

/-! ## the check of the inputs -/

theorem shapeOk_iff (s g : List Nat) : shapeOk s g = .ok true ↔ s ≠ [] ∧ g ≠ [] ∧ (s.length = 1 → s.head? = g.head?) := by
  rcases s with _ | ⟨e, es⟩
  · simp [shapeOk]
  · rcases g with _ | ⟨a, gs⟩
    · simp [shapeOk]
    · by_cases hes : es = []
      · subst hes
        by_cases hea : e = a <;> simp [shapeOk, hea]
      · have : es.length ≠ 0 := by simpa using hes
        simp [shapeOk, hes]

theorem checkInputs_iff (shape : V → List Nat) (kw : List (String × V)) (l : List (String × List Nat)) (acc : List (String × V)) :
    (∃ d, checkInputs shape kw l acc = .ok d) ↔ ∀ e ∈ l, ∃ v, kw.lookup e.1 = some v ∧ shapeOk e.2 (shape v) = .ok true := by
  induction l generalizing acc with
  | nil => simp [checkInputs]
  | cons e l ih =>
    obtain ⟨n, s⟩ := e
    simp only [checkInputs, List.forall_mem_cons]
    cases hk : kw.lookup n with
    | none => simp
    | some v =>
      dsimp only
      cases hs : shapeOk s (shape v) with
      | error e => simp [hs]
      | ok b => cases b <;> simp [hs, ih]

theorem checkInputs_lookup (shape : V → List Nat) (kw : List (String × V)) (l : List (String × List Nat)) (acc d : List (String × V))
    (h : checkInputs shape kw l acc = .ok d) (k : String) : d.lookup k = if k ∈ l.map (·.1) then kw.lookup k else acc.lookup k := by
  induction l generalizing acc with
  | nil => simp only [checkInputs, Except.ok.injEq] at h; subst h; simp
  | cons e l ih =>
    obtain ⟨n, s⟩ := e
    simp only [checkInputs] at h
    cases hk : kw.lookup n with
    | none => rw [hk] at h; simp at h
    | some v =>
      rw [hk] at h
      dsimp only at h
      cases hs : shapeOk s (shape v) with
      | error e => rw [hs] at h; simp at h
      | ok b =>
        rw [hs] at h
        cases b
        · simp at h
        · rw [ih _ h, lookup_dictSet]
          by_cases hkn : k = n
          · subst hkn; simp [hk]
          · simp only [hkn, if_false, List.map_cons, List.mem_cons, false_or]

/-! ## the nodes -/

theorem collect_iff (all : List (String × V)) (ns : List String) (ws : List V) :
    collect all ns = .ok ws ↔ Values (fun k => all.lookup k) ns ws := by
  unfold Values
  induction ns generalizing ws with
  | nil => cases ws <;> simp [collect]
  | cons n ns ih =>
    simp only [collect]
    cases hn : all.lookup n with
    | none => cases ws <;> simp [hn]
    | some v =>
      dsimp only
      cases hc : collect all ns with
      | error e =>
        cases ws with
        | nil => simp
        | cons w ws =>
          simp only [List.map_cons, List.cons.injEq, hn, reduceCtorEq, false_iff, not_and]
          intro _ h2
          rw [(ih ws).2 h2] at hc
          simp at hc
      | ok us =>
        have hu := (ih us).1 hc
        cases ws with
        | nil => simp
        | cons w ws =>
          simp only [Except.ok.injEq, List.cons.injEq, List.map_cons, hn, Option.some.injEq]
          refine and_congr Iff.rfl ?_
          rw [hu]
          constructor
          · rintro rfl; rfl
          · intro h; exact List.map_injective_iff.2 (Option.some_injective _) h

theorem values_mono {val val' : String → Option V} (h : ∀ k v, val k = some v → val' k = some v) {ns : List String} {ws : List V}
    (hv : Values val ns ws) : Values val' ns ws := by
  unfold Values at *
  induction ns generalizing ws with
  | nil => simpa using hv
  | cons n ns ih =>
    cases ws with
    | nil => simp at hv
    | cons w ws =>
      simp only [List.map_cons, List.cons.injEq] at hv ⊢
      exact ⟨h _ _ hv.1, ih hv.2⟩

theorem values_mem {val : String → Option V} {ns : List String} {ws : List V} (hv : Values val ns ws) {i : String} (hi : i ∈ ns) : ∃ v, val i = some v := by
  have : val i ∈ ws.map some := hv ▸ List.mem_map_of_mem hi
  obtain ⟨v, _, h⟩ := List.mem_map.1 this
  exact ⟨v, h.symm⟩

/-- the nodes are in an order such that everything is defined before it is used, starting with the names in `all` -/
def TopoFrom (ks : String → Prop) (ns : List Node) : Prop := ∀ pre n post, ns = pre ++ n :: post → ∀ i ∈ n.inputs, ks i ∨ i ∈ outputs pre

theorem topoFrom_cons (ks : String → Prop) (n : Node) (o : String) (ns : List Node) (ho : n.outputs.head? = some o) :
    TopoFrom ks (n :: ns) ↔ (∀ i ∈ n.inputs, ks i) ∧ TopoFrom (fun k => k = o ∨ ks k) ns := by
  constructor
  · intro h
    refine ⟨fun i hi => ?_, fun pre m post hns i hi => ?_⟩
    · rcases h [] n ns rfl i hi with h' | h'
      · exact h'
      · simp [outputs] at h'
    · rcases h (n :: pre) m post (by rw [hns]; rfl) i hi with h' | h'
      · exact Or.inl (Or.inr h')
      · simp only [outputs, List.filterMap_cons, ho, List.mem_cons] at h'
        rcases h' with h' | h'
        · exact Or.inl (Or.inl h')
        · exact Or.inr h'
  · rintro ⟨h1, h2⟩ pre m post hns i hi
    cases pre with
    | nil =>
      simp only [List.nil_append, List.cons.injEq] at hns
      exact Or.inl (h1 i (hns.1 ▸ hi))
    | cons p pre =>
      simp only [List.cons_append, List.cons.injEq] at hns
      obtain ⟨rfl, hns⟩ := hns
      rcases h2 pre m post hns i hi with (h' | h') | h'
      · right; simp [outputs, ho, h']
      · exact Or.inl h'
      · right; simp only [outputs, List.filterMap_cons, ho, List.mem_cons]; exact Or.inr h'

theorem evalNodes_complete (ops : Ops V) (val : String → Option V) (ns : List Node) (all node : List (String × V))
    (hle : ∀ k v, all.lookup k = some v → val k = some v) (hn : ∀ n ∈ ns, NodeHolds ops val n)
    (ht : TopoFrom (fun k => ∃ v, all.lookup k = some v) ns) :
    ∃ d, evalNodes ops ns all node = .ok d ∧ ∀ k, d.lookup k = if k ∈ outputs ns then val k else node.lookup k := by
  induction ns generalizing all node with
  | nil => exact ⟨node, rfl, by simp [outputs]⟩
  | cons n ns ih =>
    obtain ⟨f, ws, o, v, hf, hws, ho, hv, hval⟩ := hn n List.mem_cons_self
    obtain ⟨h1, h2⟩ := (topoFrom_cons _ n o ns ho).1 ht
    have hcol : collect all n.inputs = .ok ws := by
      rw [collect_iff]
      unfold Values at hws ⊢
      rw [← hws]
      apply List.map_congr_left
      intro i hi
      obtain ⟨u, hu⟩ := h1 i hi
      show List.lookup i all = val i
      rw [hu, hle i u hu]
    obtain ⟨o', os, hos⟩ : ∃ o' os, n.outputs = o' :: os := by
      cases hh : n.outputs with
      | nil => rw [hh] at ho; simp at ho
      | cons a l => exact ⟨a, l, rfl⟩
    have hoo : o' = o := by rw [hos] at ho; simpa using ho
    subst hoo
    have hall : ∀ k, (dictSet all o' v).lookup k = if k = o' then some v else all.lookup k := fun k => lookup_dictSet _ _ _ _
    obtain ⟨d, hd, hlk⟩ := ih (dictSet all o' v) (dictSet node o' v)
      (fun k u hu => by
        rw [hall] at hu
        by_cases hk : k = o'
        · rw [if_pos hk] at hu; rw [hk, hval, ← hu]
        · rw [if_neg hk] at hu; exact hle k u hu)
      (fun m hm => hn m (List.mem_cons_of_mem _ hm))
      (by
        convert h2 using 2 with k
        rw [hall]
        by_cases hk : k = o' <;> simp [hk])
    refine ⟨d, ?_, fun k => ?_⟩
    · simp only [evalNodes, hcol, hf, hv, hos]
      exact hd
    · rw [hlk]
      simp only [outputs, List.filterMap_cons, ho, List.mem_cons]
      rw [lookup_dictSet]
      by_cases hk : k = o'
      · subst hk
        by_cases hin : k ∈ outputs ns
        · simp only [outputs] at hin; simp [hin]
        · simp only [outputs] at hin; simp [hin, hval]
      · simp [hk]

theorem evalNodes_sound (ops : Ops V) (ns : List Node) (all node d : List (String × V)) (hnd : (outputs ns).Nodup)
    (hnew : ∀ o ∈ outputs ns, all.lookup o = none) (h : evalNodes ops ns all node = .ok d) :
    TopoFrom (fun k => ∃ v, all.lookup k = some v) ns ∧
      ∃ val : String → Option V, (∀ k, k ∉ outputs ns → val k = all.lookup k) ∧ ∀ n ∈ ns, NodeHolds ops val n := by
  induction ns generalizing all node with
  | nil => exact ⟨fun pre n post hh => by simp at hh, fun k => all.lookup k, by simp⟩
  | cons n ns ih =>
    simp only [evalNodes] at h
    cases hc : collect all n.inputs with
    | error e => rw [hc] at h; simp at h
    | ok ws =>
      rw [hc] at h; dsimp only at h
      cases hf : ops n.op with
      | none => rw [hf] at h; simp at h
      | some f =>
        rw [hf] at h; dsimp only at h
        cases hv : f ws n.attrs with
        | error e => rw [hv] at h; simp at h
        | ok v =>
          rw [hv] at h; dsimp only at h
          cases ho : n.outputs with
          | nil => rw [ho] at h; simp at h
          | cons o os =>
            rw [ho] at h; dsimp only at h
            have hho : n.outputs.head? = some o := by rw [ho]; rfl
            have hout : outputs (n :: ns) = o :: outputs ns := by simp [outputs, hho]
            rw [hout] at hnd hnew ⊢
            rw [List.nodup_cons] at hnd
            have hall : ∀ k, (dictSet all o v).lookup k = if k = o then some v else all.lookup k := fun k => lookup_dictSet _ _ _ _
            obtain ⟨ht, val, hval, hns⟩ := ih (dictSet all o v) (dictSet node o v) hnd.2
              (fun o' ho' => by
                rw [hall, if_neg (fun e : o' = o => hnd.1 (e ▸ ho'))]
                exact hnew o' (List.mem_cons_of_mem _ ho')) h
            have hws := (collect_iff _ _ _).1 hc
            refine ⟨(topoFrom_cons _ n o ns hho).2 ⟨fun i hi => values_mem hws hi, ?_⟩, val, fun k hk => ?_, ?_⟩
            · convert ht using 2 with k
              rw [hall]
              by_cases hk : k = o <;> simp [hk]
            · simp only [List.mem_cons, not_or] at hk
              rw [hval k hk.2, hall, if_neg hk.1]
            · intro m hm
              rcases List.mem_cons.1 hm with rfl | hm
              · refine ⟨f, ws, o, v, hf, values_mono (val := fun k => all.lookup k) (fun k u hu => ?_) hws, hho, hv, ?_⟩
                · have hko : k ∉ outputs ns := fun hin => by
                    rw [hnew k (List.mem_cons_of_mem _ hin)] at hu; simp at hu
                  have hk : k ≠ o := fun e => by
                    rw [e, hnew o List.mem_cons_self] at hu; simp at hu
                  rw [hval k hko, hall, if_neg hk]; exact hu
                · rw [hval o hnd.1, hall, if_pos rfl]
              · exact hns m hm

/-! ## the whole conversion -/

section
variable (G : Graph V) (ops : Ops V) (shape : V → List Nat) (call : List (String × V))

open Classical in
/-- the first part of `convert`: the inputs -/
theorem convert_inputs (hG : SingleAssignment G) (hcall : (call.map (·.1)).Nodup) :
    (∀ d, G.convert ops shape call = .ok d → NamesMatch G (call.filter fun e => e.1 ≠ "verbose") ∧ ShapesAccepted G shape call) ∧
    (NamesMatch G (call.filter fun e => e.1 ≠ "verbose") → ShapesAccepted G shape call →
        ∃ input, (∀ k, input.lookup k = if IsInput G k then call.lookup k else none) ∧
          G.convert ops shape call = evalNodes ops G.nodes (G.initializers.foldl (fun d e => dictSet d e.1 e.2) input) input) := by
  have hl : ∀ k, k ≠ "verbose" → (call.filter fun e => e.1 ≠ "verbose").lookup k = call.lookup k := fun k hk => lookup_filter_ne _ _ _ hk
  have hnv : "verbose" ∉ (call.filter fun e => e.1 ≠ "verbose").map (·.1) := by
    intro h
    obtain ⟨e, he, h⟩ := List.mem_map.1 h
    simpa [h] using (List.mem_filter.1 he).2
  have hkn : ((call.filter fun e => e.1 ≠ "verbose").map (·.1)).Nodup := hcall.sublist (List.Sublist.map _ List.filter_sublist)
  unfold Graph.convert
  dsimp only
  generalize hkw : (call.filter fun e => e.1 ≠ "verbose") = kw at *
  have hnames : (kw.length = G.inputShape.length ∧ (G.inputShape.all fun e => e.1 ∈ kw.map (·.1)) = true) ↔ NamesMatch G kw := by
    have hsub : (G.inputShape.all fun e => e.1 ∈ kw.map (·.1)) = true ↔ G.inputShape.map (·.1) ⊆ kw.map (·.1) := by
      simp only [List.all_eq_true, decide_eq_true_eq]
      constructor
      · intro h k hk
        obtain ⟨e, he, rfl⟩ := List.mem_map.1 hk
        exact h e he
      · intro h e he
        exact h (List.mem_map_of_mem he)
    rw [hsub]
    unfold NamesMatch
    constructor
    · rintro ⟨hlen, hs⟩ n
      rw [← mem_inputShape G hG]
      have hsp := (List.subperm_of_subset (inputShape_nodup G hG) hs)
      have := hsp.perm_of_length_le (by simp [hlen])
      exact this.mem_iff.symm
    · intro h
      have hp : (G.inputShape.map (·.1)).Perm (kw.map (·.1)) := by
        rw [List.perm_ext_iff_of_nodup (inputShape_nodup G hG) hkn]
        intro a
        rw [mem_inputShape G hG, h a]
      refine ⟨by simpa using hp.length_eq.symm, hp.subset⟩
  have hshapes : NamesMatch G kw → ((∀ e ∈ G.inputShape, ∃ v, kw.lookup e.1 = some v ∧ shapeOk e.2 (shape v) = .ok true) ↔ ShapesAccepted G shape call) := by
    intro hm
    have hne : ∀ n, IsInput G n → n ≠ "verbose" := fun n hn he => hnv ((hm "verbose").2 (he ▸ hn))
    constructor
    · intro h e he hi v hv
      have hmem : e ∈ G.inputShape := by
        rw [inputShape_eq G hG]
        exact List.mem_filter.2 ⟨he, by simpa using hi.2⟩
      obtain ⟨v', hv', hs⟩ := h e hmem
      rw [hl _ (hne _ hi), hv] at hv'
      obtain rfl := Option.some.inj hv'
      exact (shapeOk_iff _ _).1 hs
    · intro h e he
      have hi : IsInput G e.1 := (mem_inputShape G hG _).1 (List.mem_map_of_mem he)
      obtain ⟨v, hv⟩ := (lookup_isSome_iff kw e.1).2 ((hm _).2 hi)
      rw [inputShape_eq G hG] at he
      refine ⟨v, hv, (shapeOk_iff _ _).2 (h e (List.mem_filter.1 he).1 hi v ?_)⟩
      rw [← hl _ (hne _ hi)]; exact hv
  have hinput : ∀ input, NamesMatch G kw → checkInputs shape kw G.inputShape [] = .ok input →
      ∀ k, input.lookup k = if IsInput G k then call.lookup k else none := by
    intro input hm hc k
    rw [checkInputs_lookup _ _ _ _ _ hc]
    have := mem_inputShape G hG k
    by_cases hk : IsInput G k
    · rw [if_pos (this.2 hk), if_pos hk, hl]
      rintro rfl
      exact hnv ((hm _).2 hk)
    · rw [if_neg (fun h => hk (this.1 h)), if_neg hk]; rfl
  have hinit := initDict_eq G hG
  constructor
  · intro d h
    split at h
    · simp at h
    · rename_i h1
      split at h
      · simp at h
      · rename_i h2
        have hm : NamesMatch G kw := hnames.1 ⟨by simpa using h1, by simpa using h2⟩
        cases hc : checkInputs shape kw G.inputShape [] with
        | error e => rw [hc] at h; simp at h
        | ok input => exact ⟨hm, (hshapes hm).1 ((checkInputs_iff _ _ _ _).1 ⟨_, hc⟩)⟩
  · intro hm hs
    obtain ⟨h1, h2⟩ := hnames.2 hm
    rw [if_neg (by simpa using h1), if_neg (by simpa using h2)]
    obtain ⟨inp, hc⟩ := (checkInputs_iff shape kw G.inputShape []).2 ((hshapes hm).2 hs)
    rw [hc, hinit]
    exact ⟨inp, hinput inp hm hc, rfl⟩

/-- the values known before the first node -/
theorem known_lookup (hG : SingleAssignment G) (input : List (String × V)) (k : String) :
    (G.initializers.foldl (fun d e => dictSet d e.1 e.2) input).lookup k =
      if k ∈ G.initializers.map (·.1) then G.initializers.lookup k else input.lookup k := lookup_foldl_update _ _ hG.inits k

open Classical in
theorem known_isSome (hG : SingleAssignment G) (hn : NamesMatch G (call.filter fun e => e.1 ≠ "verbose")) (input : List (String × V))
    (hin : ∀ k, input.lookup k = if IsInput G k then call.lookup k else none) (k : String) :
    (∃ v, (G.initializers.foldl (fun d e => dictSet d e.1 e.2) input).lookup k = some v) ↔ k ∈ G.inputs.map (·.1) ∨ k ∈ G.initializers.map (·.1) := by
  rw [known_lookup G hG]
  by_cases hk : k ∈ G.initializers.map (·.1)
  · rw [if_pos hk, lookup_isSome_iff]; simp [hk]
  · rw [if_neg hk, hin]
    by_cases hi : IsInput G k
    · rw [if_pos hi]
      simp only [hi.1, true_or, iff_true]
      rw [lookup_isSome_iff]
      obtain ⟨e, he, rfl⟩ := List.mem_map.1 ((hn k).2 hi)
      exact List.mem_map_of_mem (List.mem_filter.1 he).1
    · rw [if_neg hi]
      simp only [reduceCtorEq, exists_false, false_iff, hk, or_false]
      exact fun h => hi ⟨h, hk⟩

open Classical in
theorem known_le (hG : SingleAssignment G) (input : List (String × V))
    (hin : ∀ k, input.lookup k = if IsInput G k then call.lookup k else none) (val : String → Option V)
    (hv : IsEvaluation G ops (fun k => call.lookup k) val) (k : String) (v : V)
    (h : (G.initializers.foldl (fun d e => dictSet d e.1 e.2) input).lookup k = some v) : val k = some v := by
  rw [known_lookup G hG] at h
  by_cases hk : k ∈ G.initializers.map (·.1)
  · rw [if_pos hk] at h
    exact hv.init (k, v) ((lookup_eq_some_of_nodup _ hG.inits _ _).1 h)
  · rw [if_neg hk, hin] at h
    by_cases hi : IsInput G k
    · rw [if_pos hi] at h; rw [hv.input k hi]; exact h
    · rw [if_neg hi] at h; simp at h

theorem topo_iff (ks : String → Prop) (hk : ∀ k, ks k ↔ k ∈ G.inputs.map (·.1) ∨ k ∈ G.initializers.map (·.1)) : TopoFrom ks G.nodes ↔ Topological G := by
  unfold TopoFrom Topological
  constructor
  · intro h pre n post hn i hi
    rcases h pre n post hn i hi with h | h
    · rcases (hk i).1 h with h | h
      · exact Or.inl h
      · exact Or.inr (Or.inl h)
    · exact Or.inr (Or.inr h)
  · intro h pre n post hn i hi
    rcases h pre n post hn i hi with h | h | h
    · exact Or.inl ((hk i).2 (Or.inl h))
    · exact Or.inl ((hk i).2 (Or.inr h))
    · exact Or.inr h

/-- **C61**: `convert` succeeds exactly if the keyword arguments name the inputs, their shapes are accepted, every tensor is defined before it is used,
and the equations of the graph have a solution. -/
theorem C61_succeeds_iff (hG : SingleAssignment G) (hcall : (call.map (·.1)).Nodup) :
    (∃ d, G.convert ops shape call = .ok d) ↔
      NamesMatch G (call.filter fun e => e.1 ≠ "verbose") ∧ ShapesAccepted G shape call ∧ Topological G ∧
        ∃ val, IsEvaluation G ops (fun k => call.lookup k) val := by
  classical
  obtain ⟨h1, h2⟩ := convert_inputs G ops shape call hG hcall
  constructor
  · rintro ⟨d, hd⟩
    obtain ⟨hm, hs⟩ := h1 d hd
    obtain ⟨input, hin, he⟩ := h2 hm hs
    rw [he] at hd
    have hks := known_isSome G call hG hm input hin
    obtain ⟨ht, val, hval, hns⟩ := evalNodes_sound ops G.nodes _ _ d hG.outs (fun o ho => by
      have := (hks o).not.2 (fun h => h.elim (hG.noInput o ho) (hG.noInit o ho))
      cases hh : (G.initializers.foldl (fun d e => dictSet d e.1 e.2) input).lookup o with
      | none => rfl
      | some v => exact absurd ⟨v, hh⟩ this) hd
    refine ⟨hm, hs, (topo_iff G _ hks).1 ht, val, ?_, ?_, hns, ?_⟩
    · intro n hn
      rw [hval n (fun h => hG.noInput n h hn.1), known_lookup G hG, if_neg hn.2, hin, if_pos hn]
    · intro e he
      have hmem : e.1 ∈ G.initializers.map (·.1) := List.mem_map_of_mem he
      rw [hval _ (fun h => hG.noInit _ h hmem), known_lookup G hG, if_pos hmem]
      exact (lookup_eq_some_of_nodup _ hG.inits _ _).2 he
    · intro k hi hk ho
      rw [hval k ho, known_lookup G hG, if_neg hk, hin, if_neg hi]
  · rintro ⟨hm, hs, ht, val, hval⟩
    obtain ⟨input, hin, he⟩ := h2 hm hs
    rw [he]
    obtain ⟨d, hd, _⟩ := evalNodes_complete ops val G.nodes _ input (known_le G ops call hG input hin val hval) hval.node
      ((topo_iff G _ (known_isSome G call hG hm input hin)).2 ht)
    exact ⟨d, hd⟩

/-- **C61**: after a successful `convert` the equations of the graph have exactly one solution for the given inputs, and every query returns its value
(initialisers cannot be queried). -/
theorem C61_evaluation (hG : SingleAssignment G) (hcall : (call.map (·.1)).Nodup) (d : List (String × V)) (h : G.convert ops shape call = .ok d) :
    ∃ val, IsEvaluation G ops (fun k => call.lookup k) val ∧ (∀ val', IsEvaluation G ops (fun k => call.lookup k) val' → val' = val) ∧
      (∀ k, k ∉ G.initializers.map (·.1) → d.lookup k = val k) ∧ ∀ k ∈ G.initializers.map (·.1), d.lookup k = none := by
  classical
  obtain ⟨h1, h2⟩ := convert_inputs G ops shape call hG hcall
  obtain ⟨hm, hs, ht, val, hval⟩ := (C61_succeeds_iff G ops shape call hG hcall).1 ⟨d, h⟩
  obtain ⟨input, hin, he⟩ := h2 hm hs
  have htf := (topo_iff G _ (known_isSome G call hG hm input hin)).2 ht
  have hd : ∀ val', IsEvaluation G ops (fun k => call.lookup k) val' → ∀ k, d.lookup k = if k ∈ outputs G.nodes then val' k else input.lookup k := by
    intro val' hval'
    obtain ⟨d', hd', hlk⟩ := evalNodes_complete ops val' G.nodes _ input (known_le G ops call hG input hin val' hval') hval'.node htf
    rw [he, hd'] at h
    obtain rfl := Except.ok.inj h
    exact hlk
  refine ⟨val, hval, fun val' hval' => ?_, fun k hk => ?_, fun k hk => ?_⟩
  · funext k
    by_cases ho : k ∈ outputs G.nodes
    · have e1 := hd val hval k
      have e2 := hd val' hval' k
      rw [if_pos ho] at e1 e2
      rw [← e1, ← e2]
    · by_cases hk : k ∈ G.initializers.map (·.1)
      · obtain ⟨e, he, rfl⟩ := List.mem_map.1 hk
        rw [hval.init e he, hval'.init e he]
      · by_cases hi : IsInput G k
        · rw [hval.input k hi, hval'.input k hi]
        · rw [hval.none k hi hk ho, hval'.none k hi hk ho]
  · rw [hd val hval k]
    by_cases ho : k ∈ outputs G.nodes
    · rw [if_pos ho]
    · rw [if_neg ho, hin]
      by_cases hi : IsInput G k
      · rw [if_pos hi, hval.input k hi]
      · rw [if_neg hi, hval.none k hi hk ho]
  · rw [hd val hval k, if_neg (fun h => hG.noInit k h hk), hin, if_neg (fun h => h.2 hk)]

end

/-! ## histories -/

/-- **C61**: after any sequence of calls a query returns the value of the last successful conversion; a refused conversion leaves the previous values;
before the first success a query raises `AttributeError`, unknown names are refused. -/
theorem C61_history (G : Graph V) (ops : Ops V) (shape : V → List Nat) (calls : List (List (String × V))) (key : String) :
    (Conv.run G ops shape none calls).get key =
      match (calls.filterMap fun k => (G.convert ops shape k).toOption).getLast? with
      | none => .error "AttributeError"
      | some d =>
        match d.lookup key with
        | some v => .ok v
        | none => .error "Exception" := by
  have key_lemma : ∀ s : Conv V, Conv.run G ops shape s calls =
      ((calls.filterMap fun k => (G.convert ops shape k).toOption).getLast?).or s := by
    induction calls with
    | nil => intro s; simp [Conv.run]
    | cons k ks ih =>
      intro s
      rw [Conv.run, ih]
      unfold Conv.call
      cases hc : G.convert ops shape k with
      | error e => simp [hc, Except.toOption]
      | ok d =>
        simp only [List.filterMap_cons, hc, Except.toOption]
        cases hl : (ks.filterMap fun k => (G.convert ops shape k).toOption) with
        | nil =>
          simp only [Except.toOption] at hl
          rw [hl]; simp
        | cons a l =>
          simp only [Except.toOption] at hl
          rw [hl]
          rw [List.getLast?_cons_cons, List.getLast?_eq_some_getLast (List.cons_ne_nil a l)]; rfl
  rw [key_lemma]
  cases (calls.filterMap fun k => (G.convert ops shape k).toOption).getLast? <;> rfl

/-! ## a concrete graph: `y = (x + w) + x` with the initialiser `w` -/

/-- numbers as tensors of shape `(1,)` and the operation `Add` -/
def exOps : Ops Int := fun op => if op = "Add" then some (fun a _ => .ok a.sum) else none
def exG : Graph Int :=
  ⟨[("x", [1]), ("w", [1])], [("w", 5)], [⟨"Add", ["x", "w"], ["h"], []⟩, ⟨"Add", ["h", "x"], ["y"], []⟩]⟩

theorem exG_single : SingleAssignment exG := by constructor <;> decide
theorem exG_convert : exG.convert exOps (fun _ => [1]) [("x", 3)] = .ok [("x", 3), ("h", 8), ("y", 11)] := by decide +kernel

example : ∃ val, IsEvaluation exG exOps (fun k => [("x", (3 : Int))].lookup k) val ∧ val "y" = some 11 ∧ val "w" = some 5 := by
  obtain ⟨val, hv, _, hq, _⟩ := C61_evaluation exG exOps (fun _ => [1]) _ exG_single (by decide) _ exG_convert
  exact ⟨val, hv, (hq "y" (by decide)).symm.trans (by decide), hv.init ("w", 5) (by decide)⟩

/-- a refused call between two queries: the values of the first conversion remain -/
example : (Conv.run exG exOps (fun _ => [1]) none [[("x", 3)], [("z", 4)]]).get "y" = .ok 11 ∧
    (Conv.run exG exOps (fun _ => [1]) none [[("x", 3)], [("x", 4)]]).get "y" = .ok 13 ∧
    (Conv.run exG exOps (fun _ => [1]) none [[("z", 4)]]).get "y" = .error "AttributeError" ∧
    (Conv.run exG exOps (fun _ => [1]) none [[("x", 3)]]).get "w" = .error "Exception" := by decide +kernel

/-! ## C63: which inputs are refused -/

/-- **C63**: names: a call whose keyword arguments are not exactly the inputs of the model is refused, whatever the model computes. -/
theorem C63_names_refused (G : Graph V) (ops : Ops V) (shape : V → List Nat) (call : List (String × V)) (hG : SingleAssignment G)
    (hcall : (call.map (·.1)).Nodup) (h : ¬ NamesMatch G (call.filter fun e => e.1 ≠ "verbose")) :
    ∃ e, G.convert ops shape call = .error e := by
  cases hc : G.convert ops shape call with
  | error e => exact ⟨e, rfl⟩
  | ok d => exact absurd ((C61_succeeds_iff G ops shape call hG hcall).1 ⟨d, hc⟩).1 h

/-- **C63**: an input with one dimension is refused unless its length is the declared one. -/
theorem C63_length_refused_partial (G : Graph V) (ops : Ops V) (shape : V → List Nat) (call : List (String × V)) (hG : SingleAssignment G)
    (hcall : (call.map (·.1)).Nodup) (n : String) (len : Nat) (hn : (n, [len]) ∈ G.inputs) (hi : IsInput G n) (v : V)
    (hv : call.lookup n = some v) (hs : (shape v).head? ≠ some len) : ∃ e, G.convert ops shape call = .error e := by
  cases hc : G.convert ops shape call with
  | error e => exact ⟨e, rfl⟩
  | ok d =>
    have := ((C61_succeeds_iff G ops shape call hG hcall).1 ⟨d, hc⟩).2.1 (n, [len]) hn hi v hv
    exact absurd (this.2.2 rfl).symm hs

/-- the hypotheses are met: a vector of length 2 for an input of length 1 -/
example : ∃ e, exG.convert exOps (fun v => if v = 3 then [2] else [1]) [("x", 3)] = .error e :=
  C63_length_refused_partial exG exOps _ _ exG_single (by decide) "x" 1 (by decide) ⟨by decide, by decide⟩ 3 (by decide) (by decide)

/-- **C63 fails** for two-dimensional inputs: a matrix of any other shape is accepted. -/
theorem C63_fails_two_dimensional : ∃ (G : Graph Int) (ops : Ops Int) (shape : Int → List Nat) (call : List (String × Int)),
    SingleAssignment G ∧ G.inputs = [("x", [1, 4])] ∧ call = [("x", 3)] ∧ shape 3 = [7, 9] ∧ ∃ d, G.convert ops shape call = .ok d :=
  ⟨⟨[("x", [1, 4])], [], [⟨"Add", ["x", "x"], ["y"], []⟩]⟩, exOps, fun _ => [7, 9], [("x", 3)], by constructor <;> decide, rfl, rfl, rfl,
    [("x", 3), ("y", 6)], by decide +kernel⟩

/-- **C63 fails** for an input named `verbose`: it can never be supplied. -/
theorem C63_fails_verbose (G : Graph V) (ops : Ops V) (shape : V → List Nat) (call : List (String × V)) (hG : SingleAssignment G)
    (hcall : (call.map (·.1)).Nodup) (hi : IsInput G "verbose") : ∃ e, G.convert ops shape call = .error e := by
  refine C63_names_refused G ops shape call hG hcall fun h => ?_
  obtain ⟨e, he, hk⟩ := List.mem_map.1 ((h "verbose").2 hi)
  simpa [hk] using (List.mem_filter.1 he).2

/-- **C63 fails** for one-dimensional inputs of variable length (declared length 0): every vector is refused. -/
theorem C63_fails_variable_length (G : Graph V) (ops : Ops V) (shape : V → List Nat) (call : List (String × V)) (hG : SingleAssignment G)
    (hcall : (call.map (·.1)).Nodup) (n : String) (hn : (n, [0]) ∈ G.inputs) (hi : IsInput G n) (v : V)
    (hv : call.lookup n = some v) (k : Nat) (hs : shape v = [k + 1]) : ∃ e, G.convert ops shape call = .error e :=
  C63_length_refused_partial G ops shape call hG hcall n 0 hn hi v hv (by simp [hs])

example : IsInput (⟨[("verbose", [1])], [], []⟩ : Graph Int) "verbose" := ⟨by decide, by decide⟩

end DoMpc.Onnx
