import Verif.Props.OpcLoop

set_option linter.unusedSectionVars false
set_option linter.unusedSimpArgs false

/-! # C93: the documented OPC UA set-up -/
namespace DoMpc.Opc
variable {V : Type}

namespace Spec
/-- the variables of group `a`, without those whose label contains `default` -/
def visible (labels : String → List String) (a : String) : List String := (labels a).filter fun l => ¬ "default".toList <:+: l.toList

/-- the groups of variables of a model -/
def groups : List String := ["aux", "p", "tvp", "u", "v", "w", "x", "y", "z"]

/-- the node ids of group `a` of the client registered as number `i` -/
def tagsOf (labels : String → List String) (i : Nat) (a : String) : List String :=
  (visible labels a).map fun l => "ns=" ++ toString (i + 2) ++ ";s=" ++ (a ++ l)

/-- Labels of CasADi structures: `[name,0]`, each once. -/
def GoodLabels (labels : String → List String) : Prop :=
  ∀ a ∈ groups, (labels a).Nodup ∧ ∀ l ∈ labels a, l.toList.head? = some '['
end Spec
open Spec

theorem digits_no_semi (n : Nat) : ';' ∉ (toString n).toList := by
  intro h
  have : (toString n).toList = Nat.toDigits 10 n := by
    show (Nat.repr n).toList = _
    simp [Nat.repr]
  rw [this] at h
  have := Nat.isDigit_of_mem_toDigits (by omega) (by omega) h
  exact absurd this (by decide)

theorem toString_inj {m n : Nat} (h : toString m = toString n) : m = n := by
  have e : Nat.toDigits 10 m = Nat.toDigits 10 n := by
    rw [← Nat.toList_repr, ← Nat.toList_repr]
    exact congrArg String.toList h
  rw [← Nat.ofDigitChars_ten_toDigits (n := m), e, Nat.ofDigitChars_ten_toDigits]

theorem nodeId_inj {i j : Nat} {v w : String} (h : "ns=" ++ toString i ++ ";s=" ++ v = "ns=" ++ toString j ++ ";s=" ++ w) : i = j ∧ v = w := by
  have h' := congrArg String.toList h
  simp only [String.toList_append, List.append_assoc] at h'
  have h2 := List.append_cancel_left h'
  have key : ∀ (l m : List Char), ';' ∉ l → (l ++ (";s=".toList ++ m)).takeWhile (· ≠ ';') = l := by
    intro l m hl
    induction l with
    | nil => rfl
    | cons c l ih =>
      simp only [List.mem_cons, not_or] at hl
      have : c ≠ ';' := fun e => hl.1 e.symm
      rw [List.cons_append, List.takeWhile_cons, ih hl.2]
      simp [this]
  have e1 : (toString i).toList = (toString j).toList := by
    rw [← key _ v.toList (digits_no_semi i), h2, key _ _ (digits_no_semi j)]
  have e2 := toString_inj (String.toList_inj.1 e1)
  subst e2
  have h3 := List.append_cancel_left h2
  have h4 := List.append_cancel_left h3
  exact ⟨rfl, String.toList_inj.1 h4⟩

theorem visible_eq (labels : String → List String) (a : String) : visible labels a = (labels a).filter fun l => !hasDefault l := by
  unfold visible
  congr 1
  funext l
  rw [Bool.eq_iff_iff]
  simp only [decide_eq_true_eq, Bool.not_eq_true', ← hasDefault_iff, Bool.not_eq_true]

theorem entries_of_group (labels : String → List String) (name a : String) (ha : a ∈ groups) :
    (namespaceFromModel labels name).entries.filter (·.objectnode = a) = (visible labels a).map fun l => ⟨a, l⟩ := by
  rw [visible_eq]
  unfold namespaceFromModel
  dsimp only
  have hv : variableList = groups := rfl
  rw [hv]
  clear hv
  have hnd : groups.Nodup := by decide
  generalize groups = gs at *
  induction gs with
  | nil => simp at ha
  | cons g gs ih =>
    rw [List.flatMap_cons, List.filter_append]
    rw [List.nodup_cons] at hnd
    have hother : ∀ gs : List String, a ∉ gs → (gs.flatMap fun var => ((labels var).filter fun key => !hasDefault key).map fun key => (⟨var, key⟩ : Entry)).filter
        (·.objectnode = a) = [] := by
      intro gs hgs
      rw [List.filter_eq_nil_iff]
      intro e he
      simp only [List.mem_flatMap, List.mem_map] at he
      obtain ⟨v, hv, k, -, rfl⟩ := he
      simp only [decide_eq_true_eq]
      rintro rfl
      exact hgs hv
    rcases List.mem_cons.1 ha with rfl | h
    · rw [hother gs hnd.1, List.append_nil, List.filter_eq_self]
      intro e he
      obtain ⟨k, -, rfl⟩ := List.mem_map.1 he
      simp
    · rw [ih h hnd.2]
      have hne : g ≠ a := fun e => hnd.1 (e ▸ h)
      have : (((labels g).filter fun key => !hasDefault key).map fun key => (⟨g, key⟩ : Entry)).filter (·.objectnode = a) = [] := by
        rw [List.filter_eq_nil_iff]
        intro e he
        obtain ⟨k, -, rfl⟩ := List.mem_map.1 he
        simpa using hne
      rw [this, List.nil_append]

/-- registration of several models, from any state of the server -/
theorem registerAll_spec (ms : List ((String → List String) × String)) (hl : ∀ m ∈ ms, GoodLabels m.1) (hn : (ms.map (·.2)).Nodup) (S : OpcServer)
    (hnew : ∀ m ∈ ms, m.2 ∉ S.spaces) (hS : ∀ q ∈ S.nodes, q.1 < S.spaces.length + 2) :
    ∃ S' ns, S.registerAll (ms.map fun m => namespaceFromModel m.1 m.2) = .ok (S', ns) ∧ ns.length = ms.length ∧
      (∀ q ∈ S.nodes, q ∈ S'.nodes) ∧
      ∀ i (hi : i < ms.length) (hi' : i < ns.length), ∀ a ∈ groups, ns[i].get a = .ok (tagsOf ms[i].1 (S.spaces.length + i) a) ∧
        ∀ l ∈ visible ms[i].1 a, (S.spaces.length + i + 2, a ++ l) ∈ S'.nodes := by
  induction ms generalizing S with
  | nil => exact ⟨S, [], rfl, rfl, fun _ h => h, by simp⟩
  | cons m ms ih =>
    have hP : Proper (namespaceFromModel m.1 m.2) := C48_default_namespace m.1 m.2 (fun v hv => (hl m List.mem_cons_self v hv).1)
      (fun v hv => (hl m List.mem_cons_self v hv).2)
    obtain ⟨S1, n1, h1, h2, -, h4⟩ := C48_distinct_partial S _ hP (hnew m List.mem_cons_self) hS
    have hsp : S1.spaces = S.spaces ++ [m.2] := by
      have hA := addAll_spec (namespaceFromModel m.1 m.2).entries { S with spaces := S.spaces ++ [m.2] } (S.spaces.length + 2) hP.names (by
        intro e _ hm
        exact absurd (hS _ hm) (Nat.lt_irrefl _))
      unfold OpcServer.fromClient OpcServer.register at h1
      rw [if_neg (show (namespaceFromModel m.1 m.2).name ∉ S.spaces from hnew m List.mem_cons_self)] at h1
      change (OpcServer.addAll { S with spaces := S.spaces ++ [m.2] } _ _ >>= _) = _ at h1
      rw [hA] at h1
      simp only [bind, Except.bind, pure, Except.pure, Except.ok.injEq, Prod.mk.injEq] at h1
      rw [← h1.1]
    rw [List.map_cons, List.nodup_cons] at hn
    obtain ⟨S2, ns, k1, k2, k3, k4⟩ := ih (fun m' hm' => hl m' (List.mem_cons_of_mem _ hm')) hn.2 S1
      (by
        intro m' hm'
        rw [hsp, List.mem_append, List.mem_singleton, not_or]
        exact ⟨hnew m' (List.mem_cons_of_mem _ hm'), fun e => hn.1 (e ▸ List.mem_map_of_mem hm')⟩)
      (by
        intro q hq
        rw [h2, List.mem_append, List.mem_map] at hq
        rw [hsp, List.length_append, List.length_singleton]
        rcases hq with hq | ⟨e, -, rfl⟩
        · have := hS q hq; omega
        · simp)
    refine ⟨S2, n1 :: ns, ?_, by simp [k2], fun q hq => k3 q (by rw [h2]; exact List.mem_append_left _ hq), ?_⟩
    · rw [List.map_cons, OpcServer.registerAll, h1]
      show (OpcServer.registerAll _ _ >>= _) = _
      rw [k1]; rfl
    · intro i hi hi' a ha
      cases i with
      | zero =>
        simp only [List.getElem_cons_zero, Nat.add_zero]
        refine ⟨?_, ?_⟩
        · rw [h4, entries_of_group _ _ _ ha, List.map_map]
          rfl
        · intro l hlv
          apply k3
          rw [h2]
          apply List.mem_append_right
          have : (⟨a, l⟩ : Entry) ∈ (namespaceFromModel m.1 m.2).entries.filter (·.objectnode = a) := by
            rw [entries_of_group _ _ _ ha]
            exact List.mem_map_of_mem hlv
          exact List.mem_map.2 ⟨_, (List.mem_filter.1 this).1, rfl⟩
      | succ i =>
        simp only [List.getElem_cons_succ]
        have := k4 i (by simpa using hi) (by simpa using hi') a ha
        rw [hsp, List.length_append, List.length_singleton, show S.spaces.length + 1 + i = S.spaces.length + (i + 1) by omega] at this
        exact this

theorem tagsOf_mem {labels : String → List String} {i : Nat} {a t : String} (h : t ∈ tagsOf labels i a) :
    ∃ l ∈ visible labels a, t = "ns=" ++ toString (i + 2) ++ ";s=" ++ (a ++ l) := by
  obtain ⟨l, hl, rfl⟩ := List.mem_map.1 h
  exact ⟨l, hl, rfl⟩

theorem visible_good {labels : String → List String} (h : GoodLabels labels) {a : String} (ha : a ∈ groups) {l : String} (hl : l ∈ visible labels a) :
    l.toList.head? = some '[' := (h a ha).2 l (List.mem_filter.1 hl).1

theorem group_no_bracket {a : String} (ha : a ∈ groups) : '[' ∉ a.toList := by
  have : ∀ a ∈ groups, '[' ∉ a.toList := by decide
  exact this a ha

/-- **C93: tags of registered clients.**  Clients with different names, each with the default namespace of its model, are registered one after the other
on a new server.  Every registration succeeds, and then, for every client and every group of variables: `client.namespace[group]` lists the
variables of the group in the order of the model (without those with `default` in their label); these node ids exist on the server and hold
`[0.0]`; none occurs twice, and none belongs to two groups or two clients. -/
theorem C93_tags (ms : List ((String → List String) × String)) (hl : ∀ m ∈ ms, GoodLabels m.1) (hn : (ms.map (·.2)).Nodup) (zero : V) :
    ∃ S ns, (OpcServer.mk [] []).registerAll (ms.map fun m => namespaceFromModel m.1 m.2) = .ok (S, ns) ∧ ns.length = ms.length ∧
      ∀ i (hi : i < ms.length) (hi' : i < ns.length), ∀ a ∈ groups, ns[i].get a = .ok (tagsOf ms[i].1 i a) ∧ (tagsOf ms[i].1 i a).Nodup ∧
        (∀ t ∈ tagsOf ms[i].1 i a, S.values zero t = some [zero]) ∧
        ∀ j (hj : j < ms.length), ∀ b ∈ groups, (i ≠ j ∨ a ≠ b) → ∀ t ∈ tagsOf ms[i].1 i a, t ∉ tagsOf ms[j].1 j b := by
  obtain ⟨S, ns, h1, h2, -, h4⟩ := registerAll_spec ms hl hn ⟨[], []⟩ (by simp) (by simp)
  refine ⟨S, ns, h1, h2, fun i hi hi' a ha => ?_⟩
  obtain ⟨k1, k2⟩ := h4 i hi hi' a ha
  simp only [List.length_nil, Nat.zero_add] at k1 k2
  have hg := hl _ (List.getElem_mem hi)
  refine ⟨k1, ?_, ?_, ?_⟩
  · refine List.Nodup.map_on ?_ (((hg a ha).1).filter _)
    intro l hl' l' hl'' he
    exact (nodeName_inj (group_no_bracket ha) (group_no_bracket ha) (visible_good hg ha hl') (visible_good hg ha hl'') (nodeId_inj he).2).2
  · intro t ht
    obtain ⟨l, hl', rfl⟩ := tagsOf_mem ht
    unfold OpcServer.values
    rw [if_pos]
    rw [List.any_eq_true]
    exact ⟨_, k2 l hl', by simp⟩
  · intro j hj b hb hij t ht ht'
    obtain ⟨l, hl', rfl⟩ := tagsOf_mem ht
    obtain ⟨l', hl'', he⟩ := tagsOf_mem ht'
    obtain ⟨e1, e2⟩ := nodeId_inj he
    have hg' := hl _ (List.getElem_mem hj)
    have := nodeName_inj (group_no_bracket ha) (group_no_bracket hb) (visible_good hg ha hl') (visible_good hg' hb hl'') e2
    rcases hij with h | h
    · exact h (by omega)
    · exact h this.1

/-- writing initial values -/
theorem carries_written {tags : List String} {S : Server V} {v : List V} (hl : v.length = tags.length) (hx : ∀ t ∈ tags, (S t).isSome) (hn : tags.Nodup) :
    Carries (writeToTags tags S v).1 tags v := by
  have e : writeToTags tags S v = writeLoop (tags.zip v) S := by simp [writeToTags, hl]
  obtain ⟨-, h2, -⟩ := writeLoop_spec tags v S hl hx hn
  rw [e]
  exact carries_of hl fun i hi => h2 i hi

section loop
variable {K : Type} [Field K] [LinearOrder K] {d : Dims}

/-- **C93: the documented set-up gives the closed loop.**  Register a simulator (number `i`) and a controller (number `j`), or more clients, with different
names; let the controller write the inputs and read the measurements of the simulator's namespace, and the simulator the other way round; write the
initial input and measurement.  Then the two objects, stepping in turn through the server, do exactly what
`u = mpc.make_step(x); x = simulator.make_step(u)` does, for every number of iterations. -/
theorem C93_closed_loop (ms : List ((String → List String) × String)) (hl : ∀ m ∈ ms, GoodLabels m.1) (hn : (ms.map (·.2)).Nodup)
    (i : Nat) (hi : i < ms.length) (hu : (visible ms[i].1 "u").length = d.nu) (hy : (visible ms[i].1 "y").length = d.ny)
    (EM : MpcEnv K d) (ES : SimEnv K d) (S0 : SolverArgs K d → SolverResult K d EM.nLagr)
    (Ss : List (SolverArgs K d → SolverResult K d EM.nLagr)) (l l' : Loop K d) (hrun : Loop.iterate EM ES Ss l = some l')
    (u0 : Fin d.nu → K) (hx : l.x.length = d.ny) :
    ∃ S ns utags ytags, (OpcServer.mk [] []).registerAll (ms.map fun m => namespaceFromModel m.1 m.2) = .ok (S, ns) ∧
      ∃ hi' : i < ns.length, ns[i].get "u" = .ok utags ∧ ns[i].get "y" = .ok ytags ∧
      let S1 := (writeToTags ytags (S.values 0) l.x).1
      let S2 := (writeToTags utags S1 (List.ofFn u0)).1
      (writeToTags ytags (S.values 0) l.x).2 = none ∧ (writeToTags utags S1 (List.ofFn u0)).2 = none ∧
      (runSteps (loopClients EM ES S0 utags ytags) S2 (loopObjs l.mpc Ss l.sim) ((List.replicate Ss.length [true, false]).flatten)).2 =
        loopObjs l'.mpc [] l'.sim ∧
      readFromTags ytags
        (runSteps (loopClients EM ES S0 utags ytags) S2 (loopObjs l.mpc Ss l.sim) ((List.replicate Ss.length [true, false]).flatten)).1 = .ok l'.x := by
  obtain ⟨S, ns, h1, h2, h3⟩ := C93_tags ms hl hn (0 : K)
  have hi' : i < ns.length := by rw [h2]; exact hi
  obtain ⟨a1, a2, a3, a4⟩ := h3 i hi hi' "u" (by decide)
  obtain ⟨b1, b2, b3, b4⟩ := h3 i hi hi' "y" (by decide)
  refine ⟨S, ns, _, _, h1, hi', a1, b1, ?_⟩
  generalize hut : tagsOf ms[i].1 i "u" = utags at *
  generalize hyt : tagsOf ms[i].1 i "y" = ytags at *
  have hul : utags.length = d.nu := by rw [← hut, ← hu]; simp [tagsOf]
  have hyl : ytags.length = d.ny := by rw [← hyt, ← hy]; simp [tagsOf]
  have hd : ∀ t ∈ utags, t ∉ ytags := by
    intro t ht
    rw [← hyt]
    exact a4 i hi "y" (by decide) (Or.inr (by decide)) t ht
  have hyS : ∀ t ∈ ytags, (S.values (0 : K) t).isSome := fun t ht => by rw [b3 t ht]; rfl
  have c1 := C47_round_trip_partial ytags (S.values (0 : K)) l.x (hx.trans hyl.symm) hyS b2
  have hS1 : ∀ t ∈ utags, ((writeToTags ytags (S.values (0 : K)) l.x).1 t).isSome := fun t ht => by
    rw [c1.2.2 t (hd t ht), a3 t ht]; rfl
  have c2 := C47_round_trip_partial utags (writeToTags ytags (S.values (0 : K)) l.x).1 (List.ofFn u0) (by rw [List.length_ofFn, hul]) hS1 a2
  have hcy : Carries (writeToTags utags (writeToTags ytags (S.values (0 : K)) l.x).1 (List.ofFn u0)).1 ytags l.x := by
    have := carries_written (hx.trans hyl.symm) hyS b2
    refine carries_of this.length fun k hk => ?_
    rw [c2.2.2 _ (fun h => hd _ h (List.getElem_mem hk))]
    exact this.get k hk
  have hcu := carries_written (S := (writeToTags ytags (S.values (0 : K)) l.x).1) (v := List.ofFn u0) (by rw [List.length_ofFn, hul]) hS1 a2
  obtain ⟨r1, r2⟩ := C88_mpc_loop EM ES S0 utags ytags a2 b2 hd hul hyl Ss l l' hrun _ _ hcy hcu
  exact ⟨c1.1, c2.1, r1, r2⟩

end loop

/-- **C93 fails for two clients of the same name** (for example two objects with the same `ClientOpts`): the second registration raises as soon as the two
namespaces have a variable in common. -/
theorem C93_fails_same_name (labels labels' : String → List String) (name a l : String) (hl : GoodLabels labels) (ha : a ∈ groups)
    (h1 : l ∈ visible labels a) (h2 : l ∈ visible labels' a) :
    ∃ e, (OpcServer.mk [] []).registerAll [namespaceFromModel labels name, namespaceFromModel labels' name] = .error e := by
  have hP : Proper (namespaceFromModel labels name) := C48_default_namespace labels name (fun v hv => (hl v hv).1) (fun v hv => (hl v hv).2)
  have hA := addAll_spec (namespaceFromModel labels name).entries { spaces := [name], nodes := [] } 2 hP.names (by simp)
  have hf : (OpcServer.mk [] []).fromClient (namespaceFromModel labels name) =
      .ok ({ spaces := [name], nodes := (namespaceFromModel labels name).entries.map fun e => (2, e.objectnode ++ e.variableName) },
        { namespaceFromModel labels name with
          entries := (namespaceFromModel labels name).entries.map fun e => { e with variableName := e.objectnode ++ e.variableName }
          index := some 2 }) := by
    unfold OpcServer.fromClient OpcServer.register
    rw [if_neg (by simp)]
    show (OpcServer.addAll { spaces := [name], nodes := [] } 2 _ >>= _) = _
    rw [hA]
    rfl
  have hmem : ∀ (lb : String → List String), l ∈ visible lb a → (⟨a, l⟩ : Entry) ∈ (namespaceFromModel lb name).entries := by
    intro lb h
    have : (⟨a, l⟩ : Entry) ∈ (namespaceFromModel lb name).entries.filter (·.objectnode = a) := by
      rw [entries_of_group _ _ _ ha]
      exact List.mem_map_of_mem h
    exact (List.mem_filter.1 this).1
  have hloop : ∀ (es : List Entry) (S : OpcServer) (e : Entry), e ∈ es → (2, e.objectnode ++ e.variableName) ∈ S.nodes →
      ∃ err, S.addAll 2 es = .error err := by
    intro es
    induction es with
    | nil => intro S e he; simp at he
    | cons e0 es ih =>
      intro S e he hS
      rw [OpcServer.addAll]
      unfold OpcServer.addVariable
      dsimp only
      split_ifs with h0
      · exact ⟨_, rfl⟩
      · rcases List.mem_cons.1 he with rfl | he
        · exact absurd hS h0
        · obtain ⟨err, herr⟩ := ih { S with nodes := S.nodes ++ [(2, e0.objectnode ++ e0.variableName)] } e he (List.mem_append_left _ hS)
          refine ⟨err, ?_⟩
          show (OpcServer.addAll _ 2 es >>= _) = _
          rw [herr]; rfl
  obtain ⟨err, herr⟩ := hloop (namespaceFromModel labels' name).entries
    { spaces := [name], nodes := (namespaceFromModel labels name).entries.map fun e => (2, e.objectnode ++ e.variableName) } ⟨a, l⟩ (hmem labels' h2)
    (List.mem_map.2 ⟨_, hmem labels h1, rfl⟩)
  refine ⟨err, ?_⟩
  rw [OpcServer.registerAll, hf]
  show (OpcServer.registerAll _ _ >>= _) = _
  have : OpcServer.registerAll { spaces := [name], nodes := (namespaceFromModel labels name).entries.map fun e => (2, e.objectnode ++ e.variableName) }
      [namespaceFromModel labels' name] = .error err := by
    rw [OpcServer.registerAll]
    have : OpcServer.fromClient { spaces := [name], nodes := (namespaceFromModel labels name).entries.map fun e => (2, e.objectnode ++ e.variableName) }
        (namespaceFromModel labels' name) = .error err := by
      unfold OpcServer.fromClient OpcServer.register
      rw [if_pos (by simp [namespaceFromModel])]
      have hidx : List.idxOf (namespaceFromModel labels' name).name [name] = 0 := by simp [namespaceFromModel]
      show (OpcServer.addAll _ (List.idxOf (namespaceFromModel labels' name).name [name] + 2) _ >>= _) = _
      rw [hidx]
      show (OpcServer.addAll _ 2 _ >>= _) = _
      rw [herr]; rfl
    rw [this]; rfl
  rw [this]; rfl

/-- the labels of a model with one state that is measured and one input -/
def setupLabels : String → List String
  | "x" => ["[a,0]"]
  | "y" => ["[a,0]"]
  | "u" => ["[q,0]"]
  | _ => []

theorem setupLabels_good : GoodLabels setupLabels := by
  unfold GoodLabels
  decide

/-- Two clients of this model, "sim" and "mpc": the hypotheses of `C93_tags` hold, and these are the tags. -/
example : (∀ m ∈ [(setupLabels, "sim"), (setupLabels, "mpc")], GoodLabels m.1) ∧ ([(setupLabels, "sim"), (setupLabels, "mpc")].map (·.2)).Nodup ∧
    tagsOf setupLabels 0 "u" = ["ns=2;s=u[q,0]"] ∧ tagsOf setupLabels 1 "u" = ["ns=3;s=u[q,0]"] := by
  refine ⟨by simp [setupLabels_good], by decide, ?_, ?_⟩
  · rw [tagsOf, visible_eq]; decide
  · rw [tagsOf, visible_eq]; decide

/-- non-vacuity of `C93_closed_loop`: the loop of C16, three iterations -/
example : ∃ S ns utags ytags, (OpcServer.mk [] []).registerAll [namespaceFromModel setupLabels "sim", namespaceFromModel setupLabels "mpc"] = .ok (S, ns) ∧
    utags = ["ns=2;s=u[q,0]"] ∧ ∃ S2, readFromTags ytags (runSteps (loopClients clMpc clSim clSolver utags ytags) S2
      (loopObjs (clMpc.fresh 0 (fun _ => 8) (fun _ => 0) (fun i => i.elim0)) [clSolver, clSolver, clSolver]
        (SimSt.fresh (fun _ => 8) (fun i => i.elim0))) ((List.replicate 3 [true, false]).flatten)).1 = .ok [1] := by
  have hrun : ∃ l', Loop.iterate clMpc clSim [clSolver, clSolver, clSolver]
      ⟨clMpc.fresh 0 (fun _ => 8) (fun _ => 0) (fun i => i.elim0), SimSt.fresh (fun _ => 8) (fun i => i.elim0), [8]⟩ = some l' ∧ l'.x = [1] := by
    have h : ((Loop.iterate clMpc clSim [clSolver, clSolver, clSolver]
      ⟨clMpc.fresh 0 (fun _ => 8) (fun _ => 0) (fun i => i.elim0), SimSt.fresh (fun _ => 8) (fun i => i.elim0), [8]⟩).map
        fun l => l.x) = some [1] := by decide +kernel
    obtain ⟨l', h1, h2⟩ := Option.map_eq_some_iff.1 h
    exact ⟨l', h1, h2⟩
  obtain ⟨l', h1, h2⟩ := hrun
  have hv : ∀ a, visible setupLabels a = (setupLabels a).filter fun l => !hasDefault l := visible_eq _
  have hok : ∀ m ∈ [(setupLabels, "sim"), (setupLabels, "mpc")], GoodLabels m.1 := by simp [setupLabels_good]
  obtain ⟨S, ns, utags, ytags, k1, hi', k2, k3, k4, k5, k6, k7⟩ := C93_closed_loop [(setupLabels, "sim"), (setupLabels, "mpc")]
    hok (by decide) 0 (by decide)
    (by show (visible setupLabels "u").length = _; rw [hv]; decide) (by show (visible setupLabels "y").length = _; rw [hv]; decide) clMpc clSim clSolver [clSolver, clSolver, clSolver] _ l' h1 (fun _ => 0) rfl
  refine ⟨S, ns, utags, ytags, k1, ?_, _, h2 ▸ k7⟩
  obtain ⟨S', ns', j1, j2, j3⟩ := C93_tags [(setupLabels, "sim"), (setupLabels, "mpc")] hok (by decide) (0 : ℚ)
  rw [k1] at j1
  cases j1
  have := (j3 0 (by decide) hi' "u" (by decide)).1
  rw [k2] at this
  cases this
  rw [tagsOf]
  show List.map _ (visible setupLabels "u") = _
  rw [hv]; decide

end DoMpc.Opc
