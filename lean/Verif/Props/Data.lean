import Verif.Lemmas.Data

/-! # Property C17: the data container -/
namespace DoMpc
variable {K : Type}

/-- The rows that the key word arguments `kw` supply for field `k`, in order. -/
def Spec.given (kw : List (String × PyVal K)) (k : String) : List (List K) :=
  kw.filterMap fun a => match a with
    | (k', .arr row) => if k' = k then some row else none
    | _ => none

/-- **C17** success: `update` succeeds iff every key is a field and every value a vector of the field's width; then each field gets
exactly the given rows appended and nothing else changes. -/
theorem C17_update_ok_iff (D : Data K) (kw : List (String × PyVal K)) :
    (D.update kw).2 = none ↔ ∀ a ∈ kw, ∃ row, a.2 = .arr row ∧ D.width a.1 = some row.length := by
  induction kw generalizing D with
  | nil => simp [Data.update]
  | cons a t ih =>
    obtain ⟨k, v⟩ := a
    have hf := D.update1_fields k v
    have hn := D.update1_none_iff k v
    unfold Data.update
    split
    · rename_i D' heq
      rw [heq] at hf hn
      have hw : ∀ k, D'.width k = D.width k := fun k => by unfold Data.width; rw [hf]
      rw [ih]
      simp only [List.forall_mem_cons, hw]
      simp only [true_iff] at hn
      exact ⟨fun h => ⟨hn, h⟩, fun h => h.2⟩
    · rename_i D' e heq
      rw [heq] at hn
      constructor
      · intro h; simp at h
      · intro h; exact absurd (hn.mpr (h (k, v) (by simp))) (by simp)

theorem C17_update_appends (D : Data K) (kw : List (String × PyVal K)) (h : (D.update kw).2 = none) (k : String) :
    (D.update kw).1.rows k = D.rows k ++ Spec.given kw k := by
  induction kw generalizing D with
  | nil => simp [Data.update, Spec.given]
  | cons a t ih =>
    obtain ⟨k', v⟩ := a
    have h' := (C17_update_ok_iff D _).mp h
    obtain ⟨row, hv, hw⟩ := h' (k', v) (by simp)
    simp only at hv hw
    subst hv
    have e1 := D.update1_ok k' row hw
    have e2 := D.update_cons_ok k' row t hw
    rw [e2] at h ⊢
    rw [ih _ h]
    simp only [Spec.given, List.filterMap_cons]
    by_cases hk : k' = k
    · subst hk; simp
    · rw [if_neg (fun e => hk e.symm)]; simp [hk]

/-- **C17** append-only, also in case of an error: whatever happens, the rows a field had before stay in place, in order, and at
most the supplied rows are added after them; field names and widths never change.  A field that is not named is untouched. -/
theorem C17_update_append_only (D : Data K) (kw : List (String × PyVal K)) (k : String) :
    (∃ n, (D.update kw).1.rows k = D.rows k ++ (Spec.given kw k).take n) ∧ (D.update kw).1.fields = D.fields ∧
    ((∀ a ∈ kw, a.1 ≠ k) → (D.update kw).1.rows k = D.rows k) := by
  have main : ∃ n, (D.update kw).1.rows k = D.rows k ++ (Spec.given kw k).take n := by
    induction kw generalizing D with
    | nil => exact ⟨0, by simp [Data.update]⟩
    | cons a t ih =>
      obtain ⟨k', v⟩ := a
      by_cases hok : (D.update1 k' v).2 = none
      · obtain ⟨row, hv, hw⟩ := (D.update1_none_iff k' v).mp hok
        subst hv
        have e1 := D.update1_ok k' row hw
        have e2 := D.update_cons_ok k' row t hw
        rw [e2]
        obtain ⟨n, hn⟩ := ih { D with rows := fun k'' => if k'' = k' then D.rows k'' ++ [row] else D.rows k'' }
        rw [hn]
        by_cases hk : k' = k
        · subst hk
          exact ⟨n + 1, by simp [Spec.given]⟩
        · refine ⟨n, ?_⟩
          simp only
          rw [if_neg (fun e => hk e.symm)]
          simp [Spec.given, hk]
      · refine ⟨0, ?_⟩
        have : (D.update ((k', v) :: t)).1.rows k = (D.update1 k' v).1.rows k := by
          unfold Data.update
          split
          · rename_i D' heq; rw [heq] at hok; exact absurd rfl hok
          · rename_i D' e heq; rw [heq]
        rw [this]
        rw [D.update1_err k' v hok]; simp
  refine ⟨main, D.update_fields kw, ?_⟩
  intro hne
  obtain ⟨n, hn⟩ := main
  have : Spec.given kw k = [] := by
    unfold Spec.given
    rw [List.filterMap_eq_nil_iff]
    rintro ⟨k', v⟩ ha
    have := hne _ ha
    cases v <;> simp_all
  rw [hn, this]; simp

/-- every stored row has the width of its field -/
def Data.Wellformed (D : Data K) : Prop := ∀ k n, D.width k = some n → ∀ r ∈ D.rows k, r.length = n

/-- **C17** widths: the container starts with well-formed (empty) arrays, and every update, successful or not, keeps every row of
every field at the configured width. -/
theorem C17_widths (fields : List (String × Nat)) (history : List (List (String × PyVal K))) :
    (history.foldl (fun D kw => (D.update kw).1) (Data.new fields)).Wellformed := by
  have one : ∀ (D : Data K) k v, D.Wellformed → (D.update1 k v).1.Wellformed := by
    intro D k v h
    unfold Data.update1
    split
    · exact h
    · rename_i n hn
      split
      · exact h
      · split
        · rename_i row hl
          intro k' n' hw r hr
          simp only at hr
          by_cases hk : k' = k
          · subst hk
            rw [if_pos rfl] at hr
            have hw' : D.width k' = some n' := hw
            rw [hw'] at hn
            rcases List.mem_append.mp hr with hr | hr
            · exact h k' n' hw' r hr
            · simp only [List.mem_singleton] at hr
              subst hr
              simp only [Option.some.injEq] at hn
              omega
          · rw [if_neg hk] at hr
            exact h k' n' hw r hr
        · exact h
  have many : ∀ (kw : List (String × PyVal K)) (D : Data K), D.Wellformed → (D.update kw).1.Wellformed := by
    intro kw
    induction kw with
    | nil => intro D h; exact h
    | cons a t ih =>
      intro D h
      obtain ⟨k, v⟩ := a
      have h1 := one D k v h
      unfold Data.update
      split
      · rename_i D' heq; rw [heq] at h1; exact ih _ h1
      · rename_i D' e heq; rw [heq] at h1; exact h1
  have all : ∀ (hs : List (List (String × PyVal K))) (D : Data K), D.Wellformed →
      (hs.foldl (fun D kw => (D.update kw).1) D).Wellformed := by
    intro hs
    induction hs with
    | nil => intro D h; exact h
    | cons a t ih => intro D h; exact ih _ (many a D h)
  apply all
  intro k n _ r hr
  simp [Data.new] at hr

/-- Operations on a data container. -/
inductive DataOp (K : Type) where
  | update (kw : List (String × PyVal K))
  | get (field : String) (ind : List String)
  | init

/-- effect of an operation on the container -/
def DataOp.run [Inhabited K] (pw : String → List String → Except String (List Nat)) (D : Data K) : DataOp K → Data K
  | .update kw => (D.update kw).1
  | .get f i => (D.get pw f i).1
  | .init => D.initStorage

/-- **C17** queries: after any history of updates, queries and resets, a query of a field returns exactly the selected columns of the
stored rows in the order they were stored: the index cache never shows; unknown fields and unknown indices are refused, and a
query never changes the stored rows. -/
theorem C17_query [Inhabited K] (pw : String → List String → Except String (List Nat)) (fields : List (String × Nat))
    (ops : List (DataOp K)) (f : String) (ind : List String) :
    let D := ops.foldl (DataOp.run pw) (Data.new fields)
    (D.get pw f ind).2 =
      (if (D.width f).isNone then .error "AssertionError" else
        if ind = [] then .ok (D.rows f) else
          (pw f ind).map fun cols => (D.rows f).map fun r => cols.map fun j => r.getD j default) ∧
    (D.get pw f ind).1.rows = D.rows := by
  have inv : ∀ (ops : List (DataOp K)) (D : Data K), (∀ q cols, D.queries.lookup q = some cols → pw q.1 q.2 = .ok cols) →
      (∀ q cols, (ops.foldl (DataOp.run pw) D).queries.lookup q = some cols → pw q.1 q.2 = .ok cols) := by
    intro ops
    induction ops with
    | nil => intro D h; exact h
    | cons op t ih =>
      intro D h
      apply ih
      cases op with
      | update kw => simp only [DataOp.run]; rw [D.update_queries]; exact h
      | init => exact h
      | get f i =>
        simp only [DataOp.run]
        unfold Data.get
        split
        · exact h
        · split
          · exact h
          · split
            · exact h
            · rename_i hnone
              split
              · exact h
              · rename_i cols hcols
                intro q c hq
                simp only at hq
                rw [List.lookup_append] at hq
                cases hlk : D.queries.lookup q with
                | some c' => rw [hlk] at hq; simp at hq; subst hq; exact h q c' hlk
                | none =>
                  rw [hlk] at hq
                  simp only [Option.none_or] at hq
                  by_cases hqe : q = (f, i)
                  · subst hqe; simp [List.lookup] at hq; subst hq; exact hcols
                  · have : (q == (f, i)) = false := by simpa using hqe
                    simp [List.lookup, this] at hq
  intro D
  have hinv := inv ops (Data.new fields) (by intro q c h; simp [Data.new] at h)
  constructor
  · unfold Data.get
    split
    · rfl
    · cases ind with
      | nil => simp
      | cons a t =>
        simp only [reduceCtorEq, if_false]
        cases hlk : D.queries.lookup (f, a :: t) with
        | some cols =>
          have : pw f (a :: t) = .ok cols := hinv _ _ hlk
          simp only [this]; rfl
        | none =>
          cases hp : pw f (a :: t) <;> rfl
  · unfold Data.get
    split
    · rfl
    · cases ind with
      | nil => rfl
      | cons a t =>
        cases hlk : D.queries.lookup (f, a :: t) with
        | some cols => rfl
        | none => cases hp : pw f (a :: t) <;> rfl

/-- non-vacuity: two fields, an accepted update, a rejected one -/
example :
    let D : Data Int := Data.new [("_x", 2), ("_u", 1)]
    (D.update [("_x", .arr [1, 2]), ("_u", .arr [3])]).2 = none ∧
    (D.update [("_x", .arr [1, 2]), ("_q", .arr [3])]).2 = some "AssertionError" ∧
    (D.update [("_x", .arr [1, 2]), ("_q", .arr [3])]).1.rows "_x" = [[1, 2]] := by decide +kernel

end DoMpc
