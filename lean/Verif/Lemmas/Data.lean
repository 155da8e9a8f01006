import Verif.Model.Data
namespace DoMpc
variable {K : Type}

theorem Data.update1_fields (D : Data K) (k : String) (v : PyVal K) : (D.update1 k v).1.fields = D.fields := by
  unfold Data.update1
  split
  · rfl
  · split
    · rfl
    · split <;> rfl

theorem Data.update1_queries (D : Data K) (k : String) (v : PyVal K) : (D.update1 k v).1.queries = D.queries := by
  unfold Data.update1
  split
  · rfl
  · split
    · rfl
    · split <;> rfl

theorem Data.update_fields (D : Data K) (kw : List (String × PyVal K)) : (D.update kw).1.fields = D.fields := by
  induction kw generalizing D with
  | nil => rfl
  | cons a t ih =>
    obtain ⟨k, v⟩ := a
    have h := D.update1_fields k v
    unfold Data.update
    split
    · rename_i D' heq; rw [ih, ← h, heq]
    · rename_i D' e heq; rw [← h, heq]

theorem Data.update_queries (D : Data K) (kw : List (String × PyVal K)) : (D.update kw).1.queries = D.queries := by
  induction kw generalizing D with
  | nil => rfl
  | cons a t ih =>
    obtain ⟨k, v⟩ := a
    have h := D.update1_queries k v
    unfold Data.update
    split
    · rename_i D' heq; rw [ih, ← h, heq]
    · rename_i D' e heq; rw [← h, heq]

theorem Data.update1_ok (D : Data K) (k : String) (row : List K) (h : D.width k = some row.length) :
    D.update1 k (.arr row) = ({ D with rows := fun k' => if k' = k then D.rows k' ++ [row] else D.rows k' }, none) := by
  unfold Data.update1
  rw [h]; simp

theorem Data.update_cons_ok (D : Data K) (k : String) (row : List K) (t : List (String × PyVal K))
    (h : D.width k = some row.length) :
    D.update ((k, .arr row) :: t) =
      Data.update { D with rows := fun k' => if k' = k then D.rows k' ++ [row] else D.rows k' } t := by
  rw [Data.update, D.update1_ok k row h]

theorem Data.update1_err (D : Data K) (k : String) (v : PyVal K) : (D.update1 k v).2 ≠ none → (D.update1 k v).1 = D := by
  unfold Data.update1
  cases D.width k with
  | none => simp
  | some n =>
    cases v with
    | other => simp
    | arr row => simp only; split <;> simp

theorem Data.update1_none_iff (D : Data K) (k : String) (v : PyVal K) :
    (D.update1 k v).2 = none ↔ ∃ row, v = .arr row ∧ D.width k = some row.length := by
  unfold Data.update1
  constructor
  · intro h
    split at h
    · simp at h
    · rename_i n hn
      split at h
      · simp at h
      · rename_i row
        split at h
        · exact ⟨row, rfl, by rw [hn]; congr 1; omega⟩
        · simp at h
  · rintro ⟨row, rfl, hw⟩
    rw [hw]; simp

/-- the logs agree on all fields -/
def Data.Same (D1 D2 : Data K) : Prop := D1.fields = D2.fields ∧ ∀ k, (D1.width k).isSome → D1.rows k = D2.rows k

theorem Data.Same.update {D1 D2 : Data K} (h : D1.Same D2) (kw : List (String × PyVal K)) :
    (D1.update kw).1.Same (D2.update kw).1 ∧ (D1.update kw).2 = (D2.update kw).2 := by
  induction kw generalizing D1 D2 with
  | nil => exact ⟨h, rfl⟩
  | cons a t ih =>
    obtain ⟨k, v⟩ := a
    have hw : D2.width k = D1.width k := by unfold Data.width; rw [h.1]
    have h1 : (D1.update1 k v).1.Same (D2.update1 k v).1 ∧ (D1.update1 k v).2 = (D2.update1 k v).2 := by
      unfold Data.update1
      rw [hw]
      cases D1.width k with
      | none => exact ⟨h, rfl⟩
      | some n =>
        cases v with
        | other => exact ⟨h, rfl⟩
        | arr row =>
          simp only
          split
          · refine ⟨⟨h.1, fun k' hk' => ?_⟩, rfl⟩
            simp only
            rw [h.2 k' hk']
          · exact ⟨h, rfl⟩
    cases e1 : D1.update1 k v with
    | mk D1' r1 =>
      cases e2 : D2.update1 k v with
      | mk D2' r2 =>
        rw [e1, e2] at h1
        obtain ⟨h1, h2⟩ := h1
        simp only at h2
        subst h2
        unfold Data.update
        rw [e1, e2]
        cases r1 with
        | none => exact ih h1
        | some e => exact ⟨h1, rfl⟩


end DoMpc
