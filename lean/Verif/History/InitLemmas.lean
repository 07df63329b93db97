import Verif.History.Frame
/-! The initial history. -/
namespace Verif.History

/-- The column list contains all of `libE_fields` (true for every list built in history.py:55). -/
def HasLibCols (cols : List (Field × Shape)) : Prop := ∀ f ∈ libEFields, f ∈ cols.map (·.1)

theorem init_cols_lib (cols L H0 safe) (hc : HasLibCols cols) :
    ∀ f ∈ libEFields, f ∈ (init cols L H0 safe).fields := by
  intro f hf
  have := hc f hf
  unfold init Hist.fields
  simp only
  split
  · exact this
  · by_cases h : f ∈ H0.cols.map (·.1)
    · rw [List.map_append, List.mem_append]; exact Or.inl h
    · rw [List.map_append, List.mem_append]
      right
      obtain ⟨c, hcm, rfl⟩ := List.mem_map.1 this
      rw [List.mem_map]
      refine ⟨c, ?_, rfl⟩
      unfold newCols
      rw [List.mem_filter]
      exact ⟨hcm, by simpa using h⟩

theorem init_length (cols L H0 safe) : (init cols L H0 safe).rows.length = H0.rows.length + L := by
  unfold init
  simp only
  by_cases h : L = 0 <;> simp [h]

theorem init_index (cols L H0 safe) : (init cols L H0 safe).index = H0.rows.length := rfl
theorem init_safe (cols L H0 safe) : (init cols L H0 safe).safeMode = safe := rfl

/-- For `L > 0` the first rows are the `H0` rows. -/
theorem init_get_h0 (cols L H0 safe) (hL : 0 < L) (i : Nat) (r : Row) (h : H0.rows[i]? = some r) :
    (init cols L H0 safe).rows[i]? = some (h0Row (init cols L H0 safe).cols H0 i r) := by
  have hi : i < H0.rows.length := by
    rcases Nat.lt_or_ge i H0.rows.length with h1 | h1
    · exact h1
    · rw [List.getElem?_eq_none h1] at h; cases h
  unfold init
  simp only
  have : ¬ L = 0 := by omega
  simp only [this, if_false]
  rw [List.getElem?_append_left (by simpa using hi)]
  simp [h]

theorem init_get_fresh (cols L H0 safe) (i : Nat) (h : H0.rows.length ≤ i) (h2 : i < H0.rows.length + L) :
    (init cols L H0 safe).rows[i]? = some (freshRow (init cols L H0 safe).cols) := by
  have hL : ¬ L = 0 := by omega
  unfold init
  simp only [hL, if_false]
  rw [List.getElem?_append_right (by simpa using h), List.getElem?_replicate, if_pos (by simp; omega)]

theorem freshen_other (cols : List (Field × Shape)) (r : Row) (f : Field) (h1 : f ≠ .simId) (h2 : f ≠ .uid)
    (h3 : f ≠ .simStartedTime) (h4 : f ≠ .genInformedTime) (h5 : f ≠ .resourceSets) :
    freshen cols r f = r f := by
  unfold freshen
  split <;> split <;> simp [Row.set, h1, h2, h3, h4, h5]

theorem zeroRow_not_mem (cols : List (Field × Shape)) (f : Field) (h : f ∉ cols.map (·.1)) :
    zeroRow cols f = .s 0 := by
  unfold zeroRow
  have : cols.find? (fun c => c.1 = f) = none := by
    rw [List.find?_eq_none]
    intro c hc
    simp only [decide_eq_true_eq]
    intro e
    exact h (List.mem_map.2 ⟨c, hc, e⟩)
  rw [this]

/-- The bookkeeping columns are scalar (fields_keys.py:5-19), in every column list. -/
def LibScalar (cols : List (Field × Shape)) : Prop := ∀ c ∈ cols, c.1 ∈ libEFields → c.2 = .scalar

theorem zeroRow_lib (cols : List (Field × Shape)) (hs : LibScalar cols) (f : Field) (hf : f ∈ libEFields) :
    zeroRow cols f = .s 0 := by
  unfold zeroRow
  split
  · rename_i c hc
    have h1 := List.mem_of_find?_eq_some hc
    have h2 := List.find?_some hc
    simp only [decide_eq_true_eq] at h2
    rw [hs c h1 (h2 ▸ hf)]; rfl
  · rfl

theorem freshRow_lib (cols : List (Field × Shape)) (hs : LibScalar cols) (f : Field) (hf : f ∈ libEFields)
    (h1 : f ≠ .simId) (h3 : f ≠ .simStartedTime) (h4 : f ≠ .genInformedTime) :
    freshRow cols f = .s 0 := by
  unfold freshRow
  rw [freshen_other _ _ _ h1 _ h3 h4, zeroRow_lib cols hs f hf]
  · intro e; subst e; simp [libEFields] at hf
  · intro e; subst e; simp [libEFields] at hf

theorem idInv_init (cols L H0 safe) (hc : HasLibCols cols) (hL : 0 < L ∨ H0.rows = [])
    (hH0 : .simId ∈ H0.fields → ∀ (i : Nat) (r : Row), H0.rows[i]? = some r → r .simId = .s i) :
    IdInv (init cols L H0 safe) := by
  refine ⟨?_, init_cols_lib _ _ _ _ hc _ (by simp [libEFields]), ?_, ?_⟩
  · rw [init_length, init_index]; omega
  · intro i hi
    rw [init_index] at hi
    have hL : 0 < L := by
      rcases hL with h | h
      · exact h
      · rw [h] at hi; simp at hi
    unfold cell
    rw [init_get_h0 cols L H0 safe hL i H0.rows[i] (List.getElem?_eq_getElem hi)]
    simp only [Option.map_some, Option.some.injEq]
    unfold h0Row
    by_cases h : Field.simId ∈ H0.fields
    · have h3 := hH0 h i H0.rows[i] (List.getElem?_eq_getElem hi)
      simp only [h, not_true, if_false]
      split
      · simp [Row.set, h, h3]
      · split <;> simp [Row.set, h, h3]
    · simp [h]
  · intro i hi1 hi2
    rw [init_index] at hi1
    rw [init_length] at hi2
    unfold cell
    rw [init_get_fresh cols L H0 safe i hi1 hi2]
    simp

end Verif.History
