import Verif.History.Frame
/-! Which rows an operation can change, whether it succeeds or not. -/
namespace Verif.History

/-- Rows an operation may change (spec level): the rows it names; a return of a generator without `sim_id` the rows from
`index` on. -/
def Op.touches (h : Hist) (i : Nat) : Op → Prop
  | .simReturn rows _ _ _ | .giveSim rows _ _ _ | .giveGen rows _ | .requestCancel rows | .markKill rows => i ∈ rows
  | .genReturn _ d _ _ => (Field.simId ∉ d.fields ∧ h.index ≤ i) ∨ (Field.simId ∈ d.fields ∧ ∃ r ∈ d.rows, r .simId = .s i)

theorem get_genFinish {h : Hist} {w : Nat} {d : Rec} {ts t : Int} {inds : List Nat} {n i : Nat} (hi : i ∉ inds) :
    (genFinish h w d ts t inds n).1.rows[i]? = h.rows[i]? := by
  have h1 := get_genColumns_not_mem h.safeMode (inds.zip d.rows) d.cols h.rows i (fun p hp he => hi (he ▸ (List.of_mem_zip hp).1))
  unfold genFinish
  split
  · rename_i rows e heq; rw [heq] at h1; exact h1
  · rename_i rows heq
    rw [heq] at h1
    simp only
    rw [get_updAll_not_mem _ _ _ _ (fun hm => hi (List.mem_filter.mp hm).1)]
    exact h1

theorem get_simRows {t : Int} {d : Option Rec} {j : Nat} {inds : List Nat} {h : Hist} {i : Nat} (hi : i ∉ inds) :
    (simRows t d j inds h).1.rows[i]? = h.rows[i]? := by
  apply simRows_rel (fun h h' => h'.rows[i]? = h.rows[i]?) (S := inds)
  · intro h; rfl
  · intro a b c h1 h2; rw [h2, h1]
  · intro h j ind r r' e hin _ _
    simp only
    rw [List.getElem?_set_ne (fun he => hi (by rw [← he]; exact hin))]
  · intro h j ind r r' hin _ _
    simp only
    rw [List.getElem?_set_ne (fun he => hi (by rw [← he]; exact hin))]
  · exact fun _ h => h

theorem resolveAll_mem {n : Nat} {ids : List Int} {inds : List Nat} (hn : ∀ x ∈ ids, 0 ≤ x) (h : resolveAll n ids = some inds)
    {i : Nat} (hi : i ∈ inds) : (i : Int) ∈ ids := by
  unfold resolveAll at h
  induction ids generalizing inds with
  | nil => simp at h; subst h; simp at hi
  | cons x xs ih =>
    simp only [List.mapM_cons, Option.bind_eq_bind, Option.bind_eq_some_iff] at h
    obtain ⟨a, ha, bs, hbs, hc⟩ := h
    simp only [Option.pure_def, Option.some.injEq] at hc
    subst hc
    rcases List.mem_cons.mp hi with rfl | hi
    · have h0 := hn x List.mem_cons_self
      unfold resolve at ha
      simp at ha ⊢
      grind
    · exact List.mem_cons_of_mem _ (ih (fun y hy => hn y (List.mem_cons_of_mem _ hy)) hbs hi)

/-- Rows that an operation does not touch keep the values of all their columns. -/
theorem apply_row {h : Hist} {op : Op} (hs : IdSafe op) {i : Nat} (ht : ¬ op.touches h i) (hi : i < h.rows.length) {f : Field}
    (hf : f ∈ h.fields) : cell (apply h op).1.rows i f = cell h.rows i f := by
  cases op with
  | simReturn inds d t k =>
    obtain ⟨e, le, heq, _⟩ := updateF_shape h inds d t k
    simp only [apply]
    rw [heq]
    simp only
    rw [show cell (simRows t d 0 inds (preSim h d)).1.rows i f = cell (preSim h d).rows i f from by unfold cell; rw [get_simRows ht]]
    exact cell_preSim d hf i
  | giveSim inds w t k =>
    simp only [apply]
    unfold updateXOut
    split
    · rfl
    · simp only
      have : ∀ g : Row → Row, cell (updAll g h.rows inds) i f = cell h.rows i f := by
        intro g; unfold cell; rw [get_updAll_not_mem _ _ _ _ ht]
      split
      · split <;> exact this _
      · exact this _
  | giveGen inds t =>
    simp only [apply]
    unfold updateToGen
    have hall : ∀ (g : Row → Row) (rows : List Row) (l : List Nat), (∀ j ∈ l, j ∈ inds) → cell (updAll g rows l) i f = cell rows i f := by
      intro g rows l hl; unfold cell; rw [get_updAll_not_mem _ _ _ _ (fun hm => ht (hl i hm))]
    split
    · rfl
    · split
      · rfl
      · simp only
        rw [hall _ _ _ (fun j hj => hj)]
        split
        · rw [hall _ _ _ (fun j hj => hj)]
        · split
          · rw [hall _ _ _ (fun j hj => (List.mem_filter.mp hj).1)]
          · rfl
  | genReturn w d ts t =>
    simp only [apply]
    cases hne : d.rows.isEmpty with
    | true => unfold updateXIn; simp [hne]
    | false =>
      rcases updateXIn_cases h w d ts t hne with ⟨hno, h3, hh3, heq⟩ | ⟨_, heq⟩ | ⟨_, n, heq⟩ | ⟨hin, n, inds, hres, heq⟩
      · have hlt : i < h.index := Nat.lt_of_not_le fun hle => ht (.inl ⟨hno, hle⟩)
        rw [heq]
        have h1 : i ∉ List.range' h.index d.rows.length := by
          intro hm; rw [List.mem_range'_1] at hm; omega
        rw [show cell (genFinish h3 w d ts t (List.range' h.index d.rows.length) d.rows.length).1.rows i f = cell h3.rows i f from by
          unfold cell; rw [get_genFinish h1], hh3]
        simp only
        rw [show cell (numberRows (ensureRoom (extendCols h d.cols) d.rows.length).rows h.index d.rows.length) i f =
            cell (ensureRoom (extendCols h d.cols) d.rows.length).rows i f from by unfold cell; rw [get_numberRows_lt _ _ _ _ (.inl hlt)],
          cell_ensureRoom_old _ _ _ _ (by simpa using hi)]
        exact cell_extendCols h d.cols hf i
      · rw [heq]; exact cell_extendCols h d.cols hf i
      · rw [heq]; simp only
        rw [cell_ensureRoom_old _ _ _ _ (by simpa using hi)]
        exact cell_extendCols h d.cols hf i
      · rw [heq]
        have h1 : i ∉ inds := by
          intro hm
          have hnn : ∀ x ∈ d.rows.map (·.sid), 0 ≤ x := by
            intro x hx
            obtain ⟨r, hr, rfl⟩ := List.mem_map.mp hx
            obtain ⟨m, hm⟩ := hs.2 hin r hr
            simp [Row.sid, hm]
          obtain ⟨r, hr, hrs⟩ := List.mem_map.mp (resolveAll_mem hnn hres hm)
          obtain ⟨m, hm2⟩ := hs.2 hin r hr
          simp only [Row.sid, hm2] at hrs
          exact ht (.inr ⟨hin, r, hr, by rw [hm2, hrs]⟩)
        rw [show cell (genFinish (ensureRoom (extendCols h d.cols) n) w d ts t inds n).1.rows i f = cell (ensureRoom (extendCols h d.cols) n).rows i f from by
          unfold cell; rw [get_genFinish h1]]
        rw [cell_ensureRoom_old _ _ _ _ (by simpa using hi)]
        exact cell_extendCols h d.cols hf i
  | requestCancel inds => simp only [apply]; unfold cell; rw [get_updAll_not_mem _ _ _ _ ht]
  | markKill inds => simp only [apply]; unfold cell; rw [get_updAll_not_mem _ _ _ _ ht]

/-- Columns and rows together. -/
theorem apply_cell_same {h : Hist} {op : Op} (hs : IdSafe op) {i : Nat} {f : Field} (ht : op.touches h i → f ∉ op.writes)
    (hi : i < h.rows.length) (hf : f ∈ h.fields) : cell (apply h op).1.rows i f = cell h.rows i f := by
  by_cases h1 : op.touches h i
  · exact apply_frame h op f (ht h1) hf i hi
  · exact apply_row hs h1 hi hf

end Verif.History
