import Verif.History.Model
/-! Helper lemmas about the history model. -/
namespace Verif.History

/-- Cell of a table, `none` outside. -/
def cell (rows : List Row) (i : Nat) (f : Field) : Option Val := (rows[i]?).map (· f)

@[simp] theorem Row.set_self (r : Row) (f : Field) (x : Val) : r.set f x f = x := by simp [Row.set]
theorem Row.set_ne (r : Row) {f g : Field} (x : Val) (h : g ≠ f) : r.set f x g = r g := by
  simp [Row.set, h]
theorem Row.set_apply (r : Row) (f g : Field) (x : Val) :
    r.set f x g = if g = f then x else r g := rfl

/-! ### updAll -/

@[simp] theorem length_updAll (g : Row → Row) (rows : List Row) (inds : List Nat) :
    (updAll g rows inds).length = rows.length := by
  unfold updAll
  induction inds generalizing rows with
  | nil => rfl
  | cons i is ih => simp [ih]

theorem get_updAll_not_mem (g : Row → Row) (rows : List Row) (inds : List Nat) (i : Nat)
    (h : i ∉ inds) : (updAll g rows inds)[i]? = rows[i]? := by
  unfold updAll
  induction inds generalizing rows with
  | nil => rfl
  | cons j js ih =>
    simp only [List.mem_cons, not_or] at h
    simp only [List.foldl_cons]
    rw [ih _ h.2, List.getElem?_modify]
    have : ¬ j = i := fun e => h.1 e.symm
    simp [this]

theorem get_updAll_idem (g : Row → Row) (hg : ∀ r, g (g r) = g r) (rows : List Row)
    (inds : List Nat) (i : Nat) :
    (updAll g rows inds)[i]? = (rows[i]?).map (fun r => if i ∈ inds then g r else r) := by
  unfold updAll
  induction inds generalizing rows with
  | nil => simp
  | cons j js ih =>
    simp only [List.foldl_cons]
    rw [ih, List.getElem?_modify]
    cases hr : rows[i]? with
    | none => simp
    | some r =>
      by_cases hj : j = i
      · subst hj; by_cases h2 : j ∈ js <;> simp [h2, hg]
      · have : ¬ i = j := fun e => hj e.symm
        by_cases h2 : i ∈ js <;> simp [h2, hj, this]

/-- Fields that `g` does not touch keep their cells. -/
theorem cell_updAll_frame (g : Row → Row) (f : Field) (hg : ∀ r, g r f = r f) (rows : List Row)
    (inds : List Nat) (i : Nat) : cell (updAll g rows inds) i f = cell rows i f := by
  unfold updAll cell
  induction inds generalizing rows with
  | nil => rfl
  | cons j js ih =>
    simp only [List.foldl_cons]
    rw [ih, List.getElem?_modify]
    cases rows[i]? with
    | none => simp
    | some r => by_cases hj : j = i <;> simp [hj, hg]

/-! ### writeColumn -/

@[simp] theorem length_writeColumn (f : Field) (rows : List Row) (ps : List (Nat × Row)) :
    (writeColumn f rows ps).length = rows.length := by
  unfold writeColumn
  induction ps generalizing rows with
  | nil => rfl
  | cons p ps ih => simp [ih]

theorem cell_writeColumn_ne (f g : Field) (h : g ≠ f) (rows : List Row) (ps : List (Nat × Row)) (i : Nat) :
    cell (writeColumn f rows ps) i g = cell rows i g := by
  unfold writeColumn cell
  induction ps generalizing rows with
  | nil => rfl
  | cons p ps ih =>
    simp only [List.foldl_cons]
    rw [ih, List.getElem?_modify]
    cases rows[i]? with
    | none => simp
    | some r => by_cases hj : p.1 = i <;> simp [hj, Row.set_ne _ _ h]

theorem get_writeColumn_not_mem (f : Field) (rows : List Row) (ps : List (Nat × Row)) (i : Nat)
    (h : ∀ p ∈ ps, p.1 ≠ i) : (writeColumn f rows ps)[i]? = rows[i]? := by
  unfold writeColumn
  induction ps generalizing rows with
  | nil => rfl
  | cons p ps ih =>
    simp only [List.foldl_cons]
    rw [ih _ (fun q hq => h q (List.mem_cons_of_mem _ hq)), List.getElem?_modify]
    have := h p List.mem_cons_self
    simp [this]

/-- A written cell holds the value of one of the pairs for that row. -/
theorem cell_writeColumn_mem (f : Field) (rows : List Row) (ps : List (Nat × Row)) (i : Nat)
    (hi : i < rows.length) (h : ∃ p ∈ ps, p.1 = i) :
    ∃ p ∈ ps, p.1 = i ∧ cell (writeColumn f rows ps) i f = some (p.2 f) := by
  unfold writeColumn
  induction ps generalizing rows with
  | nil => obtain ⟨p, hp, _⟩ := h; simp at hp
  | cons p ps ih =>
    simp only [List.foldl_cons]
    by_cases h2 : ∃ q ∈ ps, q.1 = i
    · obtain ⟨q, hq, h3, h4⟩ := ih (rows.modify p.1 (fun r => r.set f (p.2 f))) (by simpa using hi) h2
      exact ⟨q, List.mem_cons_of_mem _ hq, h3, h4⟩
    · have hne : ∀ q ∈ ps, q.1 ≠ i := fun q hq e => h2 ⟨q, hq, e⟩
      have hp : p.1 = i := by
        obtain ⟨q, hq, e⟩ := h
        rcases List.mem_cons.1 hq with rfl | hq
        · exact e
        · exact absurd e (hne q hq)
      refine ⟨p, List.mem_cons_self, hp, ?_⟩
      have := get_writeColumn_not_mem f (rows.modify p.1 (fun r => r.set f (p.2 f))) ps i hne
      unfold writeColumn at this
      unfold cell
      rw [this, List.getElem?_modify]
      simp [hp, List.getElem?_eq_getElem hi]

/-! ### extendCols -/

@[simp] theorem length_extendCols (h : Hist) (cs) : (extendCols h cs).rows.length = h.rows.length := by
  unfold extendCols appendNewFields; split <;> simp

@[simp] theorem index_extendCols (h : Hist) (cs) : (extendCols h cs).index = h.index := by
  unfold extendCols appendNewFields; split <;> simp

@[simp] theorem safe_extendCols (h : Hist) (cs) : (extendCols h cs).safeMode = h.safeMode := by
  unfold extendCols appendNewFields; split <;> simp

theorem fields_extendCols_mono (h : Hist) (cs) {f : Field} (hf : f ∈ h.fields) :
    f ∈ (extendCols h cs).fields := by
  unfold extendCols appendNewFields Hist.fields at *
  split
  · exact hf
  · simp only [List.map_append, List.mem_append]; exact Or.inl hf

theorem cell_extendCols (h : Hist) (cs) {f : Field} (hf : f ∈ h.fields) (i : Nat) :
    cell (extendCols h cs).rows i f = cell h.rows i f := by
  unfold extendCols appendNewFields
  split
  · rfl
  · unfold cell; simp only [List.getElem?_map]; cases h.rows[i]? <;> simp [hf]

/-! ### ensureRoom -/

theorem ensureRoom_rows (h : Hist) (n : Nat) : ∃ k, (ensureRoom h n).rows =
    h.rows ++ List.replicate k (freshRow h.cols) := by
  unfold ensureRoom growH
  simp only
  split
  · exact ⟨_, rfl⟩
  · exact ⟨0, by simp⟩

@[simp] theorem index_ensureRoom (h : Hist) (n) : (ensureRoom h n).index = h.index := by
  unfold ensureRoom growH; simp only; split <;> rfl
@[simp] theorem cols_ensureRoom (h : Hist) (n) : (ensureRoom h n).cols = h.cols := by
  unfold ensureRoom growH; simp only; split <;> rfl
@[simp] theorem fields_ensureRoom (h : Hist) (n) : (ensureRoom h n).fields = h.fields := by
  unfold Hist.fields; simp
@[simp] theorem safe_ensureRoom (h : Hist) (n) : (ensureRoom h n).safeMode = h.safeMode := by
  unfold ensureRoom growH; simp only; split <;> rfl

theorem ensureRoom_room (h : Hist) (n : Nat) (hi : h.index ≤ h.rows.length) :
    h.index + n ≤ (ensureRoom h n).rows.length := by
  unfold ensureRoom growH
  simp only
  split
  · simp only [List.length_append, List.length_replicate]
    have := Nat.le_max_left (n - (h.rows.length - h.index)) (2 * h.growCount)
    omega
  · omega

theorem length_le_ensureRoom (h : Hist) (n : Nat) : h.rows.length ≤ (ensureRoom h n).rows.length := by
  obtain ⟨k, hk⟩ := ensureRoom_rows h n
  rw [hk]; simp

theorem get_ensureRoom_old (h : Hist) (n i : Nat) (hi : i < h.rows.length) :
    (ensureRoom h n).rows[i]? = h.rows[i]? := by
  obtain ⟨k, hk⟩ := ensureRoom_rows h n
  rw [hk, List.getElem?_append_left hi]

theorem get_ensureRoom_new (h : Hist) (n i : Nat) (hi : h.rows.length ≤ i)
    (hi2 : i < (ensureRoom h n).rows.length) :
    (ensureRoom h n).rows[i]? = some (freshRow h.cols) := by
  obtain ⟨k, hk⟩ := ensureRoom_rows h n
  rw [hk] at hi2 ⊢
  rw [List.getElem?_append_right hi, List.getElem?_replicate]
  simp at hi2
  split <;> simp
  omega

@[simp] theorem freshRow_simId (cols) : freshRow cols .simId = .s (-1) := by
  unfold freshRow freshen; split <;> split <;> simp [Row.set]

/-! ### genColumns -/

theorem genColumns_length (safe : Bool) (ps) (cs) (rows : List Row) :
    (genColumns safe ps cs rows).1.length = rows.length := by
  induction cs generalizing rows with
  | nil => rfl
  | cons c cs ih =>
    unfold genColumns
    split
    · rfl
    · split
      · rw [ih]; simp
      · rfl

theorem cell_genColumns_ne (safe : Bool) (ps) (cs : List (Field × Shape)) (rows : List Row) (g : Field)
    (hg : g ∉ cs.map (·.1)) (i : Nat) :
    cell (genColumns safe ps cs rows).1 i g = cell rows i g := by
  induction cs generalizing rows with
  | nil => rfl
  | cons c cs ih =>
    simp only [List.map_cons, List.mem_cons, not_or] at hg
    unfold genColumns
    split
    · rfl
    · split
      · rw [ih _ hg.2, cell_writeColumn_ne _ _ hg.1]
      · rfl

theorem get_genColumns_not_mem (safe : Bool) (ps) (cs : List (Field × Shape)) (rows : List Row) (i : Nat)
    (h : ∀ p ∈ ps, p.1 ≠ i) : (genColumns safe ps cs rows).1[i]? = rows[i]? := by
  induction cs generalizing rows with
  | nil => rfl
  | cons c cs ih =>
    unfold genColumns
    split
    · rfl
    · split
      · rw [ih, get_writeColumn_not_mem _ _ _ _ h]
      · rfl

/-- In safe mode no protected cell changes, error or not. -/
theorem cell_genColumns_protected (ps) (cs : List (Field × Shape)) (rows : List Row) (g : Field)
    (hg : g ∈ protectedFields) (i : Nat) :
    cell (genColumns true ps cs rows).1 i g = cell rows i g := by
  induction cs generalizing rows with
  | nil => rfl
  | cons c cs ih =>
    unfold genColumns
    by_cases hc : c.1 ∈ protectedFields
    · simp [hc]
    · simp only [hc, decide_false, Bool.and_false]
      split
      · contradiction
      · split
        · rw [ih, cell_writeColumn_ne]
          intro e; subst e; exact hc hg
        · rfl

/-- After success every written column holds, in every written row, the value of a pair for that row. -/
theorem cell_genColumns_mem (safe : Bool) (ps) (cs : List (Field × Shape)) (rows rows' : List Row)
    (hok : genColumns safe ps cs rows = (rows', none)) (hnd : (cs.map (·.1)).Nodup)
    (g : Field) (hg : g ∈ cs.map (·.1)) (i : Nat) (hi : i < rows.length) (h : ∃ p ∈ ps, p.1 = i) :
    ∃ p ∈ ps, p.1 = i ∧ cell rows' i g = some (p.2 g) := by
  induction cs generalizing rows with
  | nil => simp at hg
  | cons c cs ih =>
    simp only [List.map_cons, List.nodup_cons] at hnd
    simp only [List.map_cons, List.mem_cons] at hg
    unfold genColumns at hok
    split at hok
    · simp at hok
    · split at hok
      · by_cases h2 : g ∈ cs.map (·.1)
        · exact ih _ hok hnd.2 h2 (by simpa using hi)
        · have hgc : g = c.1 := by rcases hg with h | h; exact h; exact absurd h h2
          subst hgc
          obtain ⟨p, hp, hpi, hv⟩ := cell_writeColumn_mem c.1 rows ps i hi h
          refine ⟨p, hp, hpi, ?_⟩
          have := cell_genColumns_ne safe ps cs (writeColumn c.1 rows ps) c.1 h2 i
          rw [hok] at this
          rw [this, hv]
      · simp at hok

/-! ### numberRows -/

@[simp] theorem length_numberRows (rows : List Row) (a n : Nat) :
    (numberRows rows a n).length = rows.length := by
  unfold numberRows
  induction n generalizing rows a with
  | zero => rfl
  | succ n ih => rw [List.range'_succ, List.foldl_cons, ih]; simp

theorem cell_numberRows_ne (rows : List Row) (a n i : Nat) (f : Field) (hf : f ≠ .simId) :
    cell (numberRows rows a n) i f = cell rows i f := by
  unfold numberRows
  induction n generalizing rows a with
  | zero => rfl
  | succ n ih =>
    rw [List.range'_succ, List.foldl_cons, ih]
    unfold cell
    rw [List.getElem?_modify]
    cases rows[i]? with
    | none => simp
    | some r => by_cases h : a = i <;> simp [h, Row.set_ne _ _ hf]

theorem get_numberRows_lt (rows : List Row) (a n i : Nat) (hi : i < a ∨ a + n ≤ i) :
    (numberRows rows a n)[i]? = rows[i]? := by
  unfold numberRows
  induction n generalizing rows a with
  | zero => rfl
  | succ n ih =>
    rw [List.range'_succ, List.foldl_cons, ih _ _ (by omega), List.getElem?_modify]
    have : ¬ a = i := by omega
    simp [this]

theorem cell_numberRows_mem (rows : List Row) (a n i : Nat) (hi : a ≤ i) (hi2 : i < a + n)
    (hl : i < rows.length) : cell (numberRows rows a n) i .simId = some (.s i) := by
  unfold numberRows
  induction n generalizing rows a with
  | zero => omega
  | succ n ih =>
    rw [List.range'_succ, List.foldl_cons]
    by_cases h : a = i
    · subst h
      have := get_numberRows_lt (rows.modify a (fun r => r.set .simId (.s a))) (a + 1) n a (by omega)
      unfold numberRows at this
      unfold cell
      rw [this, List.getElem?_modify]
      simp [List.getElem?_eq_getElem hl]
    · exact ih _ _ (by omega) (by omega) (by simpa using hl)

/-! ### simRows / writeFields -/

theorem writeFields_frame (safe : Bool) (src : Row) (fs : List Field) (r : Row) (g : Field)
    (hg : g ∉ fs) : (writeFields safe src fs r).1 g = r g := by
  induction fs generalizing r with
  | nil => rfl
  | cons f fs ih =>
    simp only [List.mem_cons, not_or] at hg
    unfold writeFields
    split
    · rfl
    · split
      · rfl
      · rw [ih _ hg.2, Row.set_ne _ _ hg.1]

theorem writeFields_protected (src : Row) (fs : List Field) (r : Row) (g : Field)
    (hg : g ∈ protectedFields) : (writeFields true src fs r).1 g = r g := by
  induction fs generalizing r with
  | nil => rfl
  | cons f fs ih =>
    unfold writeFields
    by_cases hf : f ∈ protectedFields
    · simp [hf]
    · simp only [hf, decide_false, Bool.and_false]
      split
      · contradiction
      · split
        · rfl
        · rw [ih, Row.set_ne]
          intro e; subst e; exact hf hg

theorem simRowWrite_frame (safe : Bool) (d : Option Rec) (j : Nat) (r : Row) (g : Field)
    (hg : ∀ d', d = some d' → g ∉ d'.fields) : (simRowWrite safe d j r).1 g = r g := by
  unfold simRowWrite
  cases d with
  | none => rfl
  | some d =>
    simp only
    split
    · rfl
    · split
      · rfl
      · exact writeFields_frame _ _ _ _ _ (hg d rfl)

theorem simRowWrite_protected (d : Option Rec) (j : Nat) (r : Row) (g : Field)
    (hg : g ∈ protectedFields) : (simRowWrite true d j r).1 g = r g := by
  unfold simRowWrite
  cases d with
  | none => rfl
  | some d =>
    simp only
    split
    · rfl
    · split
      · rfl
      · exact writeFields_protected _ _ _ _ hg

/-- Induction principle for the row loop: a relation between states that holds for each possible row
write holds for the whole loop. -/
theorem simRows_rel (P : Hist → Hist → Prop) (hrefl : ∀ h, P h h) (htrans : ∀ a b c, P a b → P b c → P a c)
    (t : Int) (d : Option Rec) (S : List Nat)
    (herr : ∀ (h : Hist) (j ind : Nat) (r r' : Row) (e : HErr), ind ∈ S → h.rows[ind]? = some r →
      simRowWrite h.safeMode d j r = (r', some e) → P h { h with rows := h.rows.set ind r' })
    (hok : ∀ (h : Hist) (j ind : Nat) (r r' : Row), ind ∈ S → h.rows[ind]? = some r →
      simRowWrite h.safeMode d j r = (r', none) → P h { h with
            rows := h.rows.set ind ((r'.set .simEnded (.s 1)).set .simEndedTime (.s t))
            simEndedCount := h.simEndedCount + 1 })
    (j : Nat) (inds : List Nat) (hS : ∀ x ∈ inds, x ∈ S) (h : Hist) : P h (simRows t d j inds h).1 := by
  induction inds generalizing j h with
  | nil => exact hrefl h
  | cons i is ih =>
    unfold simRows
    split
    · exact hrefl h
    · rename_i r hr
      split
      · rename_i r' e hw; exact herr h j i r r' e (hS i List.mem_cons_self) hr hw
      · rename_i r' hw; exact htrans _ _ _ (hok h j i r r' (hS i List.mem_cons_self) hr hw)
          (ih _ (fun x hx => hS x (List.mem_cons_of_mem _ hx)) _)

/-- The state fields other than rows and the ended counter are not touched by the row loop. -/
theorem simRows_frame (t : Int) (d : Option Rec) (j : Nat) (inds : List Nat) (h : Hist) :
    let h' := (simRows t d j inds h).1
    h'.index = h.index ∧ h'.cols = h.cols ∧ h'.safeMode = h.safeMode ∧
    h'.rows.length = h.rows.length ∧ h'.lastStarted = h.lastStarted ∧ h'.lastEnded = h.lastEnded ∧
    h'.growCount = h.growCount ∧ h'.simStartedCount = h.simStartedCount := by
  apply simRows_rel (fun h h' => h'.index = h.index ∧ h'.cols = h.cols ∧ h'.safeMode = h.safeMode ∧
    h'.rows.length = h.rows.length ∧ h'.lastStarted = h.lastStarted ∧ h'.lastEnded = h.lastEnded ∧
    h'.growCount = h.growCount ∧ h'.simStartedCount = h.simStartedCount) (S := inds)
  · simp
  · intro a b c h1 h2; grind
  · intros; simp
  · intros; simp
  · exact fun _ h => h

theorem cell_set (rows : List Row) (i k : Nat) (r : Row) (g : Field) :
    cell (rows.set k r) i g = if i = k ∧ i < rows.length then some (r g) else cell rows i g := by
  unfold cell
  rw [List.getElem?_set]
  by_cases h : k = i
  · subst h
    by_cases h2 : k < rows.length
    · simp [h2]
    · simp [h2]
  · have : ¬ i = k := fun e => h e.symm
    simp [h, this]

/-- Fields outside the returned columns and the two bookkeeping fields keep their value. -/
theorem cell_simRows_frame (t : Int) (d : Option Rec) (j : Nat) (inds : List Nat) (h : Hist) (g : Field)
    (hg : ∀ d', d = some d' → g ∉ d'.fields) (h1 : g ≠ .simEnded) (h2 : g ≠ .simEndedTime) (i : Nat) :
    cell (simRows t d j inds h).1.rows i g = cell h.rows i g := by
  apply simRows_rel (fun h h' => cell h'.rows i g = cell h.rows i g) (S := inds)
  · intro h; rfl
  · intro a b c h1 h2; rw [h2, h1]
  · intro h j ind r r' e _ hr hw
    have := simRowWrite_frame h.safeMode d j r g hg
    rw [hw] at this
    simp only at this ⊢
    rw [cell_set]
    split
    · rename_i hc; obtain ⟨rfl, _⟩ := hc; simp [cell, hr, this]
    · rfl
  · intro h j ind r r' _ hr hw
    have := simRowWrite_frame h.safeMode d j r g hg
    rw [hw] at this
    simp only at this ⊢
    rw [cell_set]
    split
    · rename_i hc; obtain ⟨rfl, _⟩ := hc; simp [cell, hr, Row.set_ne _ _ h1, Row.set_ne _ _ h2, this]
    · rfl
  · exact fun _ h => h

end Verif.History
