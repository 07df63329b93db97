import Verif.History.InitLemmas
/-! Lemmas for the property theorems of the history. -/
namespace Verif.History

/-! ### successful row loop -/

theorem simRows_not_mem (t : Int) (d : Option Rec) (j : Nat) (inds : List Nat) (h : Hist) (i : Nat)
    (hi : i ∉ inds) : (simRows t d j inds h).1.rows[i]? = h.rows[i]? := by
  apply simRows_rel (fun h h' => h'.rows[i]? = h.rows[i]?) (S := inds)
  · intro h; rfl
  · intro a b c h1 h2; rw [h2, h1]
  · intro h j ind r r' e hin _ _
    simp only
    rw [List.getElem?_set_ne]
    intro e; subst e; exact hi hin
  · intro h j ind r r' hin _ _
    simp only
    rw [List.getElem?_set_ne]
    intro e; subst e; exact hi hin
  · exact fun _ h => h

theorem simRows_ok (t : Int) (d : Option Rec) (inds : List Nat) (j0 : Nat) (h h' : Hist)
    (hok : simRows t d j0 inds h = (h', none)) (hnd : inds.Nodup) (k i : Nat) (hk : inds[k]? = some i) :
    ∃ r r', h.rows[i]? = some r ∧ simRowWrite h.safeMode d (j0 + k) r = (r', none) ∧
      h'.rows[i]? = some ((r'.set .simEnded (.s 1)).set .simEndedTime (.s t)) := by
  induction inds generalizing j0 h k with
  | nil => simp at hk
  | cons a as ih =>
    rw [List.nodup_cons] at hnd
    unfold simRows at hok
    split at hok
    · simp at hok
    · rename_i r hr
      split at hok
      · simp at hok
      · rename_i r' hw
        cases k with
        | zero =>
          simp at hk
          subst hk
          refine ⟨r, r', hr, by simpa using hw, ?_⟩
          have := simRows_not_mem t d (j0 + 1) as (i := a) (hi := hnd.1) (h := { h with
            rows := h.rows.set a ((r'.set .simEnded (.s 1)).set .simEndedTime (.s t))
            simEndedCount := h.simEndedCount + 1 })
          rw [hok] at this
          simp only at this
          rw [this, List.getElem?_set_self]
          rcases Nat.lt_or_ge a h.rows.length with h1 | h1
          · exact h1
          · rw [List.getElem?_eq_none h1] at hr; cases hr
        | succ k =>
          simp at hk
          have hne : a ≠ i := by
            intro e; subst e; exact hnd.1 (List.mem_of_getElem? hk)
          obtain ⟨r2, r2', h1, h2, h3⟩ := ih (j0 + 1) _ hok hnd.2 k hk
          simp only at h1 h2
          rw [List.getElem?_set_ne hne] at h1
          refine ⟨r2, r2', h1, ?_, h3⟩
          rw [show j0 + (k + 1) = j0 + 1 + k by omega]; exact h2

theorem simRows_count (t : Int) (d : Option Rec) (inds : List Nat) (j0 : Nat) (h h' : Hist)
    (hok : simRows t d j0 inds h = (h', none)) : h'.simEndedCount = h.simEndedCount + inds.length := by
  induction inds generalizing j0 h with
  | nil => simp [simRows] at hok; simp [hok]
  | cons a as ih =>
    unfold simRows at hok
    split at hok
    · simp at hok
    · split at hok
      · simp at hok
      · have := ih _ _ hok; simp only at this; simp; omega

/-! ### successful field loop -/

theorem writeFields_ok (safe : Bool) (src : Row) (fs : List Field) (r r' : Row)
    (hok : writeFields safe src fs r = (r', none)) (hnd : fs.Nodup) (f : Field) (hf : f ∈ fs) :
    writeCell f (r f) (src f) = .ok (r' f) ∧ (safe = true → f ∉ protectedFields) := by
  induction fs generalizing r with
  | nil => simp at hf
  | cons g gs ih =>
    rw [List.nodup_cons] at hnd
    unfold writeFields at hok
    split at hok
    · simp at hok
    · rename_i hp
      split at hok
      · simp at hok
      · rename_i x hx
        rcases List.mem_cons.1 hf with rfl | h
        · have := writeFields_frame safe src gs (r.set f x) f hnd.1
          rw [hok] at this
          simp at this
          rw [this]
          refine ⟨hx, ?_⟩
          intro hs; simpa [hs] using hp
        · have hne : f ≠ g := by intro e; subst e; exact hnd.1 h
          have := ih _ hok hnd.2 h
          rw [Row.set_ne _ _ hne] at this
          exact this

theorem genColumns_ok_unprotected (ps) (cs : List (Field × Shape)) (rows rows' : List Row)
    (hok : genColumns true ps cs rows = (rows', none)) : ∀ c ∈ cs, c.1 ∉ protectedFields := by
  induction cs generalizing rows with
  | nil => simp
  | cons c cs ih =>
    unfold genColumns at hok
    split at hok
    · simp at hok
    · rename_i hp
      split at hok
      · intro c' hc'
        rcases List.mem_cons.1 hc' with rfl | h
        · simpa using hp
        · exact ih _ hok c' h
      · simp at hok

/-! ### a successful append -/

theorem updateXIn_append (h : Hist) (w : Nat) (d : Rec) (ts t : Int) (hroom : h.index ≤ h.rows.length)
    (hne : d.rows ≠ []) (hno : Field.simId ∉ d.fields) (hnd : d.fields.Nodup)
    (hok : (updateXIn h w d ts t).2 = none) :
    (updateXIn h w d ts t).1.index = h.index + d.rows.length ∧
    h.index + d.rows.length ≤ (updateXIn h w d ts t).1.rows.length ∧
    (∀ i < h.index, ∀ f ∈ h.fields, cell (updateXIn h w d ts t).1.rows i f = cell h.rows i f) ∧
    (∀ (j : Nat) (src : Row), d.rows[j]? = some src → ∀ f ∈ d.fields,
      f ≠ .genWorker → f ≠ .genStartedTime → f ≠ .genEndedTime →
      cell (updateXIn h w d ts t).1.rows (h.index + j) f = some (src f)) := by
  have hne' : d.rows.isEmpty = false := by simpa using hne
  rcases updateXIn_cases h w d ts t hne' with ⟨_, h3, hh3, heq⟩ | ⟨hc, _⟩ | ⟨hc, _⟩ | ⟨hc, _⟩
  · have hroom2 := ensureRoom_room (extendCols h d.cols) d.rows.length (by simpa using hroom)
    simp only [index_extendCols] at hroom2
    have hlen3 : h.index + d.rows.length ≤ h3.rows.length := by rw [hh3]; simpa using hroom2
    have hi3 : h3.index = h.index := by rw [hh3]; simp
    rw [heq] at hok ⊢
    have e1 := genFinish_index h3 w d ts t (List.range' h.index d.rows.length) d.rows.length
    rw [hok] at e1
    simp only [if_true] at e1
    refine ⟨by rw [e1, hi3], by rw [genFinish_length]; exact hlen3, ?_, ?_⟩
    · intro i hi f hf
      have h3c : cell h3.rows i f = cell h.rows i f := by
        rw [hh3]
        simp only
        unfold cell
        rw [get_numberRows_lt _ _ _ _ (by omega)]
        have := cell_ensureRoom_old (extendCols h d.cols) d.rows.length i f (by simp; omega)
        unfold cell at this
        rw [this]
        exact cell_extendCols h d.cols hf i
      rw [← h3c]
      have hnz : ∀ p ∈ (List.range' h.index d.rows.length).zip d.rows, p.1 ≠ i := by
        intro p hp e
        have := (List.of_mem_zip hp).1
        rw [List.mem_range'_1] at this
        omega
      unfold genFinish
      have hg := get_genColumns_not_mem h3.safeMode _ d.cols h3.rows i hnz
      split <;> rename_i heq2 <;> rw [heq2] at hg <;> simp only at hg
      · unfold cell; simp only; rw [hg]
      · unfold cell
        simp only
        rw [get_updAll_not_mem, hg]
        rw [List.mem_filter, List.mem_range'_1]
        omega
    · intro j src hj f hf hf1 hf2 hf3
      have hjl : j < d.rows.length := by
        rcases Nat.lt_or_ge j d.rows.length with h1 | h1
        · exact h1
        · rw [List.getElem?_eq_none h1] at hj; cases hj
      unfold genFinish at hok ⊢
      split
      · rename_i heq2; rw [heq2] at hok; simp at hok
      · rename_i rows' heq2
        simp only
        rw [cell_stamp _ _ _ _ _ _ hf2 hf3 hf1]
        have hex : ∃ p ∈ (List.range' h.index d.rows.length).zip d.rows, p.1 = h.index + j := by
          refine ⟨(h.index + j, src), ?_, rfl⟩
          rw [List.mem_iff_getElem?]
          refine ⟨j, ?_⟩
          rw [List.getElem?_zip_eq_some]
          refine ⟨?_, hj⟩
          simp [hjl]
        obtain ⟨p, hp, hpi, hv⟩ := cell_genColumns_mem _ _ _ _ _ heq2 hnd f hf (h.index + j) (by omega) hex
        rw [hv]
        rw [List.mem_iff_getElem?] at hp
        obtain ⟨k, hk⟩ := hp
        rw [List.getElem?_zip_eq_some] at hk
        have hkl : k < d.rows.length := by
          rcases Nat.lt_or_ge k d.rows.length with h1 | h1
          · exact h1
          · rw [List.getElem?_eq_none h1] at hk; cases hk.2
        have : p.1 = h.index + k := by
          have := hk.1
          simp [hkl] at this
          omega
        have hkj : k = j := by omega
        subst hkj
        rw [hj] at hk
        have := hk.2
        simp at this
        rw [this]
  all_goals exact absurd hc hno

end Verif.History
