import Verif.History.Counters
import Verif.History.Polite
/-! Counting flagged rows. -/
namespace Verif.History

/-- Is row `i` flagged? -/
def flagAt (rows : List Row) (f : Field) (i : Nat) : Bool := (rows[i]?).any (·.flag f)

theorem flagAt_cell (rows : List Row) (f : Field) (i : Nat) : flagAt rows f i = (cell rows i f).any (fun v => decide (v ≠ .s 0)) := by
  simp only [flagAt, cell]
  cases rows[i]? <;> rfl

theorem flagAt_lt {rows : List Row} {f : Field} {i : Nat} (h : flagAt rows f i = true) : i < rows.length := by
  rcases Nat.lt_or_ge i rows.length with h1 | h1
  · exact h1
  · simp [flagAt, List.getElem?_eq_none h1] at h

theorem countFlag_range (rows : List Row) (f : Field) (n : Nat) (hn : rows.length ≤ n) :
    countFlag rows f = ((List.range n).filter (flagAt rows f)).length := by
  induction rows generalizing n with
  | nil =>
    have : (List.range n).filter (flagAt [] f) = [] := by
      rw [List.filter_eq_nil_iff]; intro a _; simp [flagAt]
    rw [this]; rfl
  | cons r rows ih =>
    obtain ⟨m, rfl⟩ : ∃ m, n = m + 1 := ⟨n - 1, by simp at hn; omega⟩
    have h1 := ih m (by simp at hn; omega)
    rw [List.range_succ_eq_map]
    have h2 : ((List.map Nat.succ (List.range m)).filter (flagAt (r :: rows) f)).length = countFlag rows f := by
      rw [h1, List.filter_map, List.length_map]
      congr 2
    simp only [countFlag, List.countP_cons, List.filter_cons] at h2 ⊢
    have h3 : flagAt (r :: rows) f 0 = r.flag f := by simp [flagAt]
    rw [h3]
    split
    · rename_i h; simp [h, h2]
    · rename_i h; simp [h, h2]

theorem countFlag_add {rows rows' : List Row} {f : Field} {add : List Nat}
    (hf : ∀ i, flagAt rows' f i = (flagAt rows f i || decide (i ∈ add))) (hnd : add.Nodup)
    (hnew : ∀ i ∈ add, flagAt rows f i = false) : countFlag rows' f = countFlag rows f + add.length := by
  have hn : ∀ i ∈ add, i < rows'.length := fun i hi => flagAt_lt (f := f) (by rw [hf i]; simp [hi])
  obtain ⟨N, h1, h2⟩ : ∃ N, rows.length ≤ N ∧ rows'.length ≤ N := ⟨rows.length + rows'.length, by omega, by omega⟩
  rw [countFlag_range rows' f N h2, countFlag_range rows f N h1, ← List.length_append]
  refine List.Perm.length_eq ((List.perm_ext_iff_of_nodup (List.nodup_range.filter _) (List.nodup_append.mpr ⟨List.nodup_range.filter _, hnd, ?_⟩)).mpr ?_)
  · intro a ha b hb hab
    subst hab
    have h1 := (List.mem_filter.mp ha).2
    rw [hnew a hb] at h1
    simp at h1
  · intro a
    simp only [List.mem_filter, List.mem_range, List.mem_append, hf a, Bool.or_eq_true, decide_eq_true_eq]
    constructor
    · rintro ⟨h1, h2 | h2⟩
      · exact .inl ⟨h1, h2⟩
      · exact .inr h2
    · rintro (⟨h1, h2⟩ | h2)
      · exact ⟨h1, .inl h2⟩
      · have := hn a h2
        exact ⟨by omega, .inr h2⟩

theorem countFlag_same {rows rows' : List Row} {f : Field} (hf : ∀ i, flagAt rows' f i = flagAt rows f i) :
    countFlag rows' f = countFlag rows f := by
  have := countFlag_add (add := []) (rows := rows) (rows' := rows') (f := f) (fun i => by simp [hf i]) (by simp) (by simp)
  simpa using this

theorem flagAt_set (rows : List Row) (f : Field) (k : Nat) (r : Row) (i : Nat) (hk : k < rows.length) :
    flagAt (rows.set k r) f i = if i = k then r.flag f else flagAt rows f i := by
  simp only [flagAt, List.getElem?_set]
  split
  · rename_i h; subst h; simp [hk]
  · rename_i h; rw [if_neg (fun he => h he.symm)]

theorem simRowWrite_guarded {safe : Bool} {d : Option Rec} (hg : safe = true ∨ ∀ d', d = some d' → d'.polite) (j : Nat) (r : Row)
    (g : Field) (hp : g ∈ protectedFields) : (simRowWrite safe d j r).1 g = r g := by
  rcases hg with rfl | hg
  · exact simRowWrite_protected d j r g hp
  · exact simRowWrite_frame safe d j r g (fun d' hd hm => hg d' hd g hm hp)

/-- The rows counted by the recording of results are those that it flags. -/
theorem simRows_total (t : Int) (d : Option Rec) (j : Nat) (inds : List Nat) (h : Hist)
    (hg : h.safeMode = true ∨ ∀ d', d = some d' → d'.polite) :
    ∃ n, (simRows t d j inds h).1.simEndedCount = h.simEndedCount + (inds.take n).length ∧
      ∀ i, flagAt (simRows t d j inds h).1.rows .simEnded i = (flagAt h.rows .simEnded i || decide (i ∈ inds.take n)) := by
  induction inds generalizing j h with
  | nil => exact ⟨0, rfl, fun i => by simp [simRows]⟩
  | cons k inds ih =>
    unfold simRows
    split
    · exact ⟨0, rfl, fun i => by simp⟩
    · rename_i r hr
      have hk : k < h.rows.length := (List.getElem?_eq_some_iff.mp hr).1
      split
      · rename_i r' e hw
        refine ⟨0, rfl, fun i => ?_⟩
        simp only [List.take_zero, List.not_mem_nil, decide_false, Bool.or_false]
        rw [flagAt_set _ _ _ _ _ hk]
        split
        · rename_i he
          subst he
          have := simRowWrite_guarded hg j r .simEnded (by simp [protectedFields])
          rw [hw] at this
          simp only at this
          simp [flagAt, hr, Row.flag, this]
        · rfl
      · rename_i r' hw
        obtain ⟨n, h1, h2⟩ := ih (j + 1) { h with
            rows := h.rows.set k ((r'.set .simEnded (.s 1)).set .simEndedTime (.s t))
            simEndedCount := h.simEndedCount + 1 } hg
        refine ⟨n + 1, ?_, fun i => ?_⟩
        · rw [h1]; simp only [List.take_succ_cons, List.length_cons]; omega
        · rw [h2 i, flagAt_set _ _ _ _ _ hk]
          simp only [List.take_succ_cons, List.mem_cons]
          by_cases hik : i = k
          · simp [hik, Row.flag, Row.set]
          · simp [hik]

/-- Recording results: as many rows are counted as are newly flagged, if none was flagged before and none comes twice. -/
theorem simReturn_total (h : Hist) (rows : List Nat) (d : Option Rec) (t : Int) (k : Bool) (hf : Field.simEnded ∈ h.fields)
    (hg : Guarded h (.simReturn rows d t k)) (hnd : rows.Nodup) (hnew : ∀ i ∈ rows, flagAt h.rows .simEnded i = false)
    (hc : h.simEndedCount = countFlag h.rows .simEnded) :
    (apply h (.simReturn rows d t k)).1.simEndedCount = countFlag (apply h (.simReturn rows d t k)).1.rows .simEnded := by
  obtain ⟨e, le, heq, _⟩ := updateF_shape h rows d t k
  simp only [apply]
  rw [heq]
  simp only
  have hpre : ∀ i, flagAt (preSim h d).rows .simEnded i = flagAt h.rows .simEnded i := by
    intro i; rw [flagAt_cell, flagAt_cell, cell_preSim d hf i]
  have hcp : (preSim h d).simEndedCount = h.simEndedCount := congrArg Counters.ended (counters_preSim h d)
  obtain ⟨n, h1, h2⟩ := simRows_total t d 0 rows (preSim h d) (by
    rcases hg with hs | hp
    · left; rw [safe_preSim]; exact hs
    · right; intro d' hd; subst hd; exact hp)
  rw [h1, hcp, hc]
  refine (countFlag_add (fun i => ?_) ((List.take_sublist n rows).nodup hnd) (fun i hi => hnew i ((List.take_sublist n rows).subset hi))).symm
  rw [h2 i, hpre i]

/-- Giving rows: as many rows are counted as are newly flagged, if none was flagged before and none comes twice. -/
theorem giveSim_total (h : Hist) (rows : List Nat) (w : Nat) (t : Int) (k : Bool) (hnd : rows.Nodup)
    (hnew : (∀ i ∈ rows, i < h.rows.length) → ∀ i ∈ rows, flagAt h.rows .simStarted i = false)
    (hc : h.simStartedCount = countFlag h.rows .simStarted) :
    (apply h (.giveSim rows w t k)).1.simStartedCount = countFlag (apply h (.giveSim rows w t k)).1.rows .simStarted := by
  by_cases hr : ∀ i ∈ rows, i < h.rows.length
  · rw [apply_giveSim_count h rows w t k hr, hc]
    refine (countFlag_add (fun i => ?_) hnd (hnew hr)).symm
    have hrows : (apply h (.giveSim rows w t k)).1.rows = updAll (fun r => ((r.set .simStarted (.s 1)).set .simStartedTime (.s t)).set
        .simWorker (.s w)) h.rows rows := by
      simp only [apply]
      unfold updateXOut
      rw [if_neg (by
        intro ha
        obtain ⟨i, hi, hl⟩ := List.any_eq_true.mp ha
        have := hr i hi
        simp at hl; omega)]
      simp only
      split
      · split <;> rfl
      · rfl
    rw [hrows]
    by_cases hi : i ∈ rows
    · rw [flagAt_cell, get_updAll_const _ .simStarted (.s 1) (by intro r; simp [Row.set]) _ _ _ (hr i hi) hi]
      simp [hi]
    · rw [flagAt_cell, flagAt_cell, cell_updAll _ _ _ _ _ hi]
      simp [hi]
  · have : apply h (.giveSim rows w t k) = (h, some .indexError) := by
      simp only [apply]
      unfold updateXOut
      rw [if_pos]
      refine List.any_eq_true.mpr ?_
      have : ∃ i ∈ rows, ¬ i < h.rows.length := by
        refine Classical.byContradiction (fun hn => hr (fun i hi => ?_))
        exact Classical.byContradiction (fun h1 => hn ⟨i, hi, h1⟩)
      obtain ⟨i, hi, hl⟩ := this
      exact ⟨i, hi, by simp; omega⟩
    rw [this]; exact hc

end Verif.History
