import Verif.GpuEnv.Text
import Verif.GpuEnv.Props
import Verif.Labels.Props
namespace Verif.GpuEnv
open Verif.Labels (Str str cutAt cutAt_intercalate str_digits str_inj)

theorem str_not {n : Nat} {c : Char} (hc : c.isDigit = false) : c ∉ str n := by
  intro h
  have := str_digits h
  rw [hc] at this
  exact absurd this (by decide)

/-- The parts of an entry. -/
def Entry.parts (e : Entry) : List Str :=
  match e.tile with
  | none => [str e.gpu]
  | some t => [str e.gpu, str t]

theorem text_parts (e : Entry) : cutAt '.' e.text = e.parts := by
  have h : e.text = List.intercalate ['.'] e.parts := by
    unfold Entry.text Entry.parts
    cases e.tile <;> simp [List.intercalate]
  rw [h, cutAt_intercalate]
  · unfold Entry.parts; cases e.tile <;> simp
  · intro s hs
    unfold Entry.parts at hs
    cases ht : e.tile with
    | none => rw [ht] at hs; simp at hs; rw [hs]; exact str_not (by decide)
    | some t =>
      rw [ht] at hs
      simp at hs
      rcases hs with rfl | rfl <;> exact str_not (by decide)

theorem entry_text_inj {e e' : Entry} (h : e.text = e'.text) : e = e' := by
  have hp : e.parts = e'.parts := by rw [← text_parts, ← text_parts, h]
  obtain ⟨g, t⟩ := e
  obtain ⟨g', t'⟩ := e'
  unfold Entry.parts at hp
  cases t <;> cases t' <;> simp at hp
  · rw [str_inj hp]
  · rw [str_inj hp.1, str_inj hp.2]

theorem entry_text_no_comma (e : Entry) : ',' ∉ e.text := by
  unfold Entry.text
  cases e.tile with
  | none => exact str_not (by decide)
  | some t =>
    intro h
    rcases List.mem_append.mp h with h | h
    · exact str_not (by decide) h
    · rcases List.mem_cons.mp h with h | h
      · exact absurd h (by decide)
      · exact str_not (by decide) h

theorem str_ne_nil (n : Nat) : str n ≠ [] := by
  intro h
  have : (str n).length = 0 := by rw [h]; rfl
  have := Nat.length_toDigits_pos (b := 10) (n := n)
  unfold str at *
  omega

theorem entry_text_ne (e : Entry) : e.text ≠ [] := by
  unfold Entry.text
  cases e.tile with
  | none => exact str_ne_nil _
  | some t => simp

theorem map_text_inj (l l' : List Entry) (h : l.map Entry.text = l'.map Entry.text) : l = l' := by
  induction l generalizing l' with
  | nil => cases l' with
    | nil => rfl
    | cons a l' => simp at h
  | cons a l ih =>
    cases l' with
    | nil => simp at h
    | cons b l' =>
      rw [List.map_cons, List.map_cons, List.cons.injEq] at h
      rw [entry_text_inj h.1, ih l' h.2]

/-- Different lists have different texts: what a program reads from the variable is the list that was written. -/
theorem C103_text (l l' : List Entry) (h : text l = text l') : l = l' := by
  have cut : ∀ l : List Entry, l ≠ [] → cutAt ',' (text l) = l.map Entry.text := by
    intro l hl
    unfold text
    apply cutAt_intercalate
    · simpa using hl
    · intro s hs
      obtain ⟨e, _, rfl⟩ := List.mem_map.mp hs
      exact entry_text_no_comma e
  have ne : ∀ l : List Entry, l ≠ [] → text l ≠ [] := by
    intro l hl h0
    have hc := cut l hl
    rw [h0] at hc
    cases l with
    | nil => exact hl rfl
    | cons e l =>
      simp [cutAt] at hc
      exact entry_text_ne e hc.1
  by_cases hl : l = []
  · subst hl
    by_cases hl' : l' = []
    · exact hl'.symm
    · exact absurd h.symm (ne l' hl')
  · by_cases hl' : l' = []
    · subst hl'; exact absurd h (ne l hl)
    · have e : l.map Entry.text = l'.map Entry.text := by rw [← cut l hl, ← cut l' hl', h]
      exact map_text_inj l l' e

/-- Workers with different slots never get the same text, unless both lists are empty. -/
theorem C103_text_disjoint (s s' : List Nat) (n : Nat) (l l' : Option Nat) (tiles : Nat) (hn : 0 < n) (hd : ∀ i ∈ s, i ∉ s')
    (h : text (entries s n l tiles) = text (entries s' n l' tiles)) : entries s n l tiles = [] := by
  have e := C103_text _ _ h
  cases hx : entries s n l tiles with
  | nil => rfl
  | cons a as =>
    have h1 : a ∈ entries s n l tiles := by rw [hx]; simp
    exact absurd (e ▸ h1) (C103_disjoint s s' n l l' tiles hn hd a h1)

example : text (entries [1, 2] 2 (some 3) 4) = "0.2,0.3,1.0".toList ∧ text (entries [0, 5] 2 none 1) = "0,1,10,11".toList ∧
    text (entries [0] 2 (some 0) 1) = [] := by decide

end Verif.GpuEnv
