import Verif.Live.Model
/-!
Property C97: the picture of a running ensemble.  `updates hs` is what the object has after the updates with the
histories `hs`, oldest first.
-/
namespace Verif.Live

variable {X : Type}

theorem updates_concat (hs : List (Hist X)) (h : Hist X) : updates (hs ++ [h]) = liveUpdate (updates hs) h := by
  simp [updates, List.foldl_append]

/-- What is shown was drawn from one of the histories, and `last` is its number of completed evaluations. -/
theorem shown_from (hs : List (Hist X)) :
    ((updates hs).shown = none ∧ (updates hs).last = 0) ∨
    ∃ a g b, hs = a ++ g :: b ∧ (updates hs).shown = some (draw g.rows) ∧ (updates hs).last = g.ended ∧
      (updates hs).drawn = (updates a).drawn + 1 := by
  have key : ∀ r : List (Hist X), ((updates r.reverse).shown = none ∧ (updates r.reverse).last = 0) ∨
      ∃ a g b, r.reverse = a ++ g :: b ∧ (updates r.reverse).shown = some (draw g.rows) ∧ (updates r.reverse).last = g.ended ∧
        (updates r.reverse).drawn = (updates a).drawn + 1 := by
    intro r
    induction r with
    | nil => exact .inl ⟨rfl, rfl⟩
    | cons h r ih =>
      rw [List.reverse_cons, updates_concat]
      simp only [liveUpdate]
      split
      · exact .inr ⟨r.reverse, h, [], rfl, rfl, rfl, rfl⟩
      · rcases ih with ih | ⟨a, g, b, h1, h2, h3, h4⟩
        · exact .inl ih
        · exact .inr ⟨a, g, b ++ [h], by rw [h1]; simp, h2, h3, h4⟩
  have := key hs.reverse
  rwa [List.reverse_reverse] at this

/-- C97: after each message fewer than 50 completed evaluations are missing in the picture.  Since nothing is drawn at
the end of a run, this is also the most that can be said of the last picture. -/
theorem C97_recent (hs : List (Hist X)) (h : Hist X) :
    ((updates (hs ++ [h])).shown = none ∧ h.ended < 50) ∨
    ∃ g ∈ hs ++ [h], (updates (hs ++ [h])).shown = some (draw g.rows) ∧ h.ended < g.ended + 50 := by
  have hlast : h.ended < (updates (hs ++ [h])).last + 50 := by
    rw [updates_concat]
    simp only [liveUpdate]
    split
    · dsimp only; omega
    · rename_i hn; simp only [not_or, ge_iff_le, Nat.not_le] at hn; exact hn.2.2
  rcases shown_from (hs ++ [h]) with ⟨h1, h2⟩ | ⟨a, g, b, h1, h2, h3, _⟩
  · left; rw [h2] at hlast; exact ⟨h1, by omega⟩
  · right
    refine ⟨g, by rw [h1]; simp, h2, by omega⟩

/-- C97, if a local minimum is in a row whose number is not below the number of evaluations of the last picture: the
picture is drawn at once, and it has this minimum. -/
theorem C97_min_partial (hs : List (Hist X)) (h : Hist X) (i : Nat) (r : Row X) (hr : h.rows[i]? = some r) (hm : r.localMin = true)
    (hi : (updates hs).last ≤ i) :
    (updates (hs ++ [h])).shown = some (draw h.rows) ∧ r.x ∈ (draw h.rows).mins := by
  have hmem : r ∈ h.rows.drop (updates hs).last := by
    have : (h.rows.drop (updates hs).last)[i - (updates hs).last]? = some r := by
      rw [List.getElem?_drop, show (updates hs).last + (i - (updates hs).last) = i by omega]; exact hr
    exact List.mem_of_getElem? this
  constructor
  · rw [updates_concat, liveUpdate, if_pos]
    exact .inr (.inl (List.any_eq_true.mpr ⟨r, hmem, hm⟩))
  · simp only [draw, List.mem_map, List.mem_filter]
    exact ⟨r, ⟨List.mem_of_mem_drop hmem, hm⟩, rfl⟩

/-- C97: in the same way for the points of local optimizations, if there are more than 5 of them in such rows. -/
theorem C97_opts_partial (hs : List (Hist X)) (h : Hist X) (hm : 5 < (h.rows.drop (updates hs).last).countP (·.localPt)) :
    (updates (hs ++ [h])).shown = some (draw h.rows) := by
  rw [updates_concat, liveUpdate, if_pos (.inl hm)]

/-- C97: what is not seen.  If all local minima and all points of local optimizations are in rows below the number of
evaluations of the last picture, nothing is drawn until there are 50 more evaluations, however many minima are new. -/
theorem C97_min_missed (hs : List (Hist X)) (h : Hist X)
    (hm : ∀ i r, h.rows[i]? = some r → (updates hs).last ≤ i → r.localMin = false ∧ r.localPt = false)
    (he : h.ended < (updates hs).last + 50) : updates (hs ++ [h]) = updates hs := by
  have hall : ∀ r ∈ h.rows.drop (updates hs).last, r.localMin = false ∧ r.localPt = false := by
    intro r hr
    obtain ⟨j, hj⟩ := List.mem_iff_getElem?.mp hr
    rw [List.getElem?_drop] at hj
    exact hm _ r hj (by omega)
  rw [updates_concat, liveUpdate, if_neg]
  rintro (h1 | h1 | h1)
  · rw [List.countP_eq_zero.mpr (fun r hr => by simp [(hall r hr).2])] at h1; omega
  · obtain ⟨r, hr, ht⟩ := List.any_eq_true.mp h1
    rw [(hall r hr).1] at ht; cases ht
  · omega

/-- C97: so it goes on to the end of the run, if there are not 50 more. -/
theorem C97_min_missed_run (hs more : List (Hist X))
    (hm : ∀ h ∈ more, (∀ i r, h.rows[i]? = some r → (updates hs).last ≤ i → r.localMin = false ∧ r.localPt = false) ∧
      h.ended < (updates hs).last + 50) : updates (hs ++ more) = updates hs := by
  induction more generalizing hs with
  | nil => simp
  | cons h more ih =>
    have h1 := C97_min_missed hs h (hm h List.mem_cons_self).1 (hm h List.mem_cons_self).2
    rw [show hs ++ h :: more = (hs ++ [h]) ++ more by simp, ih, h1]
    rw [h1]
    exact fun g hg => hm g (List.mem_cons_of_mem _ hg)

/-- C97: the numbers in the text are those of the history that is drawn, if its count of evaluations is right. -/
theorem C97_numbers (h : Hist X) (hc : h.ended = h.rows.countP (·.simEnded)) :
    (draw h.rows).evaluated = h.ended ∧ (draw h.rows).numMin = (draw h.rows).mins.length := by
  simp [draw, hc, List.countP_eq_length_filter]

/-- C97: the marks of a picture are the local minima and the points of local optimizations of the history. -/
theorem C97_marks (h : List (Row X)) (x : X) :
    (x ∈ (draw h).mins ↔ ∃ r ∈ h, r.localMin = true ∧ r.x = x) ∧ (x ∈ (draw h).opts ↔ ∃ r ∈ h, r.localPt = true ∧ r.x = x) := by
  simp [draw, and_assoc]

/-- C97: the dots are all rows that are reserved: besides the points there is one for each row not used yet, at zero. -/
theorem C97_dots (h : Hist X) (zero : X) (hi : h.index ≤ h.rows.length) (hz : ∀ i r, h.rows[i]? = some r → h.index ≤ i → r.x = zero) :
    (draw h.rows).dots = (h.rows.take h.index).map (·.x) ++ List.replicate (h.rows.length - h.index) zero := by
  have h2 : (h.rows.drop h.index).map (·.x) = List.replicate (h.rows.length - h.index) zero := by
    rw [List.eq_replicate_iff]
    refine ⟨by simp, ?_⟩
    intro x hx
    obtain ⟨r, hr, rfl⟩ := List.mem_map.mp hx
    obtain ⟨j, hj⟩ := List.mem_iff_getElem?.mp hr
    rw [List.getElem?_drop] at hj
    exact hz _ r hj (by omega)
  rw [← h2, ← List.map_append, List.take_append_drop]
  rfl

/-! ## Cases -/

/-- 60 points, `n` of them evaluated, the minimum (if there is one) in row 10. -/
def exHist (n : Nat) (found : Bool) : Hist Nat where
  rows := (List.range 60).map fun i => ⟨i, false, found && i == 10, decide (i < n)⟩
  index := 60
  ended := n

/-- The minimum in row 10 is found after 50 evaluations have been drawn: the run ends with 60 evaluations, and the
picture still has 50 and no minimum. -/
theorem C97_missed_witness :
    (updates [exHist 1 false, exHist 50 false, exHist 55 true, exHist 60 true]).shown = some (draw (exHist 50 false).rows) ∧
    (draw (exHist 50 false).rows).numMin = 0 ∧ (draw (exHist 60 true).rows).mins = [10] := by decide +kernel

/-- Found before: it is drawn at once. -/
example : ((updates [exHist 1 false, exHist 40 true]).shown.map (·.mins)) = some [10] ∧ (updates [exHist 1 false, exHist 40 true]).last = 40 := by
  decide +kernel

/-- Three points, five rows reserved: two dots at zero. -/
theorem C97_dots_witness : (draw (X := Nat) [⟨4, false, false, true⟩, ⟨5, false, false, true⟩, ⟨6, false, false, false⟩,
    ⟨0, false, false, false⟩, ⟨0, false, false, false⟩]).dots = [4, 5, 6, 0, 0] := by decide

end Verif.Live
