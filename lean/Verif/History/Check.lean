import Verif.History.Props
/-
The test that `libE()` makes of a prepended history before the run (`_check_H0`, utils/specs_checkers.py:35-63, called through
utils/pydantic_bindings.py:101-108 and libE.py:229) and what it guarantees.
-/
namespace Verif.History

/-- `_check_H0` (specs_checkers.py:35-63).  `inputs`: all fields named in `in` and `persis_in`; `cols`: the bookkeeping fields
and all outputs.  False: the run does not begin (AssertionError, or ValueError because there is no `sim_started`).  The
comparison of shapes at the end is not modelled: it is never made, because names are looked up in a list of pairs
(specs_checkers.py:61). -/
def checkH0 (inputs : List Field) (cols : List (Field × Shape)) (H0 : Rec) : Bool :=
  H0.rows.isEmpty ||
    (inputs.all (fun f => decide (f ∈ H0.fields ∨ f ∈ cols.map (·.1))) &&
      (decide (Field.simEnded ∉ H0.fields) ||
        (decide (Field.simStarted ∈ H0.fields) && H0.rows.all (fun r => decide (r .simStarted = r .simEnded)))))

/-- What an accepted history satisfies. -/
theorem checkH0_flags {inputs : List Field} {cols : List (Field × Shape)} {H0 : Rec} (h : checkH0 inputs cols H0 = true)
    (he : .simEnded ∈ H0.fields) (r : Row) (hr : r ∈ H0.rows) : Field.simStarted ∈ H0.fields ∧ r .simStarted = r .simEnded := by
  simp only [checkH0, Bool.or_eq_true, Bool.and_eq_true, decide_eq_true_eq, List.isEmpty_iff, List.all_eq_true] at h
  rcases h with h | ⟨_, h | ⟨h1, h2⟩⟩
  · rw [h] at hr; cases hr
  · exact absurd he h
  · exact ⟨h1, h2 r hr⟩

/-- A prepended history that passes the test of `libE()` (with `sim_max > 0`): its rows come first, with every field they had
unchanged; rows without a start flag count as started and ended; a row counts as started exactly if it counts as ended.
Partial: for `sim_max = 0` see `C08_sim_max_zero_witness`; the `gen_max` counter is treated in C14. -/
theorem C08_validated_partial (inputs : List Field) (cols : List (Field × Shape)) (L : Nat) (H0 : Rec) (safe : Bool) (hL : 0 < L)
    (hv : checkH0 inputs cols H0 = true) :
    (trimH (init cols L H0 safe)).length = H0.rows.length ∧
    ∀ (i : Nat) (r0 : Row), H0.rows[i]? = some r0 → ∃ r, (trimH (init cols L H0 safe))[i]? = some r ∧
      (∀ f ∈ H0.fields, r f = r0 f) ∧
      (Field.simStarted ∉ H0.fields → r .simStarted = .s 1 ∧ r .simEnded = .s 1) ∧
      r .simStarted = r .simEnded := by
  obtain ⟨h1, h2, _⟩ := C08_prepended_partial cols L H0 safe hL
  refine ⟨h1, fun i r0 hr => ?_⟩
  obtain ⟨r, hg, hf, hn, hs, _⟩ := h2 i r0 hr
  have hm : r0 ∈ H0.rows := List.mem_of_getElem? hr
  have hall : ∀ f ∈ H0.fields, r f = r0 f := by
    intro f hfm
    refine hf f hfm ?_
    intro e
    subst e
    exact (checkH0_flags hv hfm r0 hm).1
  refine ⟨r, hg, hall, hn, ?_⟩
  by_cases ha : Field.simStarted ∈ H0.fields
  · by_cases hb : Field.simEnded ∈ H0.fields
    · rw [hall _ ha, hall _ hb]; exact (checkH0_flags hv hb r0 hm).2
    · rw [hall _ ha, hs ha hb]
  · obtain ⟨h3, h4⟩ := hn ha
    rw [h3, h4]

/-- The history of `C08_ended_overwritten_witness` does not pass the test, so it can only reach the `History` class directly. -/
example : checkH0 [] demoCols ⟨[(.simEnded, .scalar)], [mkRow [(.simEnded, .s 0)]]⟩ = false := by decide

example : checkH0 [.user 0] demoCols ⟨[(.simEnded, .scalar), (.simStarted, .scalar), (.user 0, .scalar)],
    [mkRow [(.simEnded, .s 1), (.simStarted, .s 1), (.user 0, .s 7)], mkRow [(.user 0, .s 8)]]⟩ = true := by decide

/-- Rows that were started but not evaluated are refused. -/
example : checkH0 [] demoCols ⟨[(.simEnded, .scalar), (.simStarted, .scalar)], [mkRow [(.simStarted, .s 1)]]⟩ = false := by decide

end Verif.History
