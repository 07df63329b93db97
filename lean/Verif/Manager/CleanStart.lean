import Verif.History.Check
import Verif.Manager.PropsKill
/-
A prepended history that passes the test of `libE()` satisfies the conditions under which kill signals are studied.
-/
namespace Verif.Manager
open Verif.History

/-- Every history accepted by `_check_H0` is clean, if it has room, numbered rows (or none), and no row has `kill_sent` without
ever having been started. -/
theorem C18_checked_start (c : Start) (hc : c.Std) (inputs : List Field) (hv : checkH0 inputs c.cols c.H0 = true) (hL : 0 < c.L)
    (hids : Field.simId ∈ c.H0.fields → NumberedFromZero c.H0.rows)
    (hk : Field.killSent ∈ c.H0.fields → ∀ r ∈ c.H0.rows, r .simStarted = .s 0 → r .killSent = .s 0) : c.CleanH0 where
  room := .inl hL
  ids := hids
  done := by
    intro r hr
    obtain ⟨i, hi⟩ := List.mem_iff_getElem?.1 hr
    rcases Nat.lt_or_ge i c.H0.rows.length with h1 | h1
    · have hg : c.H0.rows[i]? = some c.H0.rows[i] := List.getElem?_eq_getElem h1
      obtain ⟨hlen, h2⟩ := C08_validated_partial inputs c.cols c.L c.H0 c.safe hL hv
      obtain ⟨r', hg', hall, hn, heq⟩ := h2 i _ hg
      have hrr : r' = r := by
        unfold trimH at hg'
        rw [List.getElem?_take] at hg'
        split at hg'
        · rw [show (init c.cols c.L c.H0 c.safe).rows[i]? = some r from hi] at hg'
          cases hg'; rfl
        · cases hg'
      subst hrr
      by_cases hz : r' .simStarted = .s 0
      · right
        refine ⟨hz, ?_⟩
        have hst : Field.simStarted ∈ c.H0.fields := by
          rcases Classical.em (Field.simStarted ∈ c.H0.fields) with h | h
          · exact h
          · rw [(hn h).1] at hz; cases hz
        by_cases hks : Field.killSent ∈ c.H0.fields
        · rw [hall _ hks]
          exact hk hks _ (List.getElem_mem h1) (by rw [← hall _ hst]; exact hz)
        · have h3 := init_get_h0 c.cols c.L c.H0 c.safe hL i _ hg
          rw [show (init c.cols c.L c.H0 c.safe).rows[i]? = some r' from hi] at h3
          cases h3
          have hzz := zeroRow_lib _ hc.lib.scalar .killSent (by simp [libEFields])
          have hzz' : zeroRow (init c.cols c.L c.H0 c.safe).cols .killSent = .s 0 := hzz
          unfold h0Row
          by_cases ha : Field.simStarted ∈ c.H0.fields <;> by_cases hb : Field.simEnded ∈ c.H0.fields <;>
            by_cases hd : Field.simId ∈ c.H0.fields <;> simp [Row.set, hks, ha, hb, hd, hzz']
      · left
        simp only [Row.flag, decide_eq_true_eq]
        rw [← heq]; exact hz
    · right
      have hlt : i < c.H0.rows.length + c.L := by
        have := (List.getElem?_eq_some_iff.mp hi).1
        rw [show c.hist.rows.length = c.H0.rows.length + c.L from init_length _ _ _ _] at this
        exact this
      have h3 := init_get_fresh c.cols c.L c.H0 c.safe i h1 hlt
      rw [show (init c.cols c.L c.H0 c.safe).rows[i]? = some r from hi] at h3
      cases h3
      constructor
      · exact freshRow_lib _ hc.lib.scalar _ (by simp [libEFields]) (by simp) (by simp) (by simp)
      · exact freshRow_lib _ hc.lib.scalar _ (by simp [libEFields]) (by simp) (by simp) (by simp)

/-- An accepted history with one evaluated and one waiting row. -/
def checkedDemo : Start := { kdemo with
  H0 := ⟨[(.simEnded, .scalar), (.simStarted, .scalar), (.user 1, .vec 2)],
    [mkRow [(.simEnded, .s 1), (.simStarted, .s 1), (.user 1, .v [1, 2])], mkRow [(.simEnded, .s 0), (.simStarted, .s 0), (.user 1, .v [3, 4])]]⟩ }

example : checkedDemo.CleanH0 :=
  C18_checked_start checkedDemo ⟨bdemo_std.has, bdemo_std.sc, by unfold LibScalar; decide⟩ [] (by decide) (by decide)
    (by simp [checkedDemo, Rec.fields]) (by simp [checkedDemo, Rec.fields])

end Verif.Manager
