import Verif.Manager.Totals
/-!
Property C50: the counters of started and ended evaluations agree with the flags of the rows.

`countFlag rows f` is the number of rows in which `f` is not zero; `histAt c.hist pre` is the history after the events
`pre` of the run; `simBack tr` are the rows for which results were recorded, `simGiven tr` the rows in orders for
evaluation.
-/
namespace Verif.Manager
open Verif.History Verif.Res Verif.Sched Verif.Alloc

/-- The number of rows from which a flag can be read as set. -/
def flagged (h : Hist) (f : Field) : Nat := ((List.range h.rows.length).filter fun i => decide (∃ v, cell h.rows i f = some v ∧ v ≠ .s 0)).length

/-- `flagged` is what numpy counts. -/
theorem flagged_eq (h : Hist) (f : Field) : flagged h f = countFlag h.rows f := by
  rw [countFlag_range _ _ _ (Nat.le_refl _), flagged]
  congr 2
  funext i
  rw [flagAt_cell]
  cases cell h.rows i f <;> simp

/-- At every moment of a run with a bundled allocation function, the counters are the numbers of flagged rows.  Partial:
in safe mode or without protected fields in the returned arrays; workers return results only of rows they were given, and
of each row once; prepended rows that are `sim_ended` are `sim_started`; and for the functions that work through the rows
in order, no prepended row is marked as started (see the witnesses). -/
theorem C50_totals_partial (c : Start) (hc : c.Std) (b : Bundled) (env : AllocEnv)
    (hpi : ∀ lp n, b = .aposmm lp n → c.pinfo.firstCall = false → c.pinfo.nextToGive ≠ none) (its : List Iter)
    (hits : ∀ it ∈ its, it.uses b env c.sp) (t : Nat → Int) (rounds : List Round)
    (hprot : c.safe = true ∨ Polite (c.run its t rounds).1.tr) (hh : Honest (c.run its t rounds).1.tr)
    (hback : (simBack (c.run its t rounds).1.tr).Nodup)
    (h0 : ∀ r ∈ c.hist.rows, r.flag .simEnded = true → r.flag .simStarted = true)
    (h1 : b.byPriority = true ∨ ∀ r ∈ c.hist.rows, r.flag .simStarted = false)
    (post pre : List Ev) (he : (c.run its t rounds).1.tr = post ++ pre) :
    (histAt c.hist pre).simStartedCount = flagged (histAt c.hist pre) .simStarted ∧
    (histAt c.hist pre).simEndedCount = flagged (histAt c.hist pre) .simEnded := by
  obtain ⟨p, _, hr⟩ := c.reachB its t rounds hits
  have hk := start_kept hr hprot
  have hn : (simGiven (c.run its t rounds).1.tr).Nodup := by
    cases hb : b.byPriority with
    | true => exact C11_waiting_partial c hc b hb env its hits t rounds hprot
    | false => exact C11_in_order c b hb env hpi its hits t rounds
  have hs : ∀ i ∈ simGiven (c.run its t rounds).1.tr, flagAt c.hist.rows .simStarted i = false := by
    intro i hi
    rcases h1 with h1 | h1
    · exact prio_fresh h1 hc hr hprot i (List.mem_append_left _ hi)
    · refine Bool.eq_false_iff.mpr (fun h => ?_)
      simp only [flagAt, Option.any_eq_true] at h
      obtain ⟨r, hr1, hr2⟩ := h
      rw [h1 r (List.mem_of_getElem? hr1)] at hr2; simp at hr2
  have hd : ∀ i ∈ simGiven (c.run its t rounds).1.tr, flagAt c.hist.rows .simEnded i = false := by
    intro i hi
    refine Bool.eq_false_iff.mpr (fun h => ?_)
    have h2 := hs i hi
    simp only [flagAt, Option.any_eq_true] at h
    obtain ⟨r, hr1, hr2⟩ := h
    have h3 := h0 r (List.mem_of_getElem? hr1) hr2
    simp [flagAt, hr1, h3] at h2
  have hkp : OpsOk c pre := OpsOk.suffix (l := post) (by rw [← he]; exact hk)
  rw [flagged_eq, flagged_eq]
  refine ⟨started_total hc hkp (fun po rows w t' k pr he2 => ?_), ended_total hc hkp (fun po rows d t' k pr he2 => ?_)⟩
  · exact give_new hc hr hk hn hs (post := post ++ po) (w := w) (t := t') (k := k) (by rw [he, he2]; simp)
  · exact back_new hc hr hk hh hback hd (post := post ++ po) (d := d) (t := t') (k := k) (by rw [he, he2]; simp)

/-- The history at the end of the run. -/
theorem C50_final_partial (c : Start) (hc : c.Std) (b : Bundled) (env : AllocEnv)
    (hpi : ∀ lp n, b = .aposmm lp n → c.pinfo.firstCall = false → c.pinfo.nextToGive ≠ none) (its : List Iter)
    (hits : ∀ it ∈ its, it.uses b env c.sp) (t : Nat → Int) (rounds : List Round)
    (hprot : c.safe = true ∨ Polite (c.run its t rounds).1.tr) (hh : Honest (c.run its t rounds).1.tr)
    (hback : (simBack (c.run its t rounds).1.tr).Nodup)
    (h0 : ∀ r ∈ c.hist.rows, r.flag .simEnded = true → r.flag .simStarted = true)
    (h1 : b.byPriority = true ∨ ∀ r ∈ c.hist.rows, r.flag .simStarted = false) :
    (c.run its t rounds).1.hist.simStartedCount = flagged (c.run its t rounds).1.hist .simStarted ∧
    (c.run its t rounds).1.hist.simEndedCount = flagged (c.run its t rounds).1.hist .simEnded := by
  obtain ⟨p, _, hr⟩ := c.reachB its t rounds hits
  rw [start_histAt hr]
  exact C50_totals_partial c hc b env hpi its hits t rounds hprot hh hback h0 h1 [] _ rfl

theorem sdemo_std : sdemo.Std := ⟨bdemo_std.has, bdemo_std.sc, bdemo_std.sc0⟩

/-- The theorem applied to a run with three rows given and two evaluated. -/
example : flagged (sdemo.run (onceIts (.simFirst {})) (fun _ => 0) []).1.hist .simStarted = 3 ∧
    flagged (sdemo.run (onceIts (.simFirst {})) (fun _ => 0) []).1.hist .simEnded = 2 := by
  have h := C50_final_partial sdemo sdemo_std (.simFirst {}) demoEnv (by intro _ _ h; cases h) (onceIts (.simFirst {}))
    (by
      intro it hit
      simp only [onceIts, List.mem_cons, List.not_mem_nil, or_false] at hit
      rcases hit with rfl | rfl | rfl | rfl <;> exact bpass_uses _ _ _ _ _) (fun _ => 0) [] (.inl rfl) (honestB_sound (by decide +kernel))
    (by decide +kernel) (by decide +kernel) (.inl rfl)
  rw [← h.1, ← h.2]
  decide +kernel

/-- A prepended row that is given and evaluated already. -/
def againDemo : Start := { sdemo with H0 := ⟨[(.user 1, .vec 2), (.simId, .scalar), (.simStarted, .scalar), (.simEnded, .scalar)],
  [mkRow [(.user 1, .v [3, 4]), (.simId, .s 0), (.simStarted, .s 1), (.simEnded, .s 1)]]⟩ }

theorem againDemo_std : againDemo.Std := ⟨bdemo_std.has, bdemo_std.sc, by unfold LibScalar; decide⟩

def againIts : List Iter := [bpass (.fast {}) demoEnv againDemo.sp [], bpass (.fast {}) demoEnv againDemo.sp [value 2 [0] [6]]]

/-- Witness: a function that works through the rows in order from row 0 gives a prepended row again; it is counted twice
and flagged once. -/
theorem C50_prepended_witness : ∃ (c : Start) (b : Bundled) (its : List Iter), c.Std ∧ c.safe = true ∧ (∀ it ∈ its, it.uses b demoEnv c.sp) ∧
    Honest (c.run its (fun _ => 0) []).1.tr ∧ (simBack (c.run its (fun _ => 0) []).1.tr).Nodup ∧
    (c.run its (fun _ => 0) []).2 = .running ∧
    (c.run its (fun _ => 0) []).1.hist.simStartedCount = 2 ∧ flagged (c.run its (fun _ => 0) []).1.hist .simStarted = 1 ∧
    (c.run its (fun _ => 0) []).1.hist.simEndedCount = 2 ∧ flagged (c.run its (fun _ => 0) []).1.hist .simEnded = 1 := by
  refine ⟨againDemo, .fast {}, againIts, againDemo_std, rfl, ?_, honestB_sound ?_, ?_, ?_, ?_, ?_, ?_, ?_⟩
  · intro it hit
    simp only [againIts, List.mem_cons, List.not_mem_nil, or_false] at hit
    rcases hit with rfl | rfl <;> exact bpass_uses _ _ _ _ _
  all_goals decide +kernel

/-- Witness: nothing in the manager refuses the result of a row that has its result already; a row returned twice is
counted twice. -/
theorem C50_twice_witness : ∃ (its : List Iter), (∀ it ∈ its, it.uses (.simFirst {}) demoEnv sdemo.sp) ∧
    Honest (sdemo.run its (fun _ => 0) []).1.tr ∧ (sdemo.run its (fun _ => 0) []).2 = .running ∧
    (sdemo.run its (fun _ => 0) []).1.hist.simEndedCount = 2 ∧ flagged (sdemo.run its (fun _ => 0) []).1.hist .simEnded = 1 := by
  refine ⟨[bpass (.simFirst {}) demoEnv sdemo.sp [], bpass (.simFirst {}) demoEnv sdemo.sp [points 1 [10]],
    bpass (.simFirst {}) demoEnv sdemo.sp [value 2 [0] [6], value 2 [0] [7]]], ?_, honestB_sound ?_, ?_, ?_, ?_⟩
  · intro it hit
    simp only [List.mem_cons, List.not_mem_nil, or_false] at hit
    rcases hit with rfl | rfl | rfl <;> exact bpass_uses _ _ _ _ _
  all_goals decide +kernel

end Verif.Manager
