import Verif.Manager.Ckpt
import Verif.Manager.PropsEnd
/-!
Property C49: periodic checkpoints.

`histAt c.hist tr` is the history after the events `tr`; `FilesOk` says that there is no file, or one, whose number is the
largest multiple of `k` reached at some earlier moment and which holds all points of the history at that moment;
`FilesNow` that in addition this number is the largest multiple of `k` reached until now.
-/
namespace Verif.Manager
open Verif.History Verif.Res Verif.Sched Verif.Alloc

/-- At any time before the run is over there is at most one file of each kind, with the contents and name promised. -/
theorem C49_contents (c : Start) (its : List Iter) (t : Nat → Int) (rounds : List Round)
    (h : (c.run its t rounds).2.over = false) (k : Nat) (hk : 0 < k) :
    (c.sp.kSims = some k →
      FilesOk c.hist (·.simEndedCount) k (c.run its t rounds).1.simFiles (c.run its t rounds).1.tr) ∧
    (c.sp.kGens = some k → FilesOk c.hist (·.index) k (c.run its t rounds).1.genFiles (c.run its t rounds).1.tr) := by
  obtain ⟨p, hp, hr⟩ := c.reach its t rounds
  have hnd : ∀ x, p ≠ .done x := by
    rintro x rfl
    generalize (c.run its t rounds).2 = o at hp h
    cases o <;> simp_all [Outcome.ph, Outcome.over]
  exact ⟨fun h => (hr.files (simKind h hk) rfl rfl hnd).1, fun h => (hr.files (genKind h hk) rfl rfl hnd).1⟩

/-- A file is written whenever the number of completed points passes a multiple of `k`: after every pass of the main loop
the file carries the largest multiple reached. -/
theorem C49_up_to_date (c : Start) (its : List Iter) (hne : its ≠ []) (h : (c.loop its).2 = .running) (k : Nat) (hk : 0 < k) :
    (c.sp.kSims = some k → FilesNow c.hist (·.simEndedCount) k (c.loop its).1.simFiles (c.loop its).1.tr) ∧
    (c.sp.kGens = some k → FilesNow c.hist (·.index) k (c.loop its).1.genFiles (c.loop its).1.tr) := by
  have hr := (loop_reach c its).1 h
  have htr : (c.loop its).1.tr ≠ [] := by
    obtain ⟨l, hl, hne'⟩ := mainLoop_tr (sp := c.sp) its c.st
    simp only [Start.loop]
    rw [hl]
    intro h0
    exact hne' hne (List.append_eq_nil_iff.mp h0).1
  refine ⟨fun h => ?_, fun h => ?_⟩
  · rcases (hr.files (simKind h hk) rfl rfl (by simp)).2.2 rfl with h' | h'
    · exact absurd h' htr
    · exact h'
  · rcases (hr.files (genKind h hk) rfl rfl (by simp)).2.2 rfl with h' | h'
    · exact absurd h' htr
    · exact h'

/-- At the end of a run without `save_H_on_completion` the files are up to date; with it the last file of the run
holds the complete history. -/
theorem C49_at_end (c : Start) (its : List Iter) (t : Nat → Int) (rounds : List Round)
    (h : (c.run its t rounds).2.over = true) (k : Nat) (hk : 0 < k) :
    (c.sp.saveDone = false →
      (c.sp.kSims = some k →
        FilesNow c.hist (·.simEndedCount) k (c.run its t rounds).1.simFiles (c.run its t rounds).1.tr) ∧
      (c.sp.kGens = some k → FilesNow c.hist (·.index) k (c.run its t rounds).1.genFiles (c.run its t rounds).1.tr)) ∧
    (c.sp.saveDone = true →
      (c.sp.kSims = some k → (c.run its t rounds).1.simFiles =
        [((c.run its t rounds).1.hist.simEndedCount, trimH (c.run its t rounds).1.hist)]) ∧
      (c.sp.kGens = some k → (c.run its t rounds).1.genFiles =
        [((c.run its t rounds).1.hist.index, trimH (c.run its t rounds).1.hist)])) := by
  have hr := (run_done c its t rounds h).1
  exact ⟨fun hd => ⟨fun h => (hr.filesDone (simKind h hk) rfl rfl).2 hd, fun h => (hr.filesDone (genKind h hk) rfl rfl).2 hd⟩,
    fun hd => ⟨fun h => (hr.filesDone (simKind h hk) rfl rfl).1 hd, fun h => (hr.filesDone (genKind h hk) rfl rfl).1 hd⟩⟩

/-- The demo run with checkpoints after every two evaluations and after every two generated points; the last evaluation
comes in during the shutdown. -/
def ckptDemo (done : Bool) : Start := { demo with sp := { simMax := some 3, kSims := some 2, kGens := some 2, saveDone := done } }
def ckptIts : List Iter := demoIts ++ [pass [value 2 [2] [8], value 1 [0] [9]] []]

example : (((ckptDemo false).loop demoIts).1.simFiles.map (·.1), ((ckptDemo false).loop demoIts).1.genFiles.map fun f => (f.1, f.2.length)) =
    ([], [(2, 3)]) ∧ ((ckptDemo false).loop ckptIts).2 = .running ∧
    (((ckptDemo false).loop ckptIts).1.simFiles.map fun f => (f.1, (f.2.filter fun r => r.flag .simEnded).length)) = [(2, 3)] ∧
    ((ckptDemo false).run (ckptIts ++ [pass [] []]) (fun _ => 0) []).2 = .returned 0 := by decide +kernel

/-- The name does not always carry a multiple of `k`: the file written at the end of a run (which is always written when
`save_every_k_sims` is set, validators.py:131-136) carries the number of evaluations. -/
theorem C49_last_name_witness : ∃ (c : Start) (its : List Iter), c.sp.kSims = some 2 ∧ c.sp.saveDone = true ∧
    (c.run its (fun _ => 0) []).2 = .returned 0 ∧ (c.run its (fun _ => 0) []).1.simFiles.map (·.1) = [3] :=
  ⟨ckptDemo true, ckptIts ++ [pass [] []], by decide +kernel⟩

/-- A file of an earlier run in the same directory (names carry no date by default) with the same number is kept
although its contents are those of the earlier run. -/
theorem C49_leftover_witness : ∃ (old H : List Row), old ≠ H ∧ saveEveryK [(2, old)] H 3 2 false = [(2, old)] :=
  ⟨[fun _ => .s 0], [], by simp, rfl⟩

end Verif.Manager
