import Verif.System.PropsDismiss
import Verif.System.ShutdownDemo
import Verif.System.ClosingDemo
/-!
Property C75, the workers: examples, and a worker that misses the signal to finish.
-/
namespace Verif.System
open Verif Verif.Worker
open Verif.Manager (gopts)

/-- All conditions are met by the demo runs. -/
example : ∀ w ∈ shutDemo.workers, ∃ m, ∀ j, m ≤ j → ((shutCourse.at_ j).ws w).ph = .ended :=
  C75_dismissed_partial shutCourse shutAlloc rfl Manager.demoEnv shut_uses rfl (fun _ => lookF_simple) 4 (by decide +kernel)

example : ∀ w ∈ closeDemo.workers, ∃ m, ∀ j, m ≤ j → ((closeCourse.at_ j).ws w).ph = .ended :=
  C75_gens_dismissed_partial closeCourse gopts ⟨rfl, rfl, rfl, rfl⟩ Manager.demoEnv close_uses (fun _ => leaveF_simple) (fun _ => leaveF_leaving) 4 close_returned

example : shutDemo.workers ≠ [] ∧ closeDemo.workers ≠ [] := by decide

/-- A simulation that looks for signals and returns with a status of its own (35, `WORKER_DONE`), whatever it saw. -/
def reportF : UserF := fun _ _ _ h => if h.length = 0 then .poll else .ret (.triple 35)

theorem reportF_simple : Simple reportF where
  acts n o rows h _ := by
    unfold reportF
    split
    · exact .inl rfl
    · exact .inr ⟨_, rfl, by decide, by decide⟩
  ends n o rows _ := ⟨1, fun h hl => ⟨.triple 35, by unfold reportF; rw [if_neg (by omega)]⟩⟩

def reportActs : List Act :=
  [.send (EVAL_SIM, .work { tag := EVAL_SIM, rows := [] }), .carry, .tick, .send finish, .carry, .tick, .tick]

/-- When a run returns with flag 2 (the time is up) while a simulation is at work, the signal to finish can come while the simulation
looks for signals.  It is pushed back, and dropped when the simulation returns with a status of its own: the worker waits for ever. -/
theorem C75_hidden_witness (n : Nat) : (Worker.run reportF .queue (reportActs ++ List.replicate n .tick)).ph = .idle ∧
    left (Worker.run reportF .queue (reportActs ++ List.replicate n .tick)).chan = [] := by
  induction n with
  | zero => decide
  | succ n ih =>
    have hs : Worker.run reportF .queue (reportActs ++ List.replicate (n + 1) .tick) = tick reportF (Worker.run reportF .queue (reportActs ++ List.replicate n .tick)) := by
      rw [List.replicate_succ', ← List.append_assoc, Worker.run, List.foldl_append]
      rfl
    rw [hs]
    generalize Worker.run reportF .queue (reportActs ++ List.replicate n .tick) = w at ih
    have hb : w.chan.buf = none := by
      have := ih.2
      simp only [left, List.append_eq_nil_iff] at this
      cases h : w.chan.buf with
      | none => rfl
      | some m => rw [h] at this; simp at this
    rcases tick_idle (F := reportF) ih.1 hb with ⟨h, _⟩ | ⟨m, ch, _, _, h, _⟩
    · rw [h]; exact ih
    · rw [ih.2] at h; cases h

end Verif.System
