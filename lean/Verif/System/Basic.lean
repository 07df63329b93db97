import Verif.System.Spec
/-
Simple facts about the joint system (helper for Props.lean).
-/
namespace Verif.System
open Verif Verif.Worker

variable {env : Env} {tr : List Manager.Ev} {ws : Nat → W}

theorem deliver_act (w : Nat) (e : Manager.Ev) (s : W) (F : UserF) :
    deliver w e s = ((msgTo w e).map Act.send).elim s (act F s) := by
  unfold deliver
  cases msgTo w e <;> rfl

/-- Each worker is a worker in the sense of `Verif.Worker`, to which the messages of the manager were sent. -/
theorem Joint.worker (h : Joint env tr ws) (w : Nat) :
    ∃ as, ws w = Worker.run (env.F w) (env.kind w) as ∧ sends as = sentTo w tr := by
  induction h with
  | init => exact ⟨[], rfl, rfl⟩
  | man e _ _ ih =>
    obtain ⟨as, h1, h2⟩ := ih
    simp only [deliver, sentTo]
    cases msgTo w e with
    | none => exact ⟨as, h1, by simpa using h2⟩
    | some m =>
      refine ⟨as ++ [.send m], ?_, ?_⟩
      · simp only [Worker.run, List.foldl_append, List.foldl_cons, List.foldl_nil, act]
        rw [show as.foldl (act (env.F w)) { chan := { kind := env.kind w } } = Worker.run (env.F w) (env.kind w) as from rfl, ← h1]
      · rw [sends_append, h2]; rfl
  | carry v _ ih =>
    obtain ⟨as, h1, h2⟩ := ih
    by_cases hv : w = v
    · subst hv
      refine ⟨as ++ [.carry], ?_, by rw [sends_append, h2]; simp [sends]⟩
      simp only [if_true, Worker.run, List.foldl_append, List.foldl_cons, List.foldl_nil, act]
      rw [show as.foldl (act (env.F w)) { chan := { kind := env.kind w } } = Worker.run (env.F w) (env.kind w) as from rfl, ← h1]
    · exact ⟨as, by simp only [if_neg hv]; exact h1, h2⟩
  | tick v _ ih =>
    obtain ⟨as, h1, h2⟩ := ih
    by_cases hv : w = v
    · subst hv
      refine ⟨as ++ [.tick], ?_, by rw [sends_append, h2]; simp [sends]⟩
      simp only [if_true, Worker.run, List.foldl_append, List.foldl_cons, List.foldl_nil, act]
      rw [show as.foldl (act (env.F w)) { chan := { kind := env.kind w } } = Worker.run (env.F w) (env.kind w) as from rfl, ← h1]
    · exact ⟨as, by simp only [if_neg hv]; exact h1, h2⟩

/-- What has been sent is what has been taken and what is left. -/
theorem Joint.taken (h : Joint env tr ws) (w : Nat) : Worker.taken (ws w).tr ++ left (ws w).chan = sentTo w tr := by
  obtain ⟨as, h1, h2⟩ := h.worker w
  rw [h1, ← h2]
  exact taken_run _ _ _

theorem Joint.fine (h : Joint env tr ws) (w : Nat) : Worker.Fine (ws w) := by
  obtain ⟨as, h1, _⟩ := h.worker w
  rw [h1]; exact fine_run _ _ _

theorem ords_append (a b : List Msg) : ords (a ++ b) = ords a ++ ords b := List.filterMap_append ..

theorem outs_append (l tr : List Ev) : outs (l ++ tr) = outs tr ++ (outs (l ++ tr)).drop (outs tr).length := by
  induction l with
  | nil => simp
  | cons e l ih =>
    cases e with
    | out x =>
      simp only [List.cons_append, outs]
      conv => lhs; rw [ih]
      rw [List.drop_append_of_le_length, List.append_assoc]
      rw [ih]; simp
    | _ => exact ih

end Verif.System
