import Verif.Manager.EndsPers
import Verif.Manager.EndsDemo
/-!
C68 for `only_persistent_gens`: a run that meets the hypotheses.
-/
namespace Verif.Manager
open Verif.History Verif.Res Verif.Sched Verif.Alloc

/-- `Replies` as a test. -/
def repliesB : List Ev → Bool
  | .recv w (.data d) :: tr => (decide (owes w tr = some d.calcType) && !d.keepState) && repliesB tr
  | _ :: tr => repliesB tr
  | [] => true

theorem repliesB_sound : ∀ {tr : List Ev}, repliesB tr = true → Replies tr
  | [], _ => by intro post w d pre he; simp at he
  | e :: tr, h => by
    have h2 : repliesB tr = true := by
      unfold repliesB at h
      split at h
      · rename_i heq; injection heq with e1 e2; subst e2
        simp only [Bool.and_eq_true] at h; exact h.2
      · rename_i heq; injection heq with e1 e2; subst e2; exact h
      · rename_i heq; cases heq
    intro post w d pre he
    cases post with
    | nil =>
      injection he with e1 e2
      subst e1 e2
      simp only [repliesB, Bool.and_eq_true, decide_eq_true_eq, Bool.not_eq_true'] at h
      exact h.1
    | cons x post =>
      injection he with e1 e2
      exact repliesB_sound h2 post w d pre e2

/-- Four evaluations are asked for. -/
def pendDemo : Start := { gdemo with sp := { finalGenSend := true, simMax := some 4 } }
theorem pendDemo_std : pendDemo.Std := ⟨bdemo_std.has, bdemo_std.sc, bdemo_std.sc0⟩
def ppass (mail : List Mail) : Iter := bpass (.persGens gopts) demoEnv pendDemo.sp mail

/-- Both generators produce points, get the results of their own points; the first one produces another one. -/
def pendIts : List Iter :=
  [ppass [], ppass [ppoints 1 [10, 20], ppoints 2 [30]], ppass [value 3 [0] [5], value 4 [1] [6]], ppass [value 3 [2] [7]], ppass [ppoints 1 [40]],
   ppass [value 3 [3] [8]], ppass []]
def pendPass (k : Nat) : Iter := pendIts.getD k (ppass [])

theorem pendPass_uses (k : Nat) : (pendPass k).uses (.persGens gopts) demoEnv pendDemo.sp := by
  unfold pendPass
  match k with
  | 0 | 1 | 2 | 3 | 4 | 5 | 6 => exact bpass_uses _ _ _ _ _
  | k + 7 => simp only [pendIts, List.getD_cons_succ, List.getD_nil]; exact bpass_uses _ _ _ _ _

theorem pendPass_clock (k : Nat) : (pendPass k).e2 ≤ (pendPass (k + 1)).e1 := by
  unfold pendPass
  match k with
  | 0 | 1 | 2 | 3 | 4 | 5 | 6 => exact Int.le_refl _
  | k + 7 => simp only [pendIts, List.getD_cons_succ, List.getD_nil]; exact Int.le_refl _

def respondingB (tr : List Ev) : Bool := repliesB tr && honestB tr

theorem pendDemo_ended : (pendDemo.loop (passes pendPass 7)).2 ≠ .running := by decide +kernel

theorem pendDemo_responding (k : Nat) : Responding pendDemo (pendDemo.loop (passes pendPass k)).1.tr := by
  have h : ((List.range 8).all fun k => respondingB (pendDemo.loop (passes pendPass k)).1.tr) = true := by decide +kernel
  have key : respondingB (pendDemo.loop (passes pendPass k)).1.tr = true := by
    by_cases hk : k < 8
    · exact List.all_eq_true.mp h k (List.mem_range.mpr hk)
    · rw [passes_ended pendDemo_ended k (by omega)]; exact List.all_eq_true.mp h 7 (by decide)
  simp only [respondingB, Bool.and_eq_true] at key
  exact ⟨pendDemo_std, .inl rfl, repliesB_sound key.1, honestB_sound key.2⟩

example : ∃ k, (pendDemo.loop (passes pendPass k)).2 ≠ .running :=
  C68_persGens_ends_partial pendDemo gopts rfl demoEnv pendPass pendPass_uses 4 rfl pendDemo_responding pendPass_clock (fair_ended pendDemo_ended)

/-- The manager waits in this run: after the first points came worker 3 owes an answer; four evaluations and three answers of generators came in
when it ends. -/
example : (pendDemo.loop (passes pendPass 2)).2 = .running ∧ owes 3 (pendDemo.loop (passes pendPass 2)).1.tr = some EVAL_SIM ∧
    answerCount EVAL_SIM (pendDemo.loop (passes pendPass 7)).1.tr = 4 ∧ answerCount EVAL_GEN (pendDemo.loop (passes pendPass 7)).1.tr = 3 ∧
    (pendDemo.loop (passes pendPass 5)).2 = .running ∧ (pendDemo.loop (passes pendPass 7)).2 = .stopped 1 := by
  decide +kernel

end Verif.Manager
