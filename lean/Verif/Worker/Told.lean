import Verif.Worker.Steps
/-!
C38: what `recv` and `manager_poll` tell the user function is what was in the messages.
-/
namespace Verif.Worker
open Verif.Comms

/-- Observations that carry something from the manager. -/
def Obs.informs : Obs → Bool
  | .signal .. | .input .. | .poll (some _) => true
  | _ => false

/-- What a user function should have been told since it was called, from the messages taken for it and put back: an order
with the rows that came next, a stop message as tag and signal, what a poll found; newest first. -/
def told : List Ev → List Obs
  | [] => []
  | .start .. :: _ => []
  | .uback m :: .ptook _ :: tr => .poll (some m.2) :: told tr
  | .uback m :: .utook _ :: tr => .signal m.1 m.2 :: told tr
  | .uback m :: .utookRows _ :: tr => .signal m.1 m.2 :: told tr
  | .utookRows m :: .utook (t, .work o) :: tr => .input t o m.2 :: told tr
  | _ :: tr => told tr

/-- The user function knows what it should. -/
def Knows (w : W) : Prop :=
  match w.ph with
  | .user _ _ h => h.filter Obs.informs = told w.tr
  | .userRows _ _ h t o => ∃ tr, w.tr = .utook (t, .work o) :: tr ∧ h.filter Obs.informs = told tr
  | _ => True

theorem knows_call {w : W} {o : Order} {rows : Option Body} : Knows (w.call o rows) := by
  unfold W.call
  split
  · exact rfl
  · trivial

theorem knows_handle {w : W} {m : Msg} (h : Knows w) (hp : w.ph = .idle) : Knows (w.handle m) := by
  have hl : Knows (w.log (.took m)) := by unfold Knows W.log; simp only [hp]
  unfold W.handle
  simp only
  split
  · trivial
  · split
    · exact hl
    · split
      · split
        · split
          · exact hl
          · trivial
        · split
          · exact knows_call
          · trivial
      · trivial

theorem knows_finish {w : W} {o : Order} {u : UOut} : Knows (w.finish o u) := by
  unfold W.finish
  simp only
  split
  · trivial
  · split <;> trivial

theorem knows_tick {F : UserF} {w : W} (hk : Knows w) : Knows (tick F w) := by
  unfold tick
  cases hp : w.ph with
  | ended => simpa only [hp] using hk
  | failed => simpa only [hp] using hk
  | idle =>
    simp only
    rcases hc : w.chan.recv with ⟨c, _ | m⟩
    · simpa only [hp] using hk
    · have := knows_handle (w := { w with chan := c }) (m := m) (by unfold Knows; simp only [hp]) hp
      simpa only [hp] using this
  | skipRows o =>
    simp only
    rcases hc : w.chan.recv with ⟨c, _ | m⟩
    · simpa only [hp] using hk
    · simp only [W.log]
      split <;> trivial
  | needRows o =>
    simp only
    rcases hc : w.chan.recv with ⟨c, _ | m⟩
    · simpa only [hp] using hk
    · exact knows_call
  | user o rows h =>
    have hk' : h.filter Obs.informs = told w.tr := by unfold Knows at hk; simpa only [hp] using hk
    simp only
    cases hF : F w.n o rows h with
    | send x => show List.filter _ (.sent :: h) = told (.out (.data x) :: w.tr); exact hk'
    | raise => trivial
    | ret u => exact knows_finish
    | poll =>
      simp only
      split
      · exact hk'
      · rcases hc : w.chan.recv with ⟨c, _ | m⟩
        · simpa only [hp] using hk
        · simp only [W.log]
          split
          · exact hk'
          · unfold W.pushBack
            rw [push_ok (recv_buf_none hc)]
            show List.filter _ (.poll (some m.2) :: h) = told (.uback m :: .ptook m :: w.tr)
            simp only [told, ← hk']
            rfl
    | recv b =>
      simp only
      split
      · exact hk'
      · rcases hc : w.chan.recv with ⟨c, _ | m⟩
        · simpa only [hp] using hk
        · simp only [W.log]
          split
          · rename_i o' ho; exact ⟨w.tr, by rw [← ho], hk'⟩
          · rename_i hw
            split
            · unfold W.pushBack
              rw [push_ok (recv_buf_none hc)]
              show List.filter _ (.signal m.1 m.2 :: h) = told (.uback m :: .utook m :: w.tr)
              simp only [told, ← hk']
              rfl
            · exact hk'
  | userRows o rows h t o' =>
    have hk' : ∃ tr, w.tr = .utook (t, .work o') :: tr ∧ h.filter Obs.informs = told tr := by
      unfold Knows at hk; simpa only [hp] using hk
    obtain ⟨tr, htr, hk'⟩ := hk'
    simp only
    rcases hc : w.chan.recv with ⟨c, _ | m⟩
    · simpa only [hp] using hk
    · simp only [W.log]
      split
      · unfold W.pushBack
        rw [push_ok (recv_buf_none hc)]
        show List.filter _ (.signal m.1 m.2 :: h) = told (.uback m :: .utookRows m :: w.tr)
        rw [htr]
        simp only [told, ← hk']
        rfl
      · show List.filter _ (.input t o' m.2 :: h) = told (.utookRows m :: w.tr)
        rw [htr]
        simp only [told, ← hk']
        rfl

/-- Whenever the user function acts, what it has been told is what was in the messages taken for it: each order with its tag
and the rows that came after it, each stop message with tag and signal. -/
theorem C38_told (F : UserF) (k : Kind) (as : List Act) {o : Order} {rows : Option Body} {h : List Obs}
    (hp : (run F k as).ph = .user o rows h) : h.filter Obs.informs = told (run F k as).tr := by
  have : Knows (run F k as) := by
    unfold run
    suffices hg : ∀ (as : List Act) (w : W), Knows w → Knows (as.foldl (act F) w) from hg as _ trivial
    intro as
    induction as with
    | nil => exact fun w h => h
    | cons a as ih =>
      intro w hw
      apply ih
      cases a with
      | send m => exact hw
      | carry => exact hw
      | tick => exact knows_tick hw
  unfold Knows at this
  simpa only [hp] using this

/-- A persistent generator that is sent rows 4 and 5 and then told to stop. -/
def toldDemo : W :=
  run (fun _ _ _ h => match h with | [] => .send 7 | _ => .recv true) .queue
    [.send (EVAL_GEN, .work ⟨EVAL_GEN, [], true, false⟩), .carry, .tick, .tick, .send (EVAL_GEN, .work ⟨EVAL_GEN, [4, 5], true, false⟩), .carry,
     .send (EVAL_GEN, .data 9), .carry, .tick, .tick, .send (PERSIS_STOP, .sig KILL), .carry, .tick]

example : toldDemo.ph = .user ⟨EVAL_GEN, [], true, false⟩ none
    [.signal PERSIS_STOP (.sig KILL), .input EVAL_GEN ⟨EVAL_GEN, [4, 5], true, false⟩ (.data 9), .sent] := by decide

end Verif.Worker
