import Verif.Worker.Sep
import Verif.Worker.Trace
/-
Induction over the actions of a user function (helper).

`I n o rows h tr`: in the `n`-th call, for the order `o` with the input `rows`, the function has made the observations `h` and the
record of the worker is `tr`.
-/
namespace Verif.Worker
open Verif.Comms

/-- `I` holds when a function is called and is kept by whatever the function does. -/
structure UserInv (F : UserF) (I : Nat → Order → Option Body → List Obs → List Ev → Prop) : Prop where
  start : ∀ n o rows tr, I n o rows [] (.start o rows :: tr)
  send : ∀ n o rows h tr x, I n o rows h tr → F n o rows h = .send x → I n o rows (.sent :: h) (.out (.data x) :: tr)
  pollNone : ∀ n o rows h tr, I n o rows h tr → F n o rows h = .poll → I n o rows (.poll none :: h) tr
  pollDrop : ∀ n o rows h tr m, I n o rows h tr → F n o rows h = .poll → I n o rows (.poll none :: h) (.ptook m :: tr)
  pollBack : ∀ n o rows h tr m, I n o rows h tr → F n o rows h = .poll → m.1 = STOP →
    I n o rows (.poll (some m.2) :: h) (.uback m :: .ptook m :: tr)
  nothing : ∀ n o rows h tr, I n o rows h tr → F n o rows h = .recv false → I n o rows (.nothing :: h) tr
  signal : ∀ n o rows h tr b m, I n o rows h tr → F n o rows h = .recv b → isStop m.1 = true → (∀ o', m.2 ≠ .work o') →
    I n o rows (.signal m.1 m.2 :: h) (.uback m :: .utook m :: tr)
  error : ∀ n o rows h tr b m, I n o rows h tr → F n o rows h = .recv b → isStop m.1 = false → (∀ o', m.2 ≠ .work o') →
    I n o rows (.error :: h) (.utook m :: tr)
  rowsBack : ∀ n o rows h tr b m t o', I n o rows h tr → F n o rows h = .recv b → isStop m.1 = true →
    I n o rows (.signal m.1 m.2 :: h) (.uback m :: .utookRows m :: .utook (t, .work o') :: tr)
  rowsGot : ∀ n o rows h tr b m t o', I n o rows h tr → F n o rows h = .recv b → isStop m.1 = false →
    I n o rows (.input t o' m.2 :: h) (.utookRows m :: .utook (t, .work o') :: tr)

/-- What the record shows of the actions of user functions. -/
def ActsAt (F : UserF) (I : Nat → Order → Option Body → List Obs → List Ev → Prop) : Ev → List Ev → Prop
  | .out (.data x), pre => ∃ n o rows h, running pre = some (o, rows) ∧ I n o rows h pre ∧ F n o rows h = .send x
  | .ret u, pre => ∃ n o rows h, running pre = some (o, rows) ∧ I n o rows h pre ∧ F n o rows h = .ret u
  | .raise, pre => running pre = none ∨ (∃ bs pre', pre = bs ++ .ret .long :: pre' ∧ ∀ e ∈ bs, ∃ m, e = .buffered m) ∨
      ∃ n o rows h, running pre = some (o, rows) ∧ I n o rows h pre ∧ F n o rows h = .raise
  | _, _ => True

/-- State of the worker. -/
def Inside (F : UserF) (I : Nat → Order → Option Body → List Obs → List Ev → Prop) (w : W) : Prop :=
  match w.ph with
  | .user o rows h => running w.tr = some (o, rows) ∧ I w.n o rows h w.tr
  | .userRows o rows h t o' => ∃ tr b, w.tr = .utook (t, .work o') :: tr ∧ F w.n o rows h = .recv b ∧ running tr = some (o, rows) ∧ I w.n o rows h tr
  | .idle | .skipRows _ | .needRows _ => running w.tr = none
  | _ => True

variable {F : UserF} {I : Nat → Order → Option Body → List Obs → List Ev → Prop}

theorem inside_call (K : UserInv F I) {w : W} {o : Order} {rows : Option Body} (hA : OnEv (ActsAt F I) w.tr) (hr : running w.tr = none) :
    OnEv (ActsAt F I) (w.call o rows).tr ∧ Inside F I (w.call o rows) := by
  unfold W.call
  split
  · exact ⟨onEv_cons hA trivial, rfl, K.start ..⟩
  · exact ⟨onEv_cons (onEv_cons hA (.inl hr)) trivial, trivial⟩

theorem inside_handle (K : UserInv F I) {w : W} {m : Msg} (hA : OnEv (ActsAt F I) w.tr) (hp : w.ph = .idle) (hr : running w.tr = none) :
    OnEv (ActsAt F I) (w.handle m).tr ∧ Inside F I (w.handle m) := by
  have h1 : OnEv (ActsAt F I) (.took m :: w.tr) := onEv_cons hA trivial
  have h2 : running (.took m :: w.tr) = none := hr
  unfold W.handle
  simp only [W.log]
  split
  · exact ⟨onEv_cons h1 trivial, trivial⟩
  · split
    · exact ⟨h1, by unfold Inside; rw [hp]; exact h2⟩
    · split
      · split
        · split
          · exact ⟨h1, by unfold Inside; rw [hp]; exact h2⟩
          · exact ⟨h1, h2⟩
        · split
          · exact inside_call K (w := ⟨w.ph, w.chan, w.n, .took m :: w.tr⟩) h1 h2
          · exact ⟨h1, h2⟩
      · exact ⟨onEv_cons (onEv_cons h1 (.inl h2)) trivial, trivial⟩

theorem inside_finish {w : W} {o : Order} {u : UOut} {rows : Option Body} {h : List Obs} (hA : OnEv (ActsAt F I) w.tr)
    (hr : running w.tr = some (o, rows)) (hI : I w.n o rows h w.tr) (hF : F w.n o rows h = .ret u) :
    OnEv (ActsAt F I) (w.finish o u).tr ∧ Inside F I (w.finish o u) := by
  have h1 : OnEv (ActsAt F I) (.ret u :: w.tr) := onEv_cons hA ⟨w.n, o, rows, h, hr, hI, hF⟩
  have fin : ∀ (w' : W) (s : Int), OnEv (ActsAt F I) w'.tr → (∃ bs pre', w'.tr = bs ++ .ret u :: pre' ∧ ∀ e ∈ bs, ∃ m, e = .buffered m) →
      OnEv (ActsAt F I) (match u.status s with
        | Option.none => w'.fail
        | some (s, row) => if s = FINISH then { w' with ph := .ended, tr := .stop :: w'.tr }
          else { w' with ph := .idle, n := w'.n + 1, tr := .out (.answer o s row) :: w'.tr }).tr ∧
      Inside F I (match u.status s with
        | Option.none => w'.fail
        | some (s, row) => if s = FINISH then { w' with ph := .ended, tr := .stop :: w'.tr }
          else { w' with ph := .idle, n := w'.n + 1, tr := .out (.answer o s row) :: w'.tr }) := by
    intro w' s h2 h3
    cases hs : u.status s with
    | none =>
      have hu : u = .long := by cases u <;> first | rfl | cases hs
      subst hu
      exact ⟨onEv_cons (onEv_cons h2 (.inr (.inl h3))) trivial, trivial⟩
    | some p =>
      simp only
      split
      · exact ⟨onEv_cons h2 trivial, trivial⟩
      · exact ⟨onEv_cons h2 trivial, rfl⟩
  unfold W.finish
  simp only [W.log]
  cases hb : w.chan.buf with
  | none => exact fin ⟨w.ph, w.chan, w.n, .ret u :: w.tr⟩ _ h1 ⟨[], w.tr, rfl, by simp⟩
  | some m => exact fin ⟨w.ph, w.chan.recv.1, w.n, .buffered m :: .ret u :: w.tr⟩ _ (onEv_cons h1 trivial) ⟨[.buffered m], w.tr, rfl, fun e he => ⟨m, List.mem_singleton.mp he⟩⟩

theorem inside_tick (K : UserInv F I) {w : W} (hA : OnEv (ActsAt F I) w.tr) (hk : Inside F I w) :
    OnEv (ActsAt F I) (tick F w).tr ∧ Inside F I (tick F w) := by
  have hw : OnEv (ActsAt F I) w.tr ∧ Inside F I w := ⟨hA, hk⟩
  unfold tick
  cases hp : w.ph with
  | ended => simpa only [hp] using hw
  | failed => simpa only [hp] using hw
  | idle =>
    have hr : running w.tr = none := by unfold Inside at hk; simpa only [hp] using hk
    simp only
    rcases hc : w.chan.recv with ⟨c, _ | m⟩
    · simpa only [hp] using hw
    · have := inside_handle K (w := ⟨w.ph, c, w.n, w.tr⟩) (m := m) hA hp hr
      simpa only [hp] using this
  | skipRows o =>
    have hr : running w.tr = none := by unfold Inside at hk; simpa only [hp] using hk
    simp only
    rcases hc : w.chan.recv with ⟨c, _ | m⟩
    · simpa only [hp] using hw
    · have h1 : OnEv (ActsAt F I) (.tookRows m :: w.tr) := onEv_cons hA trivial
      simp only [W.log]
      split
      · exact ⟨h1, hr⟩
      · exact ⟨onEv_cons (onEv_cons h1 (.inl hr)) trivial, trivial⟩
  | needRows o =>
    have hr : running w.tr = none := by unfold Inside at hk; simpa only [hp] using hk
    simp only
    rcases hc : w.chan.recv with ⟨c, _ | m⟩
    · simpa only [hp] using hw
    · exact inside_call K (w := ⟨.needRows o, c, w.n, .tookRows m :: w.tr⟩) (onEv_cons hA trivial) hr
  | user o rows h =>
    have hk' : running w.tr = some (o, rows) ∧ I w.n o rows h w.tr := by unfold Inside at hk; simpa only [hp] using hk
    obtain ⟨hr, hI⟩ := hk'
    simp only
    cases hF : F w.n o rows h with
    | send x => exact ⟨onEv_cons hA ⟨w.n, o, rows, h, hr, hI, hF⟩, hr, K.send _ _ _ _ _ _ hI hF⟩
    | raise => exact ⟨onEv_cons (onEv_cons hA (.inr (.inr ⟨w.n, o, rows, h, hr, hI, hF⟩))) trivial, trivial⟩
    | ret u => exact hp ▸ inside_finish hA hr hI hF
    | poll =>
      simp only
      split
      · exact ⟨hA, hr, K.pollNone _ _ _ _ _ hI hF⟩
      · rcases hc : w.chan.recv with ⟨c, _ | m⟩
        · simpa only [hp] using hw
        · have h1 : OnEv (ActsAt F I) (.ptook m :: w.tr) := onEv_cons hA trivial
          simp only [W.log]
          split
          · exact ⟨h1, hr, K.pollDrop _ _ _ _ _ _ hI hF⟩
          · rename_i hm
            unfold W.pushBack
            rw [push_ok (recv_buf_none hc)]
            exact ⟨onEv_cons h1 trivial, hr, K.pollBack _ _ _ _ _ _ hI hF (Decidable.byContradiction hm)⟩
    | recv b =>
      simp only
      split
      · rename_i hb
        rw [hb.1] at hF
        exact ⟨hA, hr, K.nothing _ _ _ _ _ hI hF⟩
      · rcases hc : w.chan.recv with ⟨c, _ | m⟩
        · simpa only [hp] using hw
        · have h1 : OnEv (ActsAt F I) (.utook m :: w.tr) := onEv_cons hA trivial
          simp only [W.log]
          split
          · rename_i o' ho; exact ⟨h1, w.tr, b, by rw [← ho], hF, hr, hI⟩
          · rename_i hw'
            split
            · rename_i hs
              unfold W.pushBack
              rw [push_ok (recv_buf_none hc)]
              exact ⟨onEv_cons h1 trivial, hr, K.signal _ _ _ _ _ _ _ hI hF hs hw'⟩
            · rename_i hs
              exact ⟨h1, hr, K.error _ _ _ _ _ _ _ hI hF (by simpa using hs) hw'⟩
  | userRows o rows h t o' =>
    have hk' : ∃ tr b, w.tr = .utook (t, .work o') :: tr ∧ F w.n o rows h = .recv b ∧ running tr = some (o, rows) ∧ I w.n o rows h tr := by
      unfold Inside at hk; simpa only [hp] using hk
    obtain ⟨tr, b, htr, hF, hr, hI⟩ := hk'
    simp only
    rcases hc : w.chan.recv with ⟨c, _ | m⟩
    · simpa only [hp] using hw
    · have h1 : OnEv (ActsAt F I) (.utookRows m :: w.tr) := onEv_cons hA trivial
      have hr' : running w.tr = some (o, rows) := by rw [htr]; exact hr
      simp only [W.log]
      split
      · rename_i hs
        unfold W.pushBack
        rw [push_ok (recv_buf_none hc)]
        refine ⟨onEv_cons h1 trivial, hr', ?_⟩
        have := K.rowsBack _ _ _ _ _ _ m t o' hI hF hs
        rw [← htr] at this
        exact this
      · rename_i hs
        refine ⟨h1, hr', ?_⟩
        have := K.rowsGot _ _ _ _ _ _ m t o' hI hF (by simpa using hs)
        rw [← htr] at this
        exact this

/-- In every run, what user functions do is what they are written to do, and `I` holds whenever they act. -/
theorem user_run (K : UserInv F I) (k : Kind) (as : List Act) : OnEv (ActsAt F I) (run F k as).tr ∧ Inside F I (run F k as) := by
  suffices hg : ∀ (as : List Act) (w : W), OnEv (ActsAt F I) w.tr ∧ Inside F I w →
      OnEv (ActsAt F I) (as.foldl (act F) w).tr ∧ Inside F I (as.foldl (act F) w) from hg as _ ⟨onEv_nil, rfl⟩
  intro as
  induction as with
  | nil => exact fun w h => h
  | cons a as ih =>
    intro w hw
    apply ih
    cases a with
    | send m => exact hw
    | carry => exact hw
    | tick => exact inside_tick K hw.1 hw.2

theorem UserInv.and {J : Nat → Order → Option Body → List Obs → List Ev → Prop} (K : UserInv F I) (L : UserInv F J) :
    UserInv F (fun n o rows h tr => I n o rows h tr ∧ J n o rows h tr) where
  start := fun n o rows tr => ⟨K.start .., L.start ..⟩
  send := fun n o rows h tr x hI hf => ⟨K.send _ _ _ _ _ _ hI.1 hf, L.send _ _ _ _ _ _ hI.2 hf⟩
  pollNone := fun n o rows h tr hI hf => ⟨K.pollNone _ _ _ _ _ hI.1 hf, L.pollNone _ _ _ _ _ hI.2 hf⟩
  pollDrop := fun n o rows h tr m hI hf => ⟨K.pollDrop _ _ _ _ _ _ hI.1 hf, L.pollDrop _ _ _ _ _ _ hI.2 hf⟩
  pollBack := fun n o rows h tr m hI hf hm => ⟨K.pollBack _ _ _ _ _ _ hI.1 hf hm, L.pollBack _ _ _ _ _ _ hI.2 hf hm⟩
  nothing := fun n o rows h tr hI hf => ⟨K.nothing _ _ _ _ _ hI.1 hf, L.nothing _ _ _ _ _ hI.2 hf⟩
  signal := fun n o rows h tr b m hI hf hm hw => ⟨K.signal _ _ _ _ _ _ _ hI.1 hf hm hw, L.signal _ _ _ _ _ _ _ hI.2 hf hm hw⟩
  error := fun n o rows h tr b m hI hf hm hw => ⟨K.error _ _ _ _ _ _ _ hI.1 hf hm hw, L.error _ _ _ _ _ _ _ hI.2 hf hm hw⟩
  rowsBack := fun n o rows h tr b m t o' hI hf hm => ⟨K.rowsBack _ _ _ _ _ _ _ _ _ hI.1 hf hm, L.rowsBack _ _ _ _ _ _ _ _ _ hI.2 hf hm⟩
  rowsGot := fun n o rows h tr b m t o' hI hf hm => ⟨K.rowsGot _ _ _ _ _ _ _ _ _ hI.1 hf hm, L.rowsGot _ _ _ _ _ _ _ _ _ hI.2 hf hm⟩

/-- What a user function takes was sent to the worker. -/
theorem utook_sent (F : UserF) (k : Kind) (as : List Act) (m : Msg)
    (h : .utook m ∈ (run F k as).tr ∨ .utookRows m ∈ (run F k as).tr) : m ∈ sends as := by
  have key : taken (run F k as).tr ++ left (run F k as).chan = sends as ∧
      ∀ m, (.utook m ∈ (run F k as).tr ∨ .utookRows m ∈ (run F k as).tr) → m ∈ sends as := by
    refine run_ind (I := fun as w => taken w.tr ++ left w.chan = sends as ∧ ∀ m, (.utook m ∈ w.tr ∨ .utookRows m ∈ w.tr) → m ∈ sends as)
      ?_ ?_ ?_ ?_ as
    · exact ⟨rfl, fun m hm => by simp at hm⟩
    · intro as w m ⟨h1, h2⟩
      refine ⟨?_, fun m' hm' => ?_⟩
      · show taken w.tr ++ left (w.chan.send m) = _
        rw [left_send, ← List.append_assoc, h1, sends_append]; rfl
      · rw [sends_append]; exact List.mem_append.mpr (.inl (h2 m' hm'))
    · intro as w ⟨h1, h2⟩
      refine ⟨?_, fun m' hm' => ?_⟩
      · show taken w.tr ++ left w.chan.carry = _
        rw [left_carry, h1, sends_append]; simp [sends]
      · rw [sends_append]; exact List.mem_append.mpr (.inl (h2 m' hm'))
    · intro as w w' ⟨h1, h2⟩ hs
      have hS : sends (as ++ [.tick]) = sends as := by rw [sends_append]; simp [sends]
      rw [hS]
      refine ⟨by rw [taken_step hs, h1], ?_⟩
      have hr : ∀ {c m}, w.chan.recv = (c, some m) → m ∈ sends as := by
        intro c m hc
        rw [← h1, left_recv hc]; simp
      have hbs : ∀ {c : Chan Msg} {bs : List Ev} {m : Msg}, ((w.chan.buf = none ∧ c = w.chan ∧ bs = []) ∨
          ∃ m, w.chan.buf = some m ∧ w.chan.recv = (c, some m) ∧ bs = [.buffered m]) → .utook m ∉ bs ∧ .utookRows m ∉ bs := by
        rintro c bs m (⟨_, _, rfl⟩ | ⟨_, _, _, rfl⟩) <;> simp
      intro m hm
      cases hs
      case retFail hp hc =>
        have hb := hbs (m := m) hc
        refine h2 m ?_
        simpa [hb.1, hb.2] using hm
      case retStop hp hl hc hu =>
        have hb := hbs (m := m) hc
        refine h2 m ?_
        simpa [hb.1, hb.2] using hm
      case retAnswer hp hl hc hs' hu =>
        have hb := hbs (m := m) hc
        refine h2 m ?_
        simpa [hb.1, hb.2] using hm
      all_goals
        first
          | exact h2 m hm
          | (refine h2 m ?_; simpa using hm)
          | (simp only [List.mem_cons, reduceCtorEq, false_or, Ev.utook.injEq, Ev.utookRows.injEq] at hm
             rcases hm with (rfl | hm) | hm
             · exact hr (by assumption)
             · exact h2 m (.inl hm)
             · exact h2 m (.inr hm))
          | (simp only [List.mem_cons, reduceCtorEq, false_or, Ev.utook.injEq, Ev.utookRows.injEq] at hm
             rcases hm with hm | rfl | hm
             · exact h2 m (.inl hm)
             · exact hr (by assumption)
             · exact h2 m (.inr hm))
  exact key.2 m h

/-- Signals in a stream written by the manager have a stop tag. -/
theorem framed_sig : ∀ (ms : List Msg) (s : Want), frame s ms ≠ none → ∀ m ∈ ms, ∀ n, m.2 = .sig n → isStop m.1 = true
  | [], _, _, m, hm, _, _ => by cases hm
  | x :: ms, .ctl, h, m, hm, n, hn => by
    obtain ⟨t, b⟩ := x
    cases b with
    | sig n' =>
      unfold frame at h
      split at h
      · rename_i ht
        rcases List.mem_cons.mp hm with rfl | hm
        · exact ht
        · exact framed_sig ms _ h m hm n hn
      · exact absurd rfl h
    | work o =>
      unfold frame at h
      split at h
      · exact absurd rfl h
      · rcases List.mem_cons.mp hm with rfl | hm
        · cases hn
        · split at h <;> exact framed_sig ms _ h m hm n hn
    | data x => exact absurd rfl h
  | x :: ms, .rows, h, m, hm, n, hn => by
    obtain ⟨t, b⟩ := x
    cases b with
    | data x =>
      unfold frame at h
      split at h
      · exact absurd rfl h
      · rcases List.mem_cons.mp hm with rfl | hm
        · cases hn
        · exact framed_sig ms _ h m hm n hn
    | work o => exact absurd rfl h
    | sig n' => exact absurd rfl h

end Verif.Worker
