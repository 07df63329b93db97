import Verif.Worker.Spec
/- The steps of a worker, listed (helper for Props.lean). -/
namespace Verif.Worker
open Verif.Comms

inductive Step (w : W) : W → Prop
  | stay : Step w w
  | obs (o rows h h') (hp : w.ph = .user o rows h) : Step w ⟨.user o rows h', w.chan, w.n, w.tr⟩
  | idleStop (m c) (hp : w.ph = .idle) (hc : w.chan.recv = (c, some m)) (hm : finishMsg m) :
      Step w ⟨.ended, c, w.n, .stop :: .took m :: w.tr⟩
  | idleDrop (m c) (hp : w.ph = .idle) (hc : w.chan.recv = (c, some m)) (hf : ¬ finishMsg m)
      (hm : killMsg m ∨ ∃ o, m.2 = .work o ∧ dropped o ∧ o.rows = []) : Step w ⟨.idle, c, w.n, .took m :: w.tr⟩
  | idleSkip (m c o) (hp : w.ph = .idle) (hc : w.chan.recv = (c, some m)) (hm : m.2 = .work o) (hd : dropped o)
      (hr : o.rows ≠ []) : Step w ⟨.skipRows o, c, w.n, .took m :: w.tr⟩
  | idleNeed (m c o) (hp : w.ph = .idle) (hc : w.chan.recv = (c, some m)) (hm : m.2 = .work o) (hd : ¬ dropped o)
      (hr : o.rows ≠ []) : Step w ⟨.needRows o, c, w.n, .took m :: w.tr⟩
  | idleCall (m c o) (hp : w.ph = .idle) (hc : w.chan.recv = (c, some m)) (hm : m.2 = .work o) (hd : ¬ dropped o)
      (hr : o.rows = []) (ht : okTag o) : Step w ⟨.user o none [], c, w.n, .start o none :: .took m :: w.tr⟩
  | idleFail (m c) (hp : w.ph = .idle) (hc : w.chan.recv = (c, some m)) (hf : ¬ finishMsg m) (hk : ¬ killMsg m)
      (ho : ∀ o, m.2 = .work o → ¬ dropped o ∧ o.rows = [] ∧ ¬ okTag o) :
      Step w ⟨.failed, c, w.n, .out .err :: .raise :: .took m :: w.tr⟩
  | skipped (m c o) (hp : w.ph = .skipRows o) (hc : w.chan.recv = (c, some m)) : Step w ⟨.idle, c, w.n, .tookRows m :: w.tr⟩
  | rowsFail (m c o) (hp : w.ph = .skipRows o ∨ w.ph = .needRows o) (hc : w.chan.recv = (c, some m)) (ht : ¬ okTag o) :
      Step w ⟨.failed, c, w.n, .out .err :: .raise :: .tookRows m :: w.tr⟩
  | called (m c o) (hp : w.ph = .needRows o) (hc : w.chan.recv = (c, some m)) (ht : okTag o) :
      Step w ⟨.user o (some m.2) [], c, w.n, .start o (some m.2) :: .tookRows m :: w.tr⟩
  | send (o rows h h' x) (hp : w.ph = .user o rows h) : Step w ⟨.user o rows h', w.chan, w.n, .out (.data x) :: w.tr⟩
  | raise (o rows h) (hp : w.ph = .user o rows h) : Step w ⟨.failed, w.chan, w.n, .out .err :: .raise :: w.tr⟩
  | retFail (o rows h c bs) (hp : w.ph = .user o rows h)
      (hc : (w.chan.buf = none ∧ c = w.chan ∧ bs = []) ∨ ∃ m, w.chan.buf = some m ∧ w.chan.recv = (c, some m) ∧ bs = [.buffered m]) :
      Step w ⟨.failed, c, w.n, .out .err :: .raise :: (bs ++ .ret .long :: w.tr)⟩
  | retStop (o rows h c bs u) (hp : w.ph = .user o rows h) (hl : u ≠ .long)
      (hc : (w.chan.buf = none ∧ c = w.chan ∧ bs = []) ∨ ∃ m, w.chan.buf = some m ∧ w.chan.recv = (c, some m) ∧ bs = [.buffered m])
      (hu : u = .pairStatus FINISH ∨ u = .triple FINISH ∨
        ((∀ s, u ≠ .pairStatus s ∧ u ≠ .triple s) ∧ ∃ m, w.chan.buf = some m ∧ finishMsg m)) :
      Step w ⟨.ended, c, w.n, .stop :: (bs ++ .ret u :: w.tr)⟩
  | retAnswer (o rows h c bs u s r) (hp : w.ph = .user o rows h) (hl : u ≠ .long)
      (hc : (w.chan.buf = none ∧ c = w.chan ∧ bs = []) ∨ ∃ m, w.chan.buf = some m ∧ w.chan.recv = (c, some m) ∧ bs = [.buffered m])
      (hs : s ≠ FINISH)
      (hu : u = .pairStatus s ∨ u = .triple s ∨
        (s = 0 ∧ (∀ s, u ≠ .pairStatus s ∧ u ≠ .triple s) ∧ ∀ m, w.chan.buf = some m → ¬ finishMsg m)) :
      Step w ⟨.idle, c, w.n + 1, .out (.answer o s r) :: (bs ++ .ret u :: w.tr)⟩
  | pollDrop (o rows h h' m c) (hp : w.ph = .user o rows h) (hc : w.chan.recv = (c, some m)) (hm : m.1 ≠ STOP) :
      Step w ⟨.user o rows h', c, w.n, .ptook m :: w.tr⟩
  | pollBack (o rows h h' m c) (hp : w.ph = .user o rows h) (hc : w.chan.recv = (c, some m)) (hm : m.1 = STOP) :
      Step w ⟨.user o rows h', { c with buf := some m }, w.n, .uback m :: .ptook m :: w.tr⟩
  | recvWork (o rows h m c o') (hp : w.ph = .user o rows h) (hc : w.chan.recv = (c, some m)) (hm : m.2 = .work o') :
      Step w ⟨.userRows o rows h m.1 o', c, w.n, .utook m :: w.tr⟩
  | recvBack (o rows h h' m c) (hp : w.ph = .user o rows h) (hc : w.chan.recv = (c, some m)) (hw : ∀ o', m.2 ≠ .work o')
      (hm : isStop m.1 = true) : Step w ⟨.user o rows h', { c with buf := some m }, w.n, .uback m :: .utook m :: w.tr⟩
  | recvErr (o rows h h' m c) (hp : w.ph = .user o rows h) (hc : w.chan.recv = (c, some m)) (hw : ∀ o', m.2 ≠ .work o')
      (hm : isStop m.1 = false) : Step w ⟨.user o rows h', c, w.n, .utook m :: w.tr⟩
  | rowsBack (o rows h h' t o' m c) (hp : w.ph = .userRows o rows h t o') (hc : w.chan.recv = (c, some m))
      (hm : isStop m.1 = true) : Step w ⟨.user o rows h', { c with buf := some m }, w.n, .uback m :: .utookRows m :: w.tr⟩
  | rowsGot (o rows h h' t o' m c) (hp : w.ph = .userRows o rows h t o') (hc : w.chan.recv = (c, some m))
      (hm : isStop m.1 = false) : Step w ⟨.user o rows h', c, w.n, .utookRows m :: w.tr⟩

theorem recv_some {α : Type} {c c' : Chan α} {m : α} (h : c.recv = (c', some m)) :
    (c.buf = some m ∧ c' = { c with buf := none }) ∨
    (c.buf = none ∧ ∃ rest, c.inbox = m :: rest ∧ c' = { c with inbox := rest }) := by
  unfold Chan.recv at h
  split at h
  · rename_i m' hb; simp only [Prod.mk.injEq, Option.some.injEq] at h
    obtain ⟨h1, rfl⟩ := h; exact .inl ⟨hb, h1.symm⟩
  · rename_i hb
    split at h
    · simp at h
    · rename_i m' rest hi; simp only [Prod.mk.injEq, Option.some.injEq] at h
      obtain ⟨h1, rfl⟩ := h; exact .inr ⟨hb, rest, hi, h1.symm⟩

theorem recv_buf_none {α : Type} {c c' : Chan α} {m : α} (h : c.recv = (c', some m)) : c'.buf = none := by
  rcases recv_some h with ⟨_, rfl⟩ | ⟨hb, _, _, rfl⟩
  · rfl
  · exact hb

theorem push_ok {α : Type} {c : Chan α} (h : c.buf = none) (m : α) : c.push m = some { c with buf := some m } := by
  unfold Chan.push; rw [h]; cases c.kind <;> rfl

theorem step_call {w : W} {o : Order} {rows : Option Body} (w0 : W)
    (h1 : okTag o → Step w0 ⟨.user o rows [], w.chan, w.n, .start o rows :: w.tr⟩)
    (h2 : ¬ okTag o → Step w0 ⟨.failed, w.chan, w.n, .out .err :: .raise :: w.tr⟩) : Step w0 (w.call o rows) := by
  unfold W.call
  split
  · exact h1 (by assumption)
  · exact h2 (by assumption)

theorem step_back {w : W} {m : Msg} {o : Order} {rows : Option Body} {h : List Obs} {x : Obs} (w0 : W) (hb : w.chan.buf = none)
    (h1 : ∀ h', Step w0 ⟨.user o rows h', { w.chan with buf := some m }, w.n, .uback m :: w.tr⟩) :
    Step w0 (w.pushBack m o rows h x) := by
  unfold W.pushBack
  rw [push_ok hb]
  exact h1 _

theorem step_handle {w : W} {c : Chan Msg} {m : Msg} (hp : w.ph = .idle) (hc : w.chan.recv = (c, some m)) :
    Step w (({ w with chan := c } : W).handle m) := by
  unfold W.handle
  simp only [W.log]
  split
  · rename_i h; exact .idleStop m c hp hc h
  · rename_i hf
    split
    · rename_i h
      have := Step.idleDrop m c hp hc hf (.inl h)
      rw [hp]; exact this
    · rename_i hk
      split
      · rename_i o ho
        split
        · rename_i hd
          split
          · rename_i hr
            have := Step.idleDrop m c hp hc hf (.inr ⟨o, ho, hd, hr⟩)
            rw [hp]; exact this
          · rename_i hr; exact .idleSkip m c o hp hc ho hd hr
        · rename_i hd
          split
          · rename_i hr
            refine step_call w (fun ht => ?_) (fun ht => ?_)
            · exact .idleCall m c o hp hc ho hd hr ht
            · refine .idleFail m c hp hc hf hk ?_
              intro o' ho'
              rw [ho] at ho'; cases ho'
              exact ⟨hd, hr, ht⟩
          · rename_i hr; exact .idleNeed m c o hp hc ho hd hr
      · rename_i hw
        refine .idleFail m c hp hc hf hk ?_
        intro o ho
        exact absurd ho (hw o)

theorem step_finish {w : W} {o : Order} {rows : Option Body} {h : List Obs} (u : UOut) (hp : w.ph = .user o rows h) :
    Step w (w.finish o u) := by
  unfold W.finish
  cases hb : w.chan.buf with
  | none =>
    have hc : (w.chan.buf = none ∧ w.chan = w.chan ∧ ([] : List Ev) = []) ∨ ∃ m, w.chan.buf = some m ∧ w.chan.recv = (w.chan, some m) ∧ ([] : List Ev) = [.buffered m] := .inl ⟨hb, rfl, rfl⟩
    simp only [W.log, hb]
    cases u <;> simp only [UOut.status]
    case long => exact .retFail o rows h w.chan [] hp hc
    case pairStatus s =>
      split
      · rename_i hs; subst hs; exact .retStop o rows h w.chan [] _ hp (by simp) hc (.inl rfl)
      · rename_i hs; exact .retAnswer o rows h w.chan [] _ s _ hp (by simp) hc hs (.inl rfl)
    case triple s =>
      split
      · rename_i hs; subst hs; exact .retStop o rows h w.chan [] _ hp (by simp) hc (.inr (.inl rfl))
      · rename_i hs; exact .retAnswer o rows h w.chan [] _ s _ hp (by simp) hc hs (.inr (.inl rfl))
    all_goals
      rw [if_neg (by decide)]
      exact .retAnswer o rows h w.chan [] _ 0 _ hp (by simp) hc (by decide) (.inr (.inr ⟨rfl, by simp, by simp [hb]⟩))
  | some m =>
    have hr : w.chan.recv = ({ w.chan with buf := none }, some m) := by unfold Chan.recv; rw [hb]
    have hc : (w.chan.buf = none ∧ ({ w.chan with buf := none } : Chan Msg) = w.chan ∧ ([.buffered m] : List Ev) = []) ∨ ∃ m', w.chan.buf = some m' ∧ w.chan.recv = ({ w.chan with buf := none }, some m') ∧ ([.buffered m] : List Ev) = [.buffered m'] := .inr ⟨m, hb, hr, rfl⟩
    simp only [W.log, hb, hr]
    cases u <;> simp only [UOut.status]
    case long => exact .retFail o rows h _ [.buffered m] hp hc
    case pairStatus s =>
      split
      · rename_i hs; subst hs; exact .retStop o rows h _ [.buffered m] _ hp (by simp) hc (.inl rfl)
      · rename_i hs; exact .retAnswer o rows h _ [.buffered m] _ s _ hp (by simp) hc hs (.inl rfl)
    case triple s =>
      split
      · rename_i hs; subst hs; exact .retStop o rows h _ [.buffered m] _ hp (by simp) hc (.inr (.inl rfl))
      · rename_i hs; exact .retAnswer o rows h _ [.buffered m] _ s _ hp (by simp) hc hs (.inr (.inl rfl))
    all_goals
      by_cases hm : finishMsg m
      · rw [if_pos (show isStop m.1 = true ∧ m.2 = Body.sig FINISH from hm), if_pos rfl]
        exact .retStop o rows h _ [.buffered m] _ hp (by simp) hc (.inr (.inr ⟨by simp, m, hb, hm⟩))
      · rw [if_neg (show ¬ (isStop m.1 = true ∧ m.2 = Body.sig FINISH) from hm), if_neg (by decide)]
        exact .retAnswer o rows h _ [.buffered m] _ 0 _ hp (by simp) hc (by decide)
          (.inr (.inr ⟨rfl, by simp, by intro m' hm'; rw [hb] at hm'; cases hm'; exact hm⟩))

theorem tick_step (F : UserF) (w : W) : Step w (tick F w) := by
  unfold tick
  cases hp : w.ph with
  | ended => exact .stay
  | failed => exact .stay
  | idle =>
    simp only
    rcases hc : w.chan.recv with ⟨c, _ | m⟩
    · exact .stay
    · have := step_handle hp hc; rw [hp] at this; exact this
  | skipRows o =>
    simp only
    rcases hc : w.chan.recv with ⟨c, _ | m⟩
    · exact .stay
    · simp only [W.log]
      split
      · exact .skipped m c o hp hc
      · rename_i ht; exact .rowsFail m c o (.inl hp) hc ht
  | needRows o =>
    simp only
    rcases hc : w.chan.recv with ⟨c, _ | m⟩
    · exact .stay
    · exact step_call w (fun ht => .called m c o hp hc ht) (fun ht => .rowsFail m c o (.inr hp) hc ht)
  | user o rows h =>
    simp only
    cases hF : F w.n o rows h with
    | send x => exact .send o rows h _ x hp
    | raise => exact .raise o rows h hp
    | ret u => exact step_finish u hp
    | poll =>
      simp only
      split
      · exact .obs o rows h _ hp
      · rcases hc : w.chan.recv with ⟨c, _ | m⟩
        · exact .stay
        · simp only [W.log]
          split
          · rename_i hm; exact .pollDrop o rows h _ m c hp hc hm
          · rename_i hm
            exact step_back w (recv_buf_none hc) (fun h' => .pollBack o rows h h' m c hp hc (Decidable.not_not.mp hm))
    | recv b =>
      simp only
      split
      · exact .obs o rows h _ hp
      · rcases hc : w.chan.recv with ⟨c, _ | m⟩
        · exact .stay
        · simp only [W.log]
          split
          · rename_i o' ho; exact .recvWork o rows h m c o' hp hc ho
          · rename_i hw
            split
            · rename_i hm
              exact step_back w (recv_buf_none hc) (fun h' => .recvBack o rows h h' m c hp hc hw hm)
            · rename_i hm; exact .recvErr o rows h _ m c hp hc hw (by simpa using hm)
  | userRows o rows h t o' =>
    simp only
    rcases hc : w.chan.recv with ⟨c, _ | m⟩
    · exact .stay
    · simp only [W.log]
      split
      · rename_i hm
        exact step_back w (recv_buf_none hc) (fun h' => .rowsBack o rows h h' t o' m c hp hc hm)
      · rename_i hm; exact .rowsGot o rows h _ t o' m c hp hc (by simpa using hm)

theorem step_kind {w w' : W} (h : Step w w') : w'.chan.kind = w.chan.kind := by
  have rk : ∀ {c : Chan Msg} {m}, w.chan.recv = (c, some m) → c.kind = w.chan.kind := by
    intro c m hc
    rcases recv_some hc with ⟨_, rfl⟩ | ⟨_, _, _, rfl⟩ <;> rfl
  have bk : ∀ {c : Chan Msg} {bs : List Ev}, ((w.chan.buf = none ∧ c = w.chan ∧ bs = []) ∨
      ∃ m, w.chan.buf = some m ∧ w.chan.recv = (c, some m) ∧ bs = [Ev.buffered m]) → c.kind = w.chan.kind := by
    rintro c bs (⟨_, rfl, _⟩ | ⟨m, _, hr, _⟩)
    · rfl
    · exact rk hr
  cases h
  case retFail hc => exact bk hc
  case retStop hc _ => exact bk hc
  case retAnswer hc _ _ => exact bk hc
  case pollBack hc _ => have h9 := rk hc; exact h9
  case recvBack hc _ _ => have h9 := rk hc; exact h9
  case rowsBack hc _ => have h9 := rk hc; exact h9
  all_goals first | rfl | exact rk (by assumption)

/-- Induction over what can happen. -/
theorem run_ind {F : UserF} {k : Kind} {I : List Act → W → Prop} (h0 : I [] { chan := { kind := k } })
    (hs : ∀ as w m, I as w → I (as ++ [.send m]) { w with chan := w.chan.send m })
    (hc : ∀ as w, I as w → I (as ++ [.carry]) { w with chan := w.chan.carry })
    (ht : ∀ as w w', I as w → Step w w' → I (as ++ [.tick]) w') (as : List Act) : I as (run F k as) := by
  suffices h : ∀ (bs : List Act) (pre : List Act) (w : W), I pre w → I (pre ++ bs) (bs.foldl (act F) w) by
    have := h as [] _ h0
    simpa [run] using this
  intro bs
  induction bs with
  | nil => intro pre w h; simpa using h
  | cons a bs ih =>
    intro pre w h
    have h1 : I (pre ++ [a]) (act F w a) := by
      cases a with
      | send m => exact hs pre w m h
      | carry => exact hc pre w h
      | tick => exact ht pre w _ h (tick_step F w)
    have := ih (pre ++ [a]) _ h1
    simpa using this

/-- Induction for what depends on phase and record only, and not on what arrives. -/
theorem run_tr {F : UserF} {k : Kind} {I : W → Prop} (h0 : I { chan := { kind := k } })
    (hc : ∀ (w : W) c, I w → I { w with chan := c })
    (ht : ∀ w w', I w → Step w w' → I w') (as : List Act) : I (run F k as) :=
  run_ind (I := fun _ w => I w) h0 (fun _ w _ h => hc w _ h) (fun _ w h => hc w _ h) (fun _ w w' h hs => ht w w' h hs) as

end Verif.Worker
