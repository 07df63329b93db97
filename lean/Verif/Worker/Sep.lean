import Verif.Worker.Buf
/- Control messages and data messages (helper for Props.lean). -/
namespace Verif.Worker
open Verif.Comms

theorem frame_append (s : Want) (a b : List Msg) : frame s (a ++ b) = (frame s a).bind (fun s => frame s b) := by
  induction a generalizing s with
  | nil => cases s <;> rfl
  | cons m a ih =>
    obtain ⟨t, x⟩ := m
    cases s <;> cases x <;> simp only [List.cons_append, frame]
    · split
      · rfl
      · split <;> exact ih _
    · split
      · exact ih _
      · rfl
    all_goals first | rfl | (split; rfl; exact ih _)

theorem framed_prefix {a b : List Msg} (h : Framed (a ++ b)) : Framed a := by
  intro h'; exact h (by rw [frame_append, h']; rfl)

/-- The next message, when a control message is due. -/
theorem frame_ctl {m : Msg} {ms : List Msg} (h : frame .ctl (m :: ms) ≠ none) :
    (∃ n, m.2 = .sig n ∧ isStop m.1 = true ∧ frame .ctl [m] = some .ctl) ∨
    (∃ o, m.2 = .work o ∧ m.1 ≠ STOP ∧ frame .ctl [m] = some (if o.rows = [] then .ctl else .rows)) := by
  obtain ⟨t, x⟩ := m
  cases x with
  | work o =>
    simp only [frame] at h ⊢
    split at h
    · simp at h
    · rename_i ht
      refine .inr ⟨o, rfl, ht, ?_⟩
      rw [if_neg ht]; split <;> rfl
  | sig n =>
    simp only [frame] at h ⊢
    split at h
    · rename_i ht; exact .inl ⟨n, rfl, ht, by rw [if_pos ht]⟩
    · simp at h
  | data x => simp [frame] at h

/-- The next message, when rows are due. -/
theorem frame_rows {m : Msg} {ms : List Msg} (h : frame .rows (m :: ms) ≠ none) :
    (∃ x, m.2 = .data x) ∧ isStop m.1 = false ∧ frame .rows [m] = some .ctl := by
  obtain ⟨t, x⟩ := m
  cases x with
  | work o => simp [frame] at h
  | sig n => simp [frame] at h
  | data x =>
    simp only [frame] at h ⊢
    split at h
    · simp at h
    · rename_i ht; exact ⟨⟨x, rfl⟩, by simpa using ht, by rw [if_neg ht]⟩

theorem Careful.mono {tr tr' : List Ev} (h : Careful tr') (hs : ∀ e ∈ tr, e ∈ tr') : Careful tr :=
  ⟨fun m o hm => h.1 m o (hs _ hm), fun m hm => h.2 m (hs _ hm)⟩

/-- Messages are taken for what they are. -/
def Kinds : Ev → List Ev → Prop
  | .took m, _ => ∀ x, m.2 ≠ .data x
  | .tookRows m, _ => ∃ x, m.2 = .data x
  | .utook m, _ => ∀ x, m.2 ≠ .data x
  | .utookRows m, _ => ∃ x, m.2 = .data x
  | .ptook m, _ => ∀ x, m.2 ≠ .data x
  | .buffered m, _ => ∃ n, m.2 = .sig n
  | .start _ (some b), _ => ∃ x, b = .data x
  | _, _ => True

def Ph.want : Ph → Option Want
  | .idle | .user .. => some .ctl
  | .skipRows _ | .needRows _ | .userRows .. => some .rows
  | .ended | .failed => none

def BufSig (w : W) : Prop := ∀ m, w.chan.buf = some m → ∀ o, m.2 = .work o → m.1 = STOP

theorem sep_step {w w' : W} {ms : List Msg} (hs : Step w w') (ht : taken w.tr ++ left w.chan = ms) (hF : Framed ms)
    (hca : Careful w'.tr) (hI : Careful w.tr → OnEv Kinds w.tr ∧ BufSig w ∧ ∀ s, w.ph.want = some s → frame .ctl (taken w.tr) = some s) :
    OnEv Kinds w'.tr ∧ BufSig w' ∧ ∀ s, w'.ph.want = some s → frame .ctl (taken w'.tr) = some s := by
  have nxt : ∀ {c m s}, frame .ctl (taken w.tr) = some s → w.chan.recv = (c, some m) →
      frame s (m :: left c) ≠ none ∧ frame .ctl (taken w.tr ++ [m]) = frame s [m] := by
    intro c m s hs hc
    refine ⟨?_, by rw [frame_append, hs]; rfl⟩
    intro h'
    apply hF
    rw [← ht, left_recv hc, frame_append, hs]; exact h'
  have nb : ∀ {c : Chan Msg} {m : Msg} (w0 : W), w.chan.recv = (c, some m) → w0.chan = c → BufSig w0 := by
    intro c m w0 hc hw m' hm'
    rw [hw, recv_buf_none hc] at hm'; cases hm'
  have bsig : BufSig w → ∀ {m}, w.chan.buf = some m → frame .ctl (taken w.tr) = some .ctl → ∃ n, m.2 = .sig n ∧ frame .ctl [m] = some .ctl := by
    intro hb m hm hs
    have hr : w.chan.recv = ({ w.chan with buf := none }, some m) := by unfold Chan.recv; rw [hm]
    rcases frame_ctl (nxt hs hr).1 with ⟨n, h1, _, h3⟩ | ⟨o, h1, h2, _⟩
    · exact ⟨n, h1, h3⟩
    · exact absurd (hb m hm o h1) h2
  have bsk : ∀ {c bs u}, ((w.chan.buf = none ∧ c = w.chan ∧ bs = []) ∨
        ∃ m, w.chan.buf = some m ∧ w.chan.recv = (c, some m) ∧ bs = [Ev.buffered m]) → OnEv Kinds w.tr → BufSig w →
        frame .ctl (taken w.tr) = some .ctl →
        OnEv Kinds (bs ++ .ret u :: w.tr) ∧ frame .ctl (taken (bs ++ .ret u :: w.tr)) = some .ctl ∧ c.buf = none := by
    intro c bs u hc hK hb hs
    have hK1 : OnEv Kinds (.ret u :: w.tr) := onEv_cons hK trivial
    rcases hc with ⟨hn, rfl, rfl⟩ | ⟨m, hm, hr, rfl⟩
    · exact ⟨hK1, hs, hn⟩
    · obtain ⟨n, h1, h2⟩ := bsig hb hm hs
      refine ⟨onEv_cons hK1 ⟨n, h1⟩, ?_, recv_buf_none hr⟩
      show frame .ctl (taken w.tr ++ [m]) = _
      rw [(nxt hs hr).2, h2]
  have bn : ∀ (w0 : W), w0.chan.buf = none → BufSig w0 := fun w0 h m hm => by rw [h] at hm; cases hm
  have sub : ∀ {es}, w'.tr = es ++ w.tr → Careful w.tr := fun h => hca.mono (fun e he => by rw [h]; exact List.mem_append_right _ he)
  cases hs with
  | stay => exact hI hca
  | obs o rows h0 h' hp =>
    obtain ⟨hK, hB, hs⟩ := hI hca
    exact ⟨hK, hB, fun s h => by cases h; exact hs _ (by rw [hp]; rfl)⟩
  | idleStop m c hp hc hm =>
    obtain ⟨hK, hB, hs⟩ := hI (sub (es := [_, _]) rfl)
    refine ⟨onEv_cons (onEv_cons hK ?_) trivial, nb _ hc rfl, fun s h => by cases h⟩
    intro x hx; rw [hm.2] at hx; cases hx
  | idleDrop m c hp hc hf hm =>
    obtain ⟨hK, hB, hs⟩ := hI (sub (es := [_]) rfl)
    have h1 := nxt (hs _ (by rw [hp]; rfl)) hc
    rcases frame_ctl h1.1 with ⟨n, e1, _, e2⟩ | ⟨o, e1, _, e2⟩
    · refine ⟨onEv_cons hK (fun x hx => by rw [e1] at hx; cases hx), nb _ hc rfl, fun s h => by cases h; exact h1.2.trans e2⟩
    · rcases hm with hm | ⟨o', ho', _, hr⟩
      · exact (kill_not_work hm e1).elim
      · rw [e1] at ho'; cases ho'
        rw [if_pos hr] at e2
        exact ⟨onEv_cons hK (fun x hx => by rw [e1] at hx; cases hx), nb _ hc rfl, fun s h => by cases h; exact h1.2.trans e2⟩
  | idleSkip m c o hp hc hm hd hr =>
    obtain ⟨hK, hB, hs⟩ := hI (sub (es := [_]) rfl)
    have h1 := nxt (hs _ (by rw [hp]; rfl)) hc
    rcases frame_ctl h1.1 with ⟨n, e1, _, e2⟩ | ⟨o, e1, _, e2⟩
    · rw [e1] at hm; cases hm
    · rw [e1] at hm; cases hm
      rw [if_neg hr] at e2
      exact ⟨onEv_cons hK (fun x hx => by rw [e1] at hx; cases hx), nb _ hc rfl, fun s h => by cases h; exact h1.2.trans e2⟩
  | idleNeed m c o hp hc hm hd hr =>
    obtain ⟨hK, hB, hs⟩ := hI (sub (es := [_]) rfl)
    have h1 := nxt (hs _ (by rw [hp]; rfl)) hc
    rcases frame_ctl h1.1 with ⟨n, e1, _, e2⟩ | ⟨o, e1, _, e2⟩
    · rw [e1] at hm; cases hm
    · rw [e1] at hm; cases hm
      rw [if_neg hr] at e2
      exact ⟨onEv_cons hK (fun x hx => by rw [e1] at hx; cases hx), nb _ hc rfl, fun s h => by cases h; exact h1.2.trans e2⟩
  | idleCall m c o hp hc hm hd hr htag =>
    obtain ⟨hK, hB, hs⟩ := hI (sub (es := [_, _]) rfl)
    have h1 := nxt (hs _ (by rw [hp]; rfl)) hc
    rcases frame_ctl h1.1 with ⟨n, e1, _, e2⟩ | ⟨o, e1, _, e2⟩
    · rw [e1] at hm; cases hm
    · rw [e1] at hm; cases hm
      rw [if_pos hr] at e2
      exact ⟨onEv_cons (onEv_cons hK (fun x hx => by rw [e1] at hx; cases hx)) trivial, nb _ hc rfl, fun s h => by cases h; exact h1.2.trans e2⟩
  | idleFail m c hp hc hf hkk ho =>
    obtain ⟨hK, hB, hs⟩ := hI (sub (es := [_, _, _]) rfl)
    have h1 := nxt (hs _ (by rw [hp]; rfl)) hc
    have : ∀ x, m.2 ≠ .data x := by
      rcases frame_ctl h1.1 with ⟨n, e1, _, _⟩ | ⟨o, e1, _, _⟩ <;> intro x hx <;> rw [e1] at hx <;> cases hx
    exact ⟨onEv_cons (onEv_cons (onEv_cons hK this) trivial) trivial, nb _ hc rfl, fun s h => by cases h⟩
  | skipped m c o hp hc =>
    obtain ⟨hK, hB, hs⟩ := hI (sub (es := [_]) rfl)
    have h1 := nxt (hs _ (by rw [hp]; rfl)) hc
    obtain ⟨hx, _, e2⟩ := frame_rows h1.1
    exact ⟨onEv_cons hK hx, nb _ hc rfl, fun s h => by cases h; exact h1.2.trans e2⟩
  | rowsFail m c o hp hc htag =>
    obtain ⟨hK, hB, hs⟩ := hI (sub (es := [_, _, _]) rfl)
    have h1 := nxt (hs .rows (by rcases hp with hp | hp <;> rw [hp] <;> rfl)) hc
    obtain ⟨hx, _, e2⟩ := frame_rows h1.1
    exact ⟨onEv_cons (onEv_cons (onEv_cons hK hx) trivial) trivial, nb _ hc rfl, fun s h => by cases h⟩
  | called m c o hp hc htag =>
    obtain ⟨hK, hB, hs⟩ := hI (sub (es := [_, _]) rfl)
    have h1 := nxt (hs _ (by rw [hp]; rfl)) hc
    obtain ⟨hx, _, e2⟩ := frame_rows h1.1
    exact ⟨onEv_cons (onEv_cons hK hx) hx, nb _ hc rfl, fun s h => by cases h; exact h1.2.trans e2⟩
  | send o rows h0 h' x hp =>
    obtain ⟨hK, hB, hs⟩ := hI (sub (es := [_]) rfl)
    exact ⟨onEv_cons hK trivial, hB, fun s h => by cases h; exact hs .ctl (by rw [hp]; rfl)⟩
  | raise o rows h0 hp =>
    obtain ⟨hK, hB, hs⟩ := hI (sub (es := [_, _]) rfl)
    exact ⟨onEv_cons (onEv_cons hK trivial) trivial, hB, fun s h => by cases h⟩
  | retFail o rows h0 c bs hp hc =>
    obtain ⟨hK, hB, hs⟩ := hI (sub (es := [.out .err, .raise] ++ bs ++ [.ret .long]) (by simp))
    obtain ⟨k1, k2, k3⟩ := bsk hc hK hB (hs .ctl (by rw [hp]; rfl))
    exact ⟨onEv_cons (onEv_cons k1 trivial) trivial, bn _ k3, fun s h => by cases h⟩
  | retStop o rows h0 c bs u hp hl hc hu' =>
    obtain ⟨hK, hB, hs⟩ := hI (sub (es := [.stop] ++ bs ++ [.ret u]) (by simp))
    obtain ⟨k1, k2, k3⟩ := bsk hc hK hB (hs .ctl (by rw [hp]; rfl))
    exact ⟨onEv_cons k1 trivial, bn _ k3, fun s h => by cases h⟩
  | retAnswer o rows h0 c bs u s r hp hl hc hns hu' =>
    obtain ⟨hK, hB, hs⟩ := hI (sub (es := [.out (.answer o s r)] ++ bs ++ [.ret u]) (by simp))
    obtain ⟨k1, k2, k3⟩ := bsk hc hK hB (hs .ctl (by rw [hp]; rfl))
    exact ⟨onEv_cons k1 trivial, bn _ k3, fun s h => by cases h; exact k2⟩
  | pollDrop o rows h0 h' m c hp hc hm =>
    exact absurd (hca.2 m (by simp)) hm
  | pollBack o rows h0 h' m c hp hc hm =>
    obtain ⟨hK, hB, hs⟩ := hI (sub (es := [_, _]) rfl)
    have h0 := hs .ctl (by rw [hp]; rfl)
    have h1 := nxt h0 hc
    have : ∀ x, m.2 ≠ .data x := by
      rcases frame_ctl h1.1 with ⟨n, e1, _, _⟩ | ⟨o, e1, _, _⟩ <;> intro x hx <;> rw [e1] at hx <;> cases hx
    refine ⟨onEv_cons (onEv_cons hK this) trivial, ?_, fun s h => by cases h; simp [taken, h0]⟩
    intro m' hm' o' _; cases hm'; exact hm
  | recvWork o rows h0 m c o' hp hc hm =>
    obtain ⟨hK, hB, hs⟩ := hI (sub (es := [_]) rfl)
    have h1 := nxt (hs _ (by rw [hp]; rfl)) hc
    have hne := hca.1 m o' (by simp) hm
    rcases frame_ctl h1.1 with ⟨n, e1, _, e2⟩ | ⟨o, e1, _, e2⟩
    · rw [e1] at hm; cases hm
    · rw [e1] at hm; cases hm
      rw [if_neg hne] at e2
      exact ⟨onEv_cons hK (fun x hx => by rw [e1] at hx; cases hx), nb _ hc rfl, fun s h => by cases h; exact h1.2.trans e2⟩
  | recvBack o rows h0 h' m c hp hc hw hm =>
    obtain ⟨hK, hB, hs⟩ := hI (sub (es := [_, _]) rfl)
    have h0 := hs .ctl (by rw [hp]; rfl)
    have h1 := nxt h0 hc
    have : ∀ x, m.2 ≠ .data x := by
      rcases frame_ctl h1.1 with ⟨n, e1, _, _⟩ | ⟨o, e1, _, _⟩ <;> intro x hx <;> rw [e1] at hx <;> cases hx
    refine ⟨onEv_cons (onEv_cons hK this) trivial, ?_, fun s h => by cases h; simp [taken, h0]⟩
    intro m' hm' o' ho'; cases hm'; exact absurd ho' (hw o')
  | recvErr o rows h0 h' m c hp hc hw hm =>
    obtain ⟨hK, hB, hs⟩ := hI (sub (es := [_]) rfl)
    have h1 := nxt (hs _ (by rw [hp]; rfl)) hc
    rcases frame_ctl h1.1 with ⟨n, e1, e3, e2⟩ | ⟨o, e1, _, e2⟩
    · rw [hm] at e3; cases e3
    · exact absurd e1 (hw o)
  | rowsBack o rows h0 h' t o' m c hp hc hm =>
    obtain ⟨hK, hB, hs⟩ := hI (sub (es := [_, _]) rfl)
    have h1 := nxt (hs _ (by rw [hp]; rfl)) hc
    obtain ⟨_, hx, _⟩ := frame_rows h1.1
    rw [hm] at hx; cases hx
  | rowsGot o rows h0 h' t o' m c hp hc hm =>
    obtain ⟨hK, hB, hs⟩ := hI (sub (es := [_]) rfl)
    have h1 := nxt (hs _ (by rw [hp]; rfl)) hc
    obtain ⟨hx, _, e2⟩ := frame_rows h1.1
    exact ⟨onEv_cons hK hx, nb _ hc rfl, fun s h => by cases h; exact h1.2.trans e2⟩

theorem sep_run (F : UserF) (k : Kind) (as : List Act) (hF : Framed (sends as)) (hc : Careful (run F k as).tr) :
    OnEv Kinds (run F k as).tr := by
  have key : taken (run F k as).tr ++ left (run F k as).chan = sends as ∧
      (Framed (sends as) → Careful (run F k as).tr → OnEv Kinds (run F k as).tr ∧ BufSig (run F k as) ∧
      ∀ s, (run F k as).ph.want = some s → frame .ctl (taken (run F k as).tr) = some s) := by
    refine run_ind (I := fun as w => taken w.tr ++ left w.chan = sends as ∧ (Framed (sends as) → Careful w.tr →
      OnEv Kinds w.tr ∧ BufSig w ∧ ∀ s, w.ph.want = some s → frame .ctl (taken w.tr) = some s)) ?_ ?_ ?_ ?_ as
    · refine ⟨rfl, fun _ _ => ⟨onEv_nil, fun m hm => (by cases hm), fun s hs => ?_⟩⟩
      cases hs; rfl
    · intro as w m ⟨h1, h2⟩
      refine ⟨?_, fun hF hc => ?_⟩
      · show taken w.tr ++ left (w.chan.send m) = _
        rw [left_send, ← List.append_assoc, h1, sends_append]; rfl
      · rw [sends_append] at hF
        exact h2 (framed_prefix hF) hc
    · intro as w ⟨h1, h2⟩
      have hb : w.chan.carry.buf = w.chan.buf := by unfold Chan.carry; split <;> rfl
      have e : sends (as ++ [.carry]) = sends as := by rw [sends_append]; simp [sends]
      rw [e]
      refine ⟨?_, fun hF hc => ?_⟩
      · show taken w.tr ++ left w.chan.carry = _
        rw [left_carry, h1]
      · obtain ⟨k1, k2, k3⟩ := h2 hF hc
        exact ⟨k1, fun m hm => k2 m (by rw [← hb]; exact hm), k3⟩
    · intro as w w' ⟨h1, h2⟩ hs
      have e : sends (as ++ [.tick]) = sends as := by rw [sends_append]; simp [sends]
      rw [e]
      exact ⟨by rw [taken_step hs, h1], fun hF hc => sep_step hs h1 hF hc (h2 hF)⟩
  exact (key.2 hF hc).1

end Verif.Worker
