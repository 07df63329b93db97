import Verif.Worker.Trace
/- Messages taken, and the pushed-back message (helper for Props.lean). -/
namespace Verif.Worker
open Verif.Comms

/-- Messages that are still to be received. -/
def left (c : Chan Msg) : List Msg := c.buf.toList ++ c.inbox ++ c.pend

theorem left_recv {c c' : Chan Msg} {m : Msg} (h : c.recv = (c', some m)) : left c = m :: left c' := by
  rcases recv_some h with ⟨hb, rfl⟩ | ⟨hb, rest, hi, rfl⟩
  · simp [left, hb]
  · simp [left, hb, hi]

theorem left_push {c : Chan Msg} (h : c.buf = none) (m : Msg) : left { c with buf := some m } = m :: left c := by
  simp [left, h]

theorem left_send (c : Chan Msg) (m : Msg) : left (c.send m) = left c ++ [m] := by
  simp [left, Chan.send]

theorem left_carry (c : Chan Msg) : left c.carry = left c := by
  unfold Chan.carry
  split
  · rfl
  · rename_i m rest h; simp [left, h]

theorem sends_append (as bs : List Act) : sends (as ++ bs) = sends as ++ sends bs := by
  induction as with
  | nil => rfl
  | cons a as ih => cases a <;> simp [sends, ih]

theorem bs_taken {w : W} {c : Chan Msg} {bs : List Ev} {u : UOut}
    (hc : (w.chan.buf = none ∧ c = w.chan ∧ bs = []) ∨ ∃ m, w.chan.buf = some m ∧ w.chan.recv = (c, some m) ∧ bs = [.buffered m]) :
    taken (bs ++ .ret u :: w.tr) ++ left c = taken w.tr ++ left w.chan := by
  rcases hc with ⟨_, rfl, rfl⟩ | ⟨m, _, hr, rfl⟩
  · rfl
  · simp [taken, left_recv hr]

theorem taken_step {w w' : W} (hs : Step w w') : taken w'.tr ++ left w'.chan = taken w.tr ++ left w.chan := by
  cases hs <;> simp only [taken]
  case idleStop hc hm => rw [left_recv hc]; simp
  case idleDrop hc hf hm => rw [left_recv hc]; simp
  case idleSkip hc _ _ _ => rw [left_recv hc]; simp
  case idleNeed hc _ _ _ => rw [left_recv hc]; simp
  case idleCall hc _ _ _ _ => rw [left_recv hc]; simp
  case idleFail hc _ _ _ => rw [left_recv hc]; simp
  case skipped hc => rw [left_recv hc]; simp
  case rowsFail hc _ => rw [left_recv hc]; simp
  case called hc _ => rw [left_recv hc]; simp
  case retFail hc => exact bs_taken hc
  case retStop hc _ => exact bs_taken hc
  case retAnswer hc _ _ => exact bs_taken hc
  case pollDrop hc _ => rw [left_recv hc]; simp
  case pollBack hc _ => rw [left_recv hc, left_push (recv_buf_none hc)]; simp
  case recvWork hc _ => rw [left_recv hc]; simp
  case recvBack hc _ _ => rw [left_recv hc, left_push (recv_buf_none hc)]; simp
  case recvErr hc _ _ => rw [left_recv hc]; simp
  case rowsBack hc _ => rw [left_recv hc, left_push (recv_buf_none hc)]; simp
  case rowsGot hc _ => rw [left_recv hc]; simp

theorem taken_run (F : UserF) (k : Kind) (as : List Act) :
    taken (run F k as).tr ++ left (run F k as).chan = sends as := by
  refine run_ind (I := fun as w => taken w.tr ++ left w.chan = sends as) rfl ?_ ?_ ?_ as
  · intro as w m h
    show taken w.tr ++ left (w.chan.send m) = _
    rw [left_send, ← List.append_assoc, h, sends_append]; rfl
  · intro as w h
    show taken w.tr ++ left w.chan.carry = _
    rw [left_carry, h, sends_append]; simp [sends]
  · intro as w w' h hs
    rw [taken_step hs, h, sends_append]; simp [sends]

/-! ### The pushed-back message -/

def Closes (u : UOut) (e : Ev) (hs : List Msg) : Prop :=
  (fin ∈ hs → u.own = none → ∀ o s r, e ≠ .out (.answer o s r)) ∧
  (e = .stop → u.own = some FINISH ∨ (u.own = none ∧ ∃ m ∈ hs, finishMsg m)) ∧
  (∀ o s r, e = .out (.answer o s r) → s ≠ FINISH ∧ s = (u.own).getD 0)

/-- What must hold for an event to come next, by what the user function has received. -/
def Ends (e : Ev) : List Ev → Prop
  | .ret u :: pre => (fin ∈ heard pre → e = .buffered fin) ∧ (∀ m, e = .buffered m → m ∈ heard pre) ∧ Closes u e (heard pre)
  | .buffered _ :: .ret u :: pre => Closes u e (heard pre)
  | _ => True

def Keeps (w : W) : Prop :=
  match w.ph with
  | .user _ _ _ => (fin ∈ heard w.tr → w.chan.buf = some fin) ∧ ∀ m, w.chan.buf = some m → m ∈ heard w.tr
  | .userRows .. => fin ∉ heard w.tr ∧ w.chan.buf = none
  | .failed => True
  | _ => w.chan.buf = none

theorem ends_other {e x : Ev} {pre : List Ev} (h1 : ∀ u, e ≠ .ret u) (h2 : ∀ m, e ≠ .buffered m) : Ends x (e :: pre) := by
  cases e <;> simp_all [Ends]

theorem own_none_iff (u : UOut) : u.own = none ↔ ∀ s, u ≠ .pairStatus s ∧ u ≠ .triple s := by
  cases u <;> simp [UOut.own]

theorem ends_concl {w : W} {bs : List Ev} {u : UOut} {c : Chan Msg} {e : Ev}
    (hc : (w.chan.buf = none ∧ c = w.chan ∧ bs = []) ∨ ∃ m, w.chan.buf = some m ∧ w.chan.recv = (c, some m) ∧ bs = [.buffered m])
    (h : OnEv Ends w.tr) (h1 : fin ∈ heard w.tr → w.chan.buf = some fin) (h2 : ∀ m, w.chan.buf = some m → m ∈ heard w.tr)
    (h3 : ∀ x, Ends x w.tr) (hb : ∀ m, e ≠ .buffered m) (he : Closes u e (heard w.tr)) :
    OnEv Ends (e :: (bs ++ .ret u :: w.tr)) := by
  have hr := onEv_cons h (h3 (.ret u))
  rcases hc with ⟨hn, _, rfl⟩ | ⟨m, hm, _, rfl⟩
  · refine onEv_cons hr ⟨fun hf => ?_, fun m he' => absurd he' (hb m), he⟩
    rw [h1 hf] at hn; cases hn
  · refine onEv_cons (onEv_cons hr ⟨fun hf => ?_, fun m' he' => ?_, ?_⟩) he
    · rw [h1 hf] at hm; cases hm; rfl
    · cases he'; exact h2 _ hm
    · exact ⟨fun _ _ _ _ _ h' => by simp at h', fun h' => by simp at h', fun _ _ _ h' => by simp at h'⟩

theorem recv_fin {w : W} {c : Chan Msg} {m : Msg} (h1 : fin ∈ heard w.tr → w.chan.buf = some fin)
    (hc : w.chan.recv = (c, some m)) (hm : m ≠ fin) : fin ∉ heard w.tr := by
  intro hf
  rcases recv_some hc with ⟨hb, _⟩ | ⟨hb, _⟩
  · rw [h1 hf] at hb; cases hb; exact hm rfl
  · rw [h1 hf] at hb; cases hb

theorem recv_eq_fin {w : W} {c : Chan Msg} {m : Msg} (h1 : fin ∈ heard w.tr → w.chan.buf = some fin)
    (hc : w.chan.recv = (c, some m)) (hf : fin ∈ heard w.tr) : m = fin := by
  rcases recv_some hc with ⟨hb, _⟩ | ⟨hb, _⟩
  · rw [h1 hf] at hb; cases hb; rfl
  · rw [h1 hf] at hb; cases hb

theorem keeps_run (F : UserF) (k : Kind) (as : List Act) :
    OnEv Ends (run F k as).tr ∧ (∀ x, Ends x (run F k as).tr) ∧ Keeps (run F k as) := by
  refine run_ind (I := fun _ w => OnEv Ends w.tr ∧ (∀ x, Ends x w.tr) ∧ Keeps w) ⟨onEv_nil, fun _ => trivial, rfl⟩ ?_ ?_ ?_ as
  · intro as w m h; exact h
  · intro as w ⟨h, hx, h'⟩
    refine ⟨h, hx, ?_⟩
    have hb : w.chan.carry.buf = w.chan.buf := by unfold Chan.carry; split <;> rfl
    unfold Keeps at h' ⊢
    simp only [hb]
    exact h'
  · intro as w w' ⟨h, hx, hk⟩ hs
    have usr : ∀ {o rows h}, w.ph = .user o rows h → (fin ∈ heard w.tr → w.chan.buf = some fin) ∧
        ∀ m, w.chan.buf = some m → m ∈ heard w.tr := by
      intro o rows h hp; unfold Keeps at hk; rw [hp] at hk; exact hk
    have usrR : ∀ {o rows h t o'}, w.ph = .userRows o rows h t o' → fin ∉ heard w.tr ∧ w.chan.buf = none := by
      intro o rows h t o' hp; unfold Keeps at hk; rw [hp] at hk; exact hk
    have c1 : ∀ (e : Ev), (∀ u, e ≠ .ret u) → (∀ m, e ≠ .buffered m) → OnEv Ends (e :: w.tr) ∧ ∀ x, Ends x (e :: w.tr) :=
      fun e h1 h2 => ⟨onEv_cons h (hx e), fun x => ends_other h1 h2⟩
    have c2 : ∀ (e e' : Ev), (∀ u, e ≠ .ret u) → (∀ m, e ≠ .buffered m) → (∀ u, e' ≠ .ret u) → (∀ m, e' ≠ .buffered m) →
        OnEv Ends (e' :: e :: w.tr) ∧ ∀ x, Ends x (e' :: e :: w.tr) :=
      fun e e' h1 h2 h3 h4 => ⟨onEv_cons (c1 e h1 h2).1 ((c1 e h1 h2).2 e'), fun x => ends_other h3 h4⟩
    have c3 : ∀ (e : Ev), (∀ u, e ≠ .ret u) → (∀ m, e ≠ .buffered m) →
        OnEv Ends (.out .err :: .raise :: e :: w.tr) ∧ ∀ x, Ends x (.out .err :: .raise :: e :: w.tr) :=
      fun e h1 h2 => ⟨onEv_cons (c2 e .raise h1 h2 (by simp) (by simp)).1 trivial, fun x => trivial⟩
    have mk : ∀ {w' : W}, (OnEv Ends w'.tr ∧ ∀ x, Ends x w'.tr) → Keeps w' → OnEv Ends w'.tr ∧ (∀ x, Ends x w'.tr) ∧ Keeps w' :=
      fun h1 h2 => ⟨h1.1, h1.2, h2⟩
    have bsn : ∀ {c bs}, ((w.chan.buf = none ∧ c = w.chan ∧ bs = []) ∨
        ∃ m, w.chan.buf = some m ∧ w.chan.recv = (c, some m) ∧ bs = [Ev.buffered m]) → c.buf = none := by
      intro c bs hc
      rcases hc with ⟨hn, rfl, _⟩ | ⟨m, _, hr, _⟩
      · exact hn
      · exact recv_buf_none hr
    cases hs with
    | stay => exact ⟨h, hx, hk⟩
    | obs o rows h0 h' hp => exact ⟨h, hx, usr hp⟩
    | idleStop m c hp hc hm => exact mk (c2 _ _ (by simp) (by simp) (by simp) (by simp)) (recv_buf_none hc)
    | idleDrop m c hp hc hf hm => exact mk (c1 _ (by simp) (by simp)) (recv_buf_none hc)
    | idleSkip m c o hp hc hm hd hr => exact mk (c1 _ (by simp) (by simp)) (recv_buf_none hc)
    | idleNeed m c o hp hc hm hd hr => exact mk (c1 _ (by simp) (by simp)) (recv_buf_none hc)
    | idleCall m c o hp hc hm hd hr ht =>
      refine mk (c2 _ _ (by simp) (by simp) (by simp) (by simp)) ⟨fun hf => by simp [heard] at hf, fun m' hm' => ?_⟩
      have := recv_buf_none hc; rw [this] at hm'; cases hm'
    | idleFail m c hp hc hf hkk ho => exact mk (c3 _ (by simp) (by simp)) trivial
    | skipped m c o hp hc => exact mk (c1 _ (by simp) (by simp)) (recv_buf_none hc)
    | rowsFail m c o hp hc ht => exact mk (c3 _ (by simp) (by simp)) trivial
    | called m c o hp hc ht =>
      refine mk (c2 _ _ (by simp) (by simp) (by simp) (by simp)) ⟨fun hf => by simp [heard] at hf, fun m' hm' => ?_⟩
      have := recv_buf_none hc; rw [this] at hm'; cases hm'
    | send o rows h0 h' x hp => exact mk (c1 _ (by simp) (by simp)) (usr hp)
    | raise o rows h0 hp => exact mk (c2 _ _ (by simp) (by simp) (by simp) (by simp)) trivial
    | retFail o rows h0 c bs hp hc =>
      have hu := usr hp
      refine mk ⟨onEv_cons (ends_concl hc h hu.1 hu.2 hx (by simp) ?_) trivial, fun _ => trivial⟩ trivial
      exact ⟨fun _ _ _ _ _ h' => by simp at h', fun h' => by simp at h', fun _ _ _ h' => by simp at h'⟩
    | retStop o rows h0 c bs u hp hl hc hu' =>
      have hu := usr hp
      refine mk ⟨ends_concl hc h hu.1 hu.2 hx (by simp) ?_, fun _ => trivial⟩ (bsn hc)
      refine ⟨fun _ _ _ _ _ h' => by simp at h', fun _ => ?_, fun _ _ _ h' => by simp at h'⟩
      rcases hu' with rfl | rfl | ⟨hn, m, hm, hfm⟩
      · exact .inl rfl
      · exact .inl rfl
      · exact .inr ⟨(own_none_iff u).mpr hn, m, hu.2 m hm, hfm⟩
    | retAnswer o rows h0 c bs u s r hp hl hc hns hu' =>
      have hu := usr hp
      refine mk ⟨ends_concl hc h hu.1 hu.2 hx (by simp) ?_, fun _ => trivial⟩ (bsn hc)
      refine ⟨fun hf hown => ?_, fun h' => by simp at h', fun o' s' r' h' => ?_⟩
      · rcases hu' with rfl | rfl | ⟨_, _, hm⟩
        · simp [UOut.own] at hown
        · simp [UOut.own] at hown
        · exact absurd ⟨rfl, rfl⟩ (hm fin (hu.1 hf))
      · simp only [Ev.out.injEq, Out.answer.injEq] at h'
        obtain ⟨_, rfl, _⟩ := h'
        refine ⟨hns, ?_⟩
        rcases hu' with rfl | rfl | ⟨rfl, hn, _⟩
        · rfl
        · rfl
        · rw [(own_none_iff u).mpr hn]; rfl
    | pollDrop o rows h0 h' m c hp hc hm =>
      have hu := usr hp
      have hne : m ≠ fin := by rintro rfl; exact hm rfl
      refine mk (c1 _ (by simp) (by simp)) ⟨fun hf => ?_, fun m' hm' => ?_⟩
      · simp only [heard, List.mem_cons] at hf
        rcases hf with hf | hf
        · exact absurd hf.symm hne
        · exact absurd hf (recv_fin hu.1 hc hne)
      · have := recv_buf_none hc; rw [this] at hm'; cases hm'
    | pollBack o rows h0 h' m c hp hc hm =>
      have hu := usr hp
      refine mk (c2 _ _ (by simp) (by simp) (by simp) (by simp)) ⟨fun hf => ?_, fun m' hm' => ?_⟩
      · simp only [heard, List.mem_cons] at hf
        rcases hf with hf | hf
        · rw [hf]
        · rw [recv_eq_fin hu.1 hc hf]
      · cases hm'; simp [heard]
    | recvWork o rows h0 m c o' hp hc hm =>
      have hu := usr hp
      have hne : m ≠ fin := by rintro rfl; cases hm
      refine mk (c1 _ (by simp) (by simp)) ⟨fun hf => ?_, recv_buf_none hc⟩
      simp only [heard, List.mem_cons] at hf
      rcases hf with hf | hf
      · exact absurd hf.symm hne
      · exact absurd hf (recv_fin hu.1 hc hne)
    | recvBack o rows h0 h' m c hp hc hw hm =>
      have hu := usr hp
      refine mk (c2 _ _ (by simp) (by simp) (by simp) (by simp)) ⟨fun hf => ?_, fun m' hm' => ?_⟩
      · simp only [heard, List.mem_cons] at hf
        rcases hf with hf | hf
        · rw [hf]
        · rw [recv_eq_fin hu.1 hc hf]
      · cases hm'; simp [heard]
    | recvErr o rows h0 h' m c hp hc hw hm =>
      have hu := usr hp
      have hne : m ≠ fin := by rintro rfl; simp [isStop] at hm
      refine mk (c1 _ (by simp) (by simp)) ⟨fun hf => ?_, fun m' hm' => ?_⟩
      · simp only [heard, List.mem_cons] at hf
        rcases hf with hf | hf
        · exact absurd hf.symm hne
        · exact absurd hf (recv_fin hu.1 hc hne)
      · have := recv_buf_none hc; rw [this] at hm'; cases hm'
    | rowsBack o rows h0 h' t o' m c hp hc hm =>
      have hu := usrR hp
      refine mk (c2 _ _ (by simp) (by simp) (by simp) (by simp)) ⟨fun hf => ?_, fun m' hm' => ?_⟩
      · simp only [heard, List.mem_cons] at hf
        rcases hf with hf | hf
        · rw [hf]
        · exact absurd hf hu.1
      · cases hm'; simp [heard]
    | rowsGot o rows h0 h' t o' m c hp hc hm =>
      have hu := usrR hp
      have hne : m ≠ fin := by rintro rfl; simp [isStop] at hm
      refine mk (c1 _ (by simp) (by simp)) ⟨fun hf => ?_, fun m' hm' => ?_⟩
      · simp only [heard, List.mem_cons] at hf
        rcases hf with hf | hf
        · exact absurd hf.symm hne
        · exact absurd hf hu.1
      · have := recv_buf_none hc; rw [this] at hm'; cases hm'

end Verif.Worker
