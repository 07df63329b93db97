import Verif.Worker.Steps
/- What the record of a worker looks like (helper for Props.lean). -/
namespace Verif.Worker
open Verif.Comms

/-- `P e pre` for every event `e` of a record, `pre` being the record before it. -/
def OnEv (P : Ev → List Ev → Prop) (tr : List Ev) : Prop := ∀ post e pre, tr = post ++ e :: pre → P e pre

theorem onEv_nil {P : Ev → List Ev → Prop} : OnEv P [] := by
  intro post e pre h; simp at h

theorem onEv_cons {P : Ev → List Ev → Prop} {e : Ev} {tr : List Ev} (h : OnEv P tr) (he : P e tr) : OnEv P (e :: tr) := by
  intro post e' pre h'
  cases post with
  | nil => simp only [List.nil_append, List.cons.injEq] at h'; obtain ⟨rfl, rfl⟩ := h'; exact he
  | cons a post => simp only [List.cons_append, List.cons.injEq] at h'; exact h _ _ _ h'.2

/-- What must hold for an event to come next, by kind of event. -/
def Allowed : Ev → List Ev → Prop
  | .took _, pre => running pre = none
  | .tookRows _, pre => running pre = none ∧ ∃ m o pre', pre = .took m :: pre' ∧ m.2 = .work o ∧ o.rows ≠ []
  | .start o b, pre => running pre = none ∧ okTag o ∧ ¬ dropped o ∧
      ((∃ m pre', pre = .took m :: pre' ∧ m.2 = .work o ∧ o.rows = [] ∧ b = none) ∨
       (∃ m m' pre', pre = .tookRows m' :: .took m :: pre' ∧ m.2 = .work o ∧ o.rows ≠ [] ∧ b = some m'.2))
  | .out (.answer o _ _), pre => ∃ b, running pre = some (o, b)
  | .out .err, pre => ∃ pre', pre = .raise :: pre'
  | .out (.data _), pre => running pre ≠ none
  | .utook _, pre | .utookRows _, pre | .ptook _, pre | .ret _, pre => running pre ≠ none
  | .uback m, pre => ∃ pre', pre = .utook m :: pre' ∨ pre = .utookRows m :: pre' ∨ pre = .ptook m :: pre'
  | .buffered _, pre => ∃ u pre', pre = .ret u :: pre'
  | .raise, _ => True
  | .stop, pre => (∃ m pre', pre = .took m :: pre' ∧ finishMsg m) ∨ running pre ≠ none

/-- What can follow the return of a user function. -/
def Concludes (u : UOut) (e : Ev) : Prop := (e = .raise ∧ u = .long) ∨ (e = .stop ∧ u ≠ .long) ∨ (∃ o s r, e = .out (.answer o s r)) ∧ u ≠ .long

/-- What must hold for an event to come next, by the event before. -/
def Follows (e : Ev) : List Ev → Prop
  | .stop :: _ => False
  | .out .err :: _ => False
  | .raise :: _ => e = .out .err
  | .took m :: _ => (finishMsg m → e = .stop) ∧ (killMsg m → ∃ m', e = .took m') ∧
      ∀ o, m.2 = .work o → (dropped o → o.rows = [] → ∃ m', e = .took m') ∧
        (¬ dropped o → o.rows = [] → okTag o → e = .start o none) ∧ (o.rows ≠ [] → ∃ m', e = .tookRows m')
  | .tookRows m :: .took m0 :: _ => ∀ o, m0.2 = .work o → okTag o → (dropped o → ∃ m', e = .took m') ∧ (¬ dropped o → e = .start o (some m.2))
  | .ret u :: _ => (∃ m, e = .buffered m) ∨ Concludes u e
  | .buffered _ :: .ret u :: _ => Concludes u e
  | _ => True

/-- Phase and newest events. -/
def Link (w : W) : Prop :=
  match w.ph with
  | .idle => running w.tr = none ∧ (w.tr = [] ∨ (∃ o s r pre, w.tr = .out (.answer o s r) :: pre) ∨
      (∃ m pre, w.tr = .took m :: pre ∧ ¬ finishMsg m ∧ (killMsg m ∨ ∃ o, m.2 = .work o ∧ dropped o ∧ o.rows = [])) ∨
      (∃ m m0 o pre, w.tr = .tookRows m :: .took m0 :: pre ∧ m0.2 = .work o ∧ dropped o))
  | .skipRows o => running w.tr = none ∧ dropped o ∧ o.rows ≠ [] ∧ ∃ m pre, w.tr = .took m :: pre ∧ m.2 = .work o
  | .needRows o => running w.tr = none ∧ ¬ dropped o ∧ o.rows ≠ [] ∧ ∃ m pre, w.tr = .took m :: pre ∧ m.2 = .work o
  | .user o b _ => running w.tr = some (o, b) ∧ ∃ e pre, w.tr = e :: pre ∧ ∀ x, Follows x (e :: pre)
  | .userRows o b _ _ _ => running w.tr = some (o, b) ∧ ∃ m pre, w.tr = .utook m :: pre
  | .ended => ∃ pre, w.tr = .stop :: pre
  | .failed => ∃ pre, w.tr = .out .err :: .raise :: pre

def Fine (w : W) : Prop := OnEv Allowed w.tr ∧ OnEv Follows w.tr ∧ Link w

theorem fine_two {tr : List Ev} (e : Ev) (h : OnEv Allowed tr ∧ OnEv Follows tr) (ha : Allowed e tr) (hf : Follows e tr) :
    OnEv Allowed (e :: tr) ∧ OnEv Follows (e :: tr) := ⟨onEv_cons h.1 ha, onEv_cons h.2 hf⟩

theorem work_not_finish {m : Msg} {o : Order} (h : m.2 = .work o) : ¬ finishMsg m := by
  intro ⟨_, h2⟩; rw [h] at h2; cases h2
theorem work_not_kill {m : Msg} {o : Order} (h : m.2 = .work o) : ¬ killMsg m := by
  intro ⟨_, h2⟩; rw [h] at h2; cases h2
theorem kill_not_finish {m : Msg} (h : killMsg m) : ¬ finishMsg m := by
  intro ⟨_, h2⟩; rw [h.2] at h2; cases h2
theorem kill_not_work {m : Msg} {o : Order} (h : killMsg m) (ho : m.2 = .work o) : False := by
  rw [h.2] at ho; cases ho
theorem finish_not_work {m : Msg} {o : Order} (h : finishMsg m) (ho : m.2 = .work o) : False := by
  rw [h.2] at ho; cases ho

theorem link_idle_took {w : W} (hp : w.ph = .idle) (hl : Link w) (m : Msg) : Allowed (.took m) w.tr ∧ Follows (.took m) w.tr := by
  unfold Link at hl
  rw [hp] at hl
  obtain ⟨hr, hl⟩ := hl
  refine ⟨hr, ?_⟩
  rcases hl with h | ⟨o, s, r, pre, h⟩ | ⟨m', pre, h, hnf, hk⟩ | ⟨m', m0, o, pre, h, ho, hd⟩
  · rw [h]; trivial
  · rw [h]; trivial
  · rw [h]
    refine ⟨fun hf => absurd hf hnf, fun _ => ⟨m, rfl⟩, fun o ho => ⟨fun _ _ => ⟨m, rfl⟩, ?_, ?_⟩⟩
    · intro hnd
      rcases hk with hk | ⟨o', ho', hd', _⟩
      · exact (kill_not_work hk ho).elim
      · rw [ho] at ho'; cases ho'; exact absurd hd' hnd
    · intro hnr
      rcases hk with hk | ⟨o', ho', _, hr'⟩
      · exact (kill_not_work hk ho).elim
      · rw [ho] at ho'; cases ho'; exact absurd hr' hnr
  · rw [h]
    intro o' ho' _
    rw [ho] at ho'; cases ho'
    exact ⟨fun _ => ⟨m, rfl⟩, fun hn => absurd hd hn⟩

theorem fine_init (k : Kind) : Fine { chan := { kind := k } } := ⟨onEv_nil, onEv_nil, rfl, .inl rfl⟩

theorem running_ret {tr : List Ev} {u : UOut} : running (.ret u :: tr) = running tr := rfl

theorem concl_of {w : W} {bs : List Ev} {u : UOut} {c : Chan Msg} {e : Ev}
    (hc : (w.chan.buf = none ∧ c = w.chan ∧ bs = []) ∨ ∃ m, w.chan.buf = some m ∧ w.chan.recv = (c, some m) ∧ bs = [.buffered m])
    (h : OnEv Allowed w.tr ∧ OnEv Follows w.tr) (hr : running w.tr ≠ none) (hf : ∀ x, Follows x w.tr)
    (he : Concludes u e) (ha : ∀ tr', running tr' = running w.tr → Allowed e tr') :
    OnEv Allowed (e :: (bs ++ .ret u :: w.tr)) ∧ OnEv Follows (e :: (bs ++ .ret u :: w.tr)) := by
  have h1 := fine_two (.ret u) h hr (hf _)
  rcases hc with ⟨_, _, rfl⟩ | ⟨m, _, _, rfl⟩
  · exact fine_two e h1 (ha _ rfl) (.inr he)
  · exact fine_two e (fine_two (.buffered m) h1 ⟨u, _, rfl⟩ (.inl ⟨m, rfl⟩)) (ha _ rfl) he

theorem fine_fail {tr : List Ev} (h : OnEv Allowed tr ∧ OnEv Follows tr) (hf : Follows .raise tr) :
    OnEv Allowed (.out .err :: .raise :: tr) ∧ OnEv Follows (.out .err :: .raise :: tr) :=
  fine_two _ (fine_two .raise h trivial hf) ⟨tr, rfl⟩ rfl

theorem fine_step {w w' : W} (hw : Fine w) (hs : Step w w') : Fine w' := by
  obtain ⟨hA, hF, hL⟩ := hw
  have h : OnEv Allowed w.tr ∧ OnEv Follows w.tr := ⟨hA, hF⟩
  have mk : ∀ {w' : W}, OnEv Allowed w'.tr ∧ OnEv Follows w'.tr → Link w' → Fine w' := fun h1 h2 => ⟨h1.1, h1.2, h2⟩
  -- the phases of the user function
  have usr : ∀ {o rows h}, w.ph = .user o rows h → running w.tr = some (o, rows) ∧ ∀ x, Follows x w.tr := by
    intro o rows h hp
    unfold Link at hL; rw [hp] at hL
    obtain ⟨hr, e, pre, he, hf⟩ := hL
    exact ⟨hr, by rw [he]; exact hf⟩
  have usrR : ∀ {o rows h t o'}, w.ph = .userRows o rows h t o' → running w.tr = some (o, rows) ∧ ∀ x, Follows x w.tr := by
    intro o rows h t o' hp
    unfold Link at hL; rw [hp] at hL
    obtain ⟨hr, m, pre, he⟩ := hL
    exact ⟨hr, by rw [he]; intro x; trivial⟩
  cases hs with
  | stay => exact ⟨hA, hF, hL⟩
  | obs o rows h0 h' hp =>
    refine mk h ?_
    unfold Link at hL ⊢; rw [hp] at hL; exact hL
  | idleStop m c hp hc hm =>
    have ht := link_idle_took hp hL m
    refine mk (fine_two .stop (fine_two (.took m) h ht.1 ht.2) (.inl ⟨m, w.tr, rfl, hm⟩) ?_) ⟨_, rfl⟩
    exact ⟨fun _ => rfl, fun hk => absurd hm (kill_not_finish hk), fun o ho => absurd hm (work_not_finish ho)⟩
  | idleDrop m c hp hc hf hm =>
    have ht := link_idle_took hp hL m
    exact mk (fine_two (.took m) h ht.1 ht.2) ⟨ht.1, .inr (.inr (.inl ⟨m, w.tr, rfl, hf, hm⟩))⟩
  | idleSkip m c o hp hc hm hd hr =>
    have ht := link_idle_took hp hL m
    exact mk (fine_two (.took m) h ht.1 ht.2) ⟨ht.1, hd, hr, m, w.tr, rfl, hm⟩
  | idleNeed m c o hp hc hm hd hr =>
    have ht := link_idle_took hp hL m
    exact mk (fine_two (.took m) h ht.1 ht.2) ⟨ht.1, hd, hr, m, w.tr, rfl, hm⟩
  | idleCall m c o hp hc hm hd hr htag =>
    have ht := link_idle_took hp hL m
    refine mk (fine_two (.start o none) (fine_two (.took m) h ht.1 ht.2) ⟨ht.1, htag, hd, .inl ⟨m, w.tr, rfl, hm, hr, rfl⟩⟩ ?_)
      ⟨rfl, _, _, rfl, fun x => trivial⟩
    refine ⟨fun hf => (finish_not_work hf hm).elim, fun hk => (kill_not_work hk hm).elim, fun o' ho' => ?_⟩
    rw [hm] at ho'; cases ho'
    exact ⟨fun hd' => absurd hd' hd, fun _ _ _ => rfl, fun hr' => absurd hr hr'⟩
  | idleFail m c hp hc hf hk ho =>
    have ht := link_idle_took hp hL m
    refine mk (fine_fail (fine_two (.took m) h ht.1 ht.2) ?_) ⟨_, rfl⟩
    refine ⟨fun hf' => absurd hf' hf, fun hk' => absurd hk' hk, fun o ho' => ?_⟩
    obtain ⟨h1, h2, h3⟩ := ho o ho'
    exact ⟨fun h' => absurd h' h1, fun _ _ h' => absurd h' h3, fun h' => absurd h2 h'⟩
  | skipped m c o hp hc =>
    unfold Link at hL; rw [hp] at hL
    obtain ⟨hr, hd, hne, m0, pre, he, ho⟩ := hL
    have hfol : Follows (.tookRows m) w.tr := by
      rw [he]
      refine ⟨fun hf' => (finish_not_work hf' ho).elim, fun hk' => (kill_not_work hk' ho).elim, fun o' ho' => ?_⟩
      rw [ho] at ho'; cases ho'
      exact ⟨fun _ h' => absurd h' hne, fun _ h' => absurd h' hne, fun _ => ⟨m, rfl⟩⟩
    refine mk (fine_two (.tookRows m) h ⟨hr, m0, o, pre, he, ho, hne⟩ hfol) ⟨hr, .inr (.inr (.inr ⟨m, m0, o, pre, ?_, ho, hd⟩))⟩
    rw [he]
  | rowsFail m c o hp hc htag =>
    have hL' : running w.tr = none ∧ o.rows ≠ [] ∧ ∃ m pre, w.tr = .took m :: pre ∧ m.2 = .work o := by
      unfold Link at hL
      rcases hp with hp | hp <;> rw [hp] at hL <;> exact ⟨hL.1, hL.2.2.1, hL.2.2.2⟩
    obtain ⟨hr, hne, m0, pre, he, ho⟩ := hL'
    have hfol : Follows (.tookRows m) w.tr := by
      rw [he]
      refine ⟨fun hf' => (finish_not_work hf' ho).elim, fun hk' => (kill_not_work hk' ho).elim, fun o' ho' => ?_⟩
      rw [ho] at ho'; cases ho'
      exact ⟨fun _ h' => absurd h' hne, fun _ h' => absurd h' hne, fun _ => ⟨m, rfl⟩⟩
    refine mk (fine_fail (fine_two (.tookRows m) h ⟨hr, m0, o, pre, he, ho, hne⟩ hfol) ?_) ⟨_, rfl⟩
    rw [he]
    intro o' ho' ht'
    rw [ho] at ho'; cases ho'
    exact absurd ht' htag
  | called m c o hp hc htag =>
    unfold Link at hL; rw [hp] at hL
    obtain ⟨hr, hd, hne, m0, pre, he, ho⟩ := hL
    have hfol : Follows (.tookRows m) w.tr := by
      rw [he]
      refine ⟨fun hf' => (finish_not_work hf' ho).elim, fun hk' => (kill_not_work hk' ho).elim, fun o' ho' => ?_⟩
      rw [ho] at ho'; cases ho'
      exact ⟨fun _ h' => absurd h' hne, fun _ h' => absurd h' hne, fun _ => ⟨m, rfl⟩⟩
    refine mk (fine_two (.start o (some m.2)) (fine_two (.tookRows m) h ⟨hr, m0, o, pre, he, ho, hne⟩ hfol)
      ⟨hr, htag, hd, .inr ⟨m0, m, pre, by rw [he], ho, hne, rfl⟩⟩ ?_) ⟨rfl, _, _, rfl, fun x => trivial⟩
    rw [he]
    intro o' ho' _
    rw [ho] at ho'; cases ho'
    exact ⟨fun h' => absurd h' hd, fun _ => rfl⟩
  | send o rows h0 h' x hp =>
    obtain ⟨hr, hf⟩ := usr hp
    exact mk (fine_two (.out (.data x)) h (by rw [Allowed, hr]; simp) (hf _)) ⟨hr, _, _, rfl, fun x => trivial⟩
  | raise o rows h0 hp =>
    obtain ⟨hr, hf⟩ := usr hp
    exact mk (fine_fail h (hf _)) ⟨_, rfl⟩
  | retFail o rows h0 c bs hp hc =>
    obtain ⟨hr, hf⟩ := usr hp
    have h1 := concl_of (u := .long) (e := .raise) hc h (by rw [hr]; simp) hf (.inl ⟨rfl, rfl⟩) (fun _ _ => trivial)
    exact mk (fine_two (.out .err) h1 ⟨_, rfl⟩ rfl) ⟨_, rfl⟩
  | retStop o rows h0 c bs u hp hl hc hu =>
    obtain ⟨hr, hf⟩ := usr hp
    exact mk (concl_of hc h (by rw [hr]; simp) hf (.inr (.inl ⟨rfl, hl⟩)) (fun tr' h' => .inr (by rw [h', hr]; simp))) ⟨_, rfl⟩
  | retAnswer o rows h0 c bs u s r hp hl hc hns hu =>
    obtain ⟨hr, hf⟩ := usr hp
    exact mk (concl_of hc h (by rw [hr]; simp) hf (.inr (.inr ⟨⟨o, s, r, rfl⟩, hl⟩)) (fun tr' h' => ⟨rows, by rw [h', hr]⟩))
      ⟨rfl, .inr (.inl ⟨o, s, r, _, rfl⟩)⟩
  | pollDrop o rows h0 h' m c hp hc hm =>
    obtain ⟨hr, hf⟩ := usr hp
    exact mk (fine_two (.ptook m) h (by rw [Allowed, hr]; simp) (hf _)) ⟨hr, _, _, rfl, fun x => trivial⟩
  | pollBack o rows h0 h' m c hp hc hm =>
    obtain ⟨hr, hf⟩ := usr hp
    exact mk (fine_two (.uback m) (fine_two (.ptook m) h (by rw [Allowed, hr]; simp) (hf _)) ⟨w.tr, .inr (.inr rfl)⟩ trivial)
      ⟨hr, _, _, rfl, fun x => trivial⟩
  | recvWork o rows h0 m c o' hp hc hm =>
    obtain ⟨hr, hf⟩ := usr hp
    exact mk (fine_two (.utook m) h (by rw [Allowed, hr]; simp) (hf _)) ⟨hr, m, _, rfl⟩
  | recvBack o rows h0 h' m c hp hc hw hm =>
    obtain ⟨hr, hf⟩ := usr hp
    exact mk (fine_two (.uback m) (fine_two (.utook m) h (by rw [Allowed, hr]; simp) (hf _)) ⟨w.tr, .inl rfl⟩ trivial)
      ⟨hr, _, _, rfl, fun x => trivial⟩
  | recvErr o rows h0 h' m c hp hc hw hm =>
    obtain ⟨hr, hf⟩ := usr hp
    exact mk (fine_two (.utook m) h (by rw [Allowed, hr]; simp) (hf _)) ⟨hr, _, _, rfl, fun x => trivial⟩
  | rowsBack o rows h0 h' t o' m c hp hc hm =>
    obtain ⟨hr, hf⟩ := usrR hp
    exact mk (fine_two (.uback m) (fine_two (.utookRows m) h (by rw [Allowed, hr]; simp) (hf _)) ⟨w.tr, .inr (.inl rfl)⟩ trivial)
      ⟨hr, _, _, rfl, fun x => trivial⟩
  | rowsGot o rows h0 h' t o' m c hp hc hm =>
    obtain ⟨hr, hf⟩ := usrR hp
    exact mk (fine_two (.utookRows m) h (by rw [Allowed, hr]; simp) (hf _)) ⟨hr, _, _, rfl, fun x => trivial⟩

theorem fine_run (F : UserF) (k : Kind) (as : List Act) : Fine (run F k as) :=
  run_tr (fine_init k) (fun _ _ h => h) (fun _ _ h hs => fine_step h hs) as

end Verif.Worker
