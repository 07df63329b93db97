import Verif.Worker.Sep
/-
C37, C38, C40: workers.  `run F k as` is a worker with user functions `F` and a communicator of kind `k`, after the actions
`as` (messages sent by the manager, messages carried, steps of the worker, in any order).  Its record `tr` has the newest
event first: `tr = post ++ e :: pre` says that `e` happened after `pre` and that `post` followed.
-/
namespace Verif.Worker
open Verif.Comms

/-! ### C37 -/

/-- Messages are processed in order: those taken and not put back are the first ones that were sent, in order of sending. -/
theorem C37_in_order (F : UserF) (k : Kind) (as : List Act) : taken (run F k as).tr <+: sends as :=
  ⟨_, taken_run F k as⟩

/-- Only the message that has just been received is put back. -/
theorem C37_put_back (F : UserF) (k : Kind) (as : List Act) {post pre : List Ev} {m : Msg}
    (h : (run F k as).tr = post ++ .uback m :: pre) : (taken pre).getLast? = some m := by
  obtain ⟨pre', hp⟩ := (fine_run F k as).1 _ _ _ h
  rcases hp with rfl | rfl | rfl <;> simp [taken]

/-- A user function is called only for an order that was just taken (and its rows), and never while another call is going on. -/
theorem C37_called (F : UserF) (k : Kind) (as : List Act) {post pre : List Ev} {o : Order} {b : Option Body}
    (h : (run F k as).tr = post ++ .start o b :: pre) :
    running pre = none ∧
    ((∃ t pre', pre = .took (t, .work o) :: pre' ∧ o.rows = [] ∧ b = none) ∨
     (∃ t m pre', pre = .tookRows m :: .took (t, .work o) :: pre' ∧ o.rows ≠ [] ∧ b = some m.2)) := by
  obtain ⟨hr, _, _, hp⟩ := (fine_run F k as).1 _ _ _ h
  refine ⟨hr, ?_⟩
  rcases hp with ⟨⟨t, x⟩, pre', e, rfl, hn, hb⟩ | ⟨⟨t, x⟩, m', pre', e, rfl, hn, hb⟩
  · exact .inl ⟨t, pre', e, hn, hb⟩
  · exact .inr ⟨t, m', pre', e, hn, hb⟩

/-- Every order is run (unless it is in active receive mode for a worker that is not persistent): without rows at once,
with rows directly after these have been taken. -/
theorem C37_runs (F : UserF) (k : Kind) (as : List Act) {post pre : List Ev} {t : Nat} {o : Order}
    (h : (run F k as).tr = post ++ .took (t, .work o) :: pre) (ht : okTag o) (hd : ¬ dropped o) :
    (o.rows = [] → ∃ post', post = post' ++ [.start o none]) ∧
    (o.rows ≠ [] → post = [] ∨ ∃ m post', post = post' ++ [.start o (some m.2), .tookRows m]) := by
  obtain ⟨_, hF, hL⟩ := fine_run F k as
  rcases List.eq_nil_or_concat post with rfl | ⟨q, e, hq⟩
  · refine ⟨fun hr => ?_, fun _ => .inl rfl⟩
    -- an order without rows cannot be the newest event
    exfalso
    rw [List.nil_append] at h
    unfold Link at hL
    rw [h] at hL
    cases hp : (run F k as).ph <;> rw [hp] at hL
    · obtain ⟨_, h' | ⟨_, _, _, _, h'⟩ | ⟨m, pre', h', hnf, hk⟩ | ⟨_, _, _, _, h', _⟩⟩ := hL
      · simp at h'
      · simp at h'
      · simp only [List.cons.injEq, Ev.took.injEq] at h'
        obtain ⟨rfl, _⟩ := h'
        rcases hk with hk | ⟨o', ho', hd', _⟩
        · exact kill_not_work hk rfl
        · cases ho'; exact hd hd'
      · simp at h'
    · obtain ⟨_, hd', hr', m, pre', h', ho'⟩ := hL
      simp only [List.cons.injEq, Ev.took.injEq] at h'
      obtain ⟨rfl, _⟩ := h'; cases ho'; exact hr' hr
    · obtain ⟨_, hd', hr', m, pre', h', ho'⟩ := hL
      simp only [List.cons.injEq, Ev.took.injEq] at h'
      obtain ⟨rfl, _⟩ := h'; cases ho'; exact hr' hr
    · obtain ⟨_, e, pre', h', hf⟩ := hL
      rw [← h'] at hf
      have := ((hf .stop).2.2 o rfl).2.1 hd hr ht
      cases this
    · obtain ⟨_, m, pre', h'⟩ := hL; simp at h'
    · obtain ⟨pre', h'⟩ := hL; simp at h'
    · obtain ⟨pre', h'⟩ := hL; simp at h'
  · simp only [List.concat_eq_append] at hq
    subst hq
    have h1 : (run F k as).tr = q ++ e :: .took (t, .work o) :: pre := by simpa using h
    obtain ⟨_, _, h3⟩ := hF _ _ _ h1
    obtain ⟨_, ha, hb⟩ := h3 o rfl
    refine ⟨fun hr => ⟨q, by rw [ha hd hr ht]⟩, fun hr => .inr ?_⟩
    obtain ⟨m, rfl⟩ := hb hr
    rcases List.eq_nil_or_concat q with rfl | ⟨q', e', hq'⟩
    · exfalso
      rw [List.nil_append] at h1
      unfold Link at hL
      rw [h1] at hL
      cases hp : (run F k as).ph <;> rw [hp] at hL
      · obtain ⟨_, h' | ⟨_, _, _, _, h'⟩ | ⟨_, _, h', _⟩ | ⟨m', m0, o', pre', h', ho', hd'⟩⟩ := hL
        · simp at h'
        · simp at h'
        · simp at h'
        · simp only [List.cons.injEq, Ev.tookRows.injEq, Ev.took.injEq] at h'
          obtain ⟨_, rfl, _⟩ := h'
          cases ho'; exact hd hd'
      · obtain ⟨_, _, _, _, _, h', _⟩ := hL; simp at h'
      · obtain ⟨_, _, _, _, _, h', _⟩ := hL; simp at h'
      · obtain ⟨_, e, pre', h', hf⟩ := hL
        rw [← h'] at hf
        have := (hf .stop o rfl ht).2 hd
        cases this
      · obtain ⟨_, m, pre', h'⟩ := hL; simp at h'
      · obtain ⟨pre', h'⟩ := hL; simp at h'
      · obtain ⟨pre', h'⟩ := hL; simp at h'
    · simp only [List.concat_eq_append] at hq'
      subst hq'
      have h2 : (run F k as).tr = q' ++ e' :: .tookRows m :: .took (t, .work o) :: pre := by simpa using h1
      have := (hF _ _ _ h2 o rfl ht).2 hd
      exact ⟨m, q', by rw [this]; simp⟩

/-- Answers and ends of a call. -/
def Ev.closes : Ev → Bool
  | .start .. | .out (.answer ..) | .out .err | .stop => true
  | _ => false

theorem running_through {o : Order} {b : Option Body} {pre : List Ev} (l : List Ev) (hl : ∀ a ∈ l, (!a.closes) = true) :
    running (l ++ .start o b :: pre) = some (o, b) := by
  induction l with
  | nil => rfl
  | cons a l ih =>
    have ha := hl a (by simp)
    have := ih (fun x hx => hl x (by simp [hx]))
    cases a <;> simp_all [Ev.closes, running]
    rename_i x
    cases x <;> simp_all [running]

/-- Exactly one answer for every order that is run: the first of the events "call", "answer", "error report", "end of the
worker" after a call, if any, is the answer to this order, or the worker stops. -/
theorem C37_one_answer (F : UserF) (k : Kind) (as : List Act) {post pre : List Ev} {o : Order} {b : Option Body}
    (h : (run F k as).tr = post ++ .start o b :: pre) :
    post.reverse.find? Ev.closes = none ∨ (∃ s r, post.reverse.find? Ev.closes = some (.out (.answer o s r))) ∨
    (post.reverse.find? Ev.closes = some (.out .err) ∧ post.head? = some (.out .err)) ∨
    (post.reverse.find? Ev.closes = some .stop ∧ post.head? = some .stop) := by
  obtain ⟨hA, hF, _⟩ := fine_run F k as
  cases hf : post.reverse.find? Ev.closes with
  | none => exact .inl rfl
  | some e =>
    refine .inr ?_
    rw [List.find?_eq_some_iff_append] at hf
    obtain ⟨he, as1, bs1, hab, hno⟩ := hf
    have hpost : post = bs1.reverse ++ e :: as1.reverse := by
      have := congrArg List.reverse hab; simpa using this
    -- the call is still going on when `e` happens
    have hr : running (as1.reverse ++ .start o b :: pre) = some (o, b) := running_through _ (fun a ha => hno a (by simpa using ha))
    have hsplit : (run F k as).tr = bs1.reverse ++ e :: (as1.reverse ++ .start o b :: pre) := by
      rw [h, hpost]; simp
    have hall := hA _ _ _ hsplit
    have last : ∀ x, e = x → (∀ y, ¬ Follows y (x :: (as1.reverse ++ .start o b :: pre))) → bs1 = [] := by
      intro x hx hn
      rcases bs1 with _ | ⟨y, bs1⟩
      · rfl
      · exfalso
        have h2 : (run F k as).tr = bs1.reverse ++ y :: e :: (as1.reverse ++ .start o b :: pre) := by
          rw [hsplit]; simp
        have := hF _ _ _ h2
        rw [hx] at this
        exact hn y this
    cases e with
    | start o' b' =>
      obtain ⟨h', _⟩ := hall
      rw [hr] at h'; cases h'
    | out x =>
      cases x with
      | data x => simp [Ev.closes] at he
      | answer o' s r =>
        obtain ⟨b', h'⟩ := hall
        rw [hr] at h'; cases h'
        exact .inl ⟨s, r, rfl⟩
      | err =>
        have := last _ rfl (fun y hy => hy)
        subst this
        exact .inr (.inl ⟨rfl, by rw [hpost]; rfl⟩)
    | stop =>
      have := last _ rfl (fun y hy => hy)
      subst this
      exact .inr (.inr ⟨rfl, by rw [hpost]; rfl⟩)
    | _ => simp [Ev.closes] at he

/-- Answers and messages of user functions are sent only while a call is going on; an answer is to the order that is
being run (and the call is over then). -/
theorem C37_answers (F : UserF) (k : Kind) (as : List Act) {post pre : List Ev} :
    (∀ o s r, (run F k as).tr = post ++ .out (.answer o s r) :: pre → ∃ b, running pre = some (o, b)) ∧
    (∀ x, (run F k as).tr = post ++ .out (.data x) :: pre → running pre ≠ none) :=
  ⟨fun _ _ _ h => (fine_run F k as).1 _ _ _ h, fun _ h => (fine_run F k as).1 _ _ _ h⟩

/-- Kill signals are ignored while idle: the next thing that happens, if anything, is that the next message is taken. -/
theorem C37_kill_ignored (F : UserF) (k : Kind) (as : List Act) {post pre : List Ev} {m : Msg}
    (h : (run F k as).tr = post ++ .took m :: pre) (hm : killMsg m) :
    post = [] ∨ ∃ m' post', post = post' ++ [.took m'] := by
  rcases List.eq_nil_or_concat post with rfl | ⟨q, e, hq⟩
  · exact .inl rfl
  · simp only [List.concat_eq_append] at hq
    subst hq
    have h1 : (run F k as).tr = q ++ e :: .took m :: pre := by simpa using h
    obtain ⟨_, h2, _⟩ := (fine_run F k as).2.1 _ _ _ h1
    obtain ⟨m', rfl⟩ := h2 hm
    exact .inr ⟨m', q, rfl⟩

/-- Nothing happens after the end of the worker or after its error report. -/
theorem C37_nothing_after (F : UserF) (k : Kind) (as : List Act) {post pre : List Ev} {e : Ev}
    (h : (run F k as).tr = post ++ e :: pre) (he : e = .stop ∨ e = .out .err) : post = [] := by
  rcases List.eq_nil_or_concat post with rfl | ⟨q, x, hq⟩
  · rfl
  · simp only [List.concat_eq_append] at hq
    subst hq
    have h1 : (run F k as).tr = q ++ x :: e :: pre := by simpa using h
    have := (fine_run F k as).2.1 _ _ _ h1
    rcases he with rfl | rfl <;> exact this.elim

/-- After a finish signal taken by the main loop nothing is sent: the worker ends. -/
theorem C37_finish (F : UserF) (k : Kind) (as : List Act) {post pre : List Ev} {m : Msg}
    (h : (run F k as).tr = post ++ .took m :: pre) (hm : finishMsg m) : post = [.stop] := by
  rcases List.eq_nil_or_concat post with rfl | ⟨q, x, hq⟩
  · exfalso
    obtain ⟨_, _, hL⟩ := fine_run F k as
    rw [List.nil_append] at h
    unfold Link at hL
    rw [h] at hL
    cases hp : (run F k as).ph <;> rw [hp] at hL
    · obtain ⟨_, h' | ⟨_, _, _, _, h'⟩ | ⟨m', pre', h', hnf, hk⟩ | ⟨_, _, _, _, h', _⟩⟩ := hL
      · simp at h'
      · simp at h'
      · simp only [List.cons.injEq, Ev.took.injEq] at h'
        obtain ⟨rfl, _⟩ := h'
        exact hnf hm
      · simp at h'
    · obtain ⟨_, _, _, m', pre', h', ho'⟩ := hL
      simp only [List.cons.injEq, Ev.took.injEq] at h'
      obtain ⟨rfl, _⟩ := h'; exact finish_not_work hm ho'
    · obtain ⟨_, _, _, m', pre', h', ho'⟩ := hL
      simp only [List.cons.injEq, Ev.took.injEq] at h'
      obtain ⟨rfl, _⟩ := h'; exact finish_not_work hm ho'
    · obtain ⟨_, e, pre', h', hf⟩ := hL
      rw [← h'] at hf
      have := (hf .raise).1 hm
      cases this
    · obtain ⟨_, m, pre', h'⟩ := hL; simp at h'
    · obtain ⟨pre', h'⟩ := hL; simp at h'
    · obtain ⟨pre', h'⟩ := hL; simp at h'
  · simp only [List.concat_eq_append] at hq
    subst hq
    have h1 : (run F k as).tr = q ++ x :: .took m :: pre := by simpa using h
    obtain ⟨h2, _⟩ := (fine_run F k as).2.1 _ _ _ h1
    have hx := h2 hm
    subst hx
    rw [C37_nothing_after F k as h1 (.inl rfl)]; rfl

/-- After an exception exactly one error report is sent, and the worker stops. -/
theorem C37_exception (F : UserF) (k : Kind) (as : List Act) {post pre : List Ev}
    (h : (run F k as).tr = post ++ .raise :: pre) : post = [.out .err] := by
  rcases List.eq_nil_or_concat post with rfl | ⟨q, x, hq⟩
  · exfalso
    obtain ⟨_, _, hL⟩ := fine_run F k as
    rw [List.nil_append] at h
    unfold Link at hL
    rw [h] at hL
    cases hp : (run F k as).ph <;> rw [hp] at hL
    · obtain ⟨_, h' | ⟨_, _, _, _, h'⟩ | ⟨m', pre', h', hnf, hk⟩ | ⟨_, _, _, _, h', _⟩⟩ := hL <;> simp at h'
    · obtain ⟨_, _, _, _, _, h', _⟩ := hL; simp at h'
    · obtain ⟨_, _, _, _, _, h', _⟩ := hL; simp at h'
    · obtain ⟨_, e, pre', h', hf⟩ := hL
      rw [← h'] at hf
      have : Ev.stop = _ := hf .stop
      cases this
    · obtain ⟨_, m, pre', h'⟩ := hL; simp at h'
    · obtain ⟨pre', h'⟩ := hL; simp at h'
    · obtain ⟨pre', h'⟩ := hL; simp at h'
  · simp only [List.concat_eq_append] at hq
    subst hq
    have h1 : (run F k as).tr = q ++ x :: .raise :: pre := by simpa using h
    have hx : x = .out .err := (fine_run F k as).2.1 _ _ _ h1
    subst hx
    rw [C37_nothing_after F k as h1 (.inr rfl)]; rfl

/-- An error report is sent only after an exception. -/
theorem C37_report (F : UserF) (k : Kind) (as : List Act) {post pre : List Ev}
    (h : (run F k as).tr = post ++ .out .err :: pre) : ∃ pre', pre = .raise :: pre' := (fine_run F k as).1 _ _ _ h

/-- An exception of a user function gets this treatment, whatever arrives afterwards. -/
theorem C37_user_exception (F : UserF) (k : Kind) (as bs : List Act) {o : Order} {b : Option Body} {h : List Obs}
    (hp : (run F k as).ph = .user o b h) (hF : F (run F k as).n o b h = .raise) :
    (run F k (as ++ .tick :: bs)).tr = .out .err :: .raise :: (run F k as).tr := by
  have h1 : run F k (as ++ .tick :: bs) = bs.foldl (act F) (tick F (run F k as)) := by simp [run, act]
  have h2 : tick F (run F k as) = (run F k as).fail := by unfold tick; rw [hp]; simp only; rw [hF]
  rw [h1, h2]
  have : ∀ (bs : List Act) (w : W), w.ph = .failed → (bs.foldl (act F) w).tr = w.tr := by
    intro bs
    induction bs with
    | nil => intro w _; rfl
    | cons a bs ih =>
      intro w hw
      rw [List.foldl_cons]
      cases a with
      | send m => exact ih { w with chan := w.chan.send m } hw
      | carry => exact ih { w with chan := w.chan.carry } hw
      | tick =>
        have : tick F w = w := by unfold tick; rw [hw]
        rw [act, this, ih _ hw]
  rw [this _ _ rfl]; rfl

/-! ### C38 -/

/-- A user function that has received the finish signal (by `recv` or `manager_poll`) and returns without a status of its
own: the worker takes the signal from the buffer and ends, without taking another message and without an answer. -/
theorem C38_finish_partial (F : UserF) (k : Kind) (as : List Act) {post pre : List Ev} {u : UOut}
    (h : (run F k as).tr = post ++ .ret u :: pre) (hf : fin ∈ heard pre) (hu : u.own = none) (hl : u ≠ .long) :
    post = [.stop, .buffered fin] := by
  obtain ⟨hE, hX, _⟩ := keeps_run F k as
  obtain ⟨_, hF, _⟩ := fine_run F k as
  rcases List.eq_nil_or_concat post with rfl | ⟨q, e, hq⟩
  · exfalso
    rw [List.nil_append] at h
    have h1 := hX .stop
    rw [h] at h1
    have h2 := h1.1 hf
    cases h2
  · simp only [List.concat_eq_append] at hq
    subst hq
    have h1 : (run F k as).tr = q ++ e :: .ret u :: pre := by simpa using h
    have he := (hE _ _ _ h1).1 hf
    subst he
    rcases List.eq_nil_or_concat q with rfl | ⟨q', e', hq'⟩
    · exfalso
      rw [List.nil_append] at h1
      have h2 := hX (.out (.answer ⟨0, [], false, false⟩ 0 false))
      rw [h1] at h2
      exact h2.1 hf hu _ _ _ rfl
    · simp only [List.concat_eq_append] at hq'
      subst hq'
      have h2 : (run F k as).tr = q' ++ e' :: .buffered fin :: .ret u :: pre := by simpa using h1
      have hc : Concludes u e' := hF _ _ _ h2
      have hcl : Closes u e' (heard pre) := hE _ _ _ h2
      rcases hc with ⟨_, h'⟩ | ⟨rfl, _⟩ | ⟨⟨o, s, r, rfl⟩, _⟩
      · exact absurd h' hl
      · rw [C37_nothing_after F k as h2 (.inl rfl)]; rfl
      · exact absurd rfl (hcl.1 hf hu o s r)

/-- A user function that has received no finish signal (a persistent stop, say) and returns: exactly one answer is sent, to
the order being run, with status 0 or the one the function returned. -/
theorem C38_one_answer (F : UserF) (k : Kind) (as : List Act) {post pre : List Ev} {u : UOut}
    (h : (run F k as).tr = post ++ .ret u :: pre) (hf : ∀ m ∈ heard pre, ¬ finishMsg m) (hu : u.own ≠ some FINISH) (hl : u ≠ .long) :
    ∃ o b r post', running pre = some (o, b) ∧
      (post = post' ++ [.out (.answer o (u.own.getD 0) r)] ∨
       ∃ m ∈ heard pre, post = post' ++ [.out (.answer o (u.own.getD 0) r), .buffered m]) := by
  obtain ⟨hE, hX, _⟩ := keeps_run F k as
  obtain ⟨hA, hF, _⟩ := fine_run F k as
  have nostop : ∀ hs, Closes u .stop hs → (∀ m ∈ hs, ¬ finishMsg m) → False := by
    intro hs hc hm
    rcases hc.2.1 rfl with h' | ⟨_, m, h1, h2⟩
    · exact hu h'
    · exact hm m h1 h2
  rcases List.eq_nil_or_concat post with rfl | ⟨q, e, hq⟩
  · exfalso
    rw [List.nil_append] at h
    have h1 := hX .stop
    rw [h] at h1
    exact nostop _ h1.2.2 hf
  · simp only [List.concat_eq_append] at hq
    subst hq
    have h1 : (run F k as).tr = q ++ e :: .ret u :: pre := by simpa using h
    obtain ⟨_, hbm, hcl⟩ := hE _ _ _ h1
    have hfol := hF _ _ _ h1
    rcases hfol with ⟨m, rfl⟩ | hc
    · rcases List.eq_nil_or_concat q with rfl | ⟨q', e', hq'⟩
      · exfalso
        rw [List.nil_append] at h1
        have h2 := hX .stop
        rw [h1] at h2
        exact nostop _ h2 hf
      · simp only [List.concat_eq_append] at hq'
        subst hq'
        have h2 : (run F k as).tr = q' ++ e' :: .buffered m :: .ret u :: pre := by simpa using h1
        have hc' : Concludes u e' := hF _ _ _ h2
        have hcl' : Closes u e' (heard pre) := hE _ _ _ h2
        rcases hc' with ⟨_, h'⟩ | ⟨rfl, _⟩ | ⟨⟨o, s, r, rfl⟩, _⟩
        · exact absurd h' hl
        · exact (nostop _ hcl' hf).elim
        · obtain ⟨b, hb⟩ := hA _ _ _ h2
          have := (hcl'.2.2 o s r rfl).2
          subst this
          exact ⟨o, b, r, q', hb, .inr ⟨m, hbm m rfl, by simp⟩⟩
    · rcases hc with ⟨_, h'⟩ | ⟨rfl, _⟩ | ⟨⟨o, s, r, rfl⟩, _⟩
      · exact absurd h' hl
      · exact (nostop _ hcl hf).elim
      · obtain ⟨b, hb⟩ := hA _ _ _ h1
        have := (hcl.2.2 o s r rfl).2
        subst this
        exact ⟨o, b, r, q, hb, .inl rfl⟩

/-- Data messages are not taken as control messages or vice versa: if the manager writes rows directly after the order they
belong to, and the orders the user function receives all have rows and its polls meet stop messages only, then the main
loop and `recv` and `manager_poll` take control messages only, rows are always data, and what is read from the buffer is a
signal. -/
theorem C38_separate_partial (F : UserF) (k : Kind) (as : List Act) (hF : Framed (sends as)) (hc : Careful (run F k as).tr) :
    (∀ m, .took m ∈ (run F k as).tr ∨ .utook m ∈ (run F k as).tr ∨ .ptook m ∈ (run F k as).tr → ∀ x, m.2 ≠ .data x) ∧
    (∀ m, .tookRows m ∈ (run F k as).tr ∨ .utookRows m ∈ (run F k as).tr → ∃ x, m.2 = .data x) ∧
    (∀ o b, .start o (some b) ∈ (run F k as).tr → ∃ x, b = .data x) ∧
    (∀ m, .buffered m ∈ (run F k as).tr → ∃ n, m.2 = .sig n) := by
  have h := sep_run F k as hF hc
  have at' : ∀ e ∈ (run F k as).tr, ∃ pre, Kinds e pre := by
    intro e he
    obtain ⟨post, pre, hp⟩ := List.append_of_mem he
    exact ⟨pre, h _ _ _ hp⟩
  refine ⟨fun m hm => ?_, fun m hm => ?_, fun o b hb => ?_, fun m hm => ?_⟩
  · rcases hm with hm | hm | hm <;> obtain ⟨_, h'⟩ := at' _ hm <;> exact h'
  · rcases hm with hm | hm <;> obtain ⟨_, h'⟩ := at' _ hm <;> exact h'
  · obtain ⟨_, h'⟩ := at' _ hb; exact h'
  · obtain ⟨_, h'⟩ := at' _ hm; exact h'

/-! ### C40 -/

/-- A poll by a running function: if a message is waiting and everything waiting or pushed back has the stop tag, then the
poll reports the first of these signals, provided that none was pushed back before (first poll) or another one is waiting or
the communicator is `MPIComm`; nothing that was to be received is lost. -/
theorem C40_reported_partial (F : UserF) (k : Kind) (as : List Act) {o : Order} {b : Option Body} {h : List Obs}
    (hp : (run F k as).ph = .user o b h) (hF : F (run F k as).n o b h = .poll)
    {m : Msg} {rest : List Msg} (hm : (run F k as).chan.buf.toList ++ (run F k as).chan.inbox = m :: rest)
    (hs : m.1 = STOP) (hq : (run F k as).chan.inbox ≠ [] ∨ k = .mpi) :
    (run F k (as ++ [.tick])).ph = .user o b (.poll (some m.2) :: h) ∧
    left (run F k (as ++ [.tick])).chan = left (run F k as).chan ∧
    (run F k (as ++ [.tick])).chan.buf = some m := by
  have hk : ∀ as, (run F k as).chan.kind = k := by
    intro as
    refine run_ind (I := fun _ w => w.chan.kind = k) rfl ?_ ?_ ?_ as
    · intro _ w m h; exact h
    · intro _ w h
      show w.chan.carry.kind = k
      unfold Chan.carry; split <;> exact h
    · intro _ w w' h hst
      rw [step_kind hst]; exact h
  have h1 : run F k (as ++ [.tick]) = tick F (run F k as) := by simp [run, act]
  rw [h1]
  generalize hw : run F k as = w at *
  have hkw : w.chan.kind = k := by rw [← hw]; exact hk as
  have hflag : w.chan.mailFlag = true := by
    unfold Chan.mailFlag
    rcases hq with hq | rfl
    · rw [hkw]; cases hi : w.chan.inbox with
      | nil => exact absurd hi hq
      | cons a l => cases k <;> simp
    · rw [hkw]
      cases hb : w.chan.buf with
      | some x => rfl
      | none =>
        rw [hb] at hm
        cases hi : w.chan.inbox with
        | nil => rw [hi] at hm; simp at hm
        | cons a l => rfl
  obtain ⟨c, hc⟩ : ∃ c, w.chan.recv = (c, some m) := by
    unfold Chan.recv
    cases hb : w.chan.buf with
    | some x =>
      rw [hb] at hm
      simp only [Option.toList_some, List.singleton_append, List.cons.injEq] at hm
      exact ⟨_, by rw [hm.1]⟩
    | none =>
      rw [hb] at hm
      simp only [Option.toList_none, List.nil_append] at hm
      rw [hm]; exact ⟨_, rfl⟩
  have hst : tick F w = ⟨.user o b (.poll (some m.2) :: h), { c with buf := some m }, w.n, .uback m :: .ptook m :: w.tr⟩ := by
    unfold tick
    rw [hp]; simp only; rw [hF]; simp only
    rw [if_neg (by rw [hflag]; simp), hc]
    simp only [W.log]
    rw [if_neg (by simp [hs])]
    unfold W.pushBack
    have hb : c.buf = none := recv_buf_none hc
    simp only [push_ok hb]
  rw [hst]
  refine ⟨rfl, ?_, rfl⟩
  rw [left_recv hc]
  exact left_push (recv_buf_none hc) m

/-- A finish signal that a function has been told by a poll stays available: the pushed-back message is the finish signal
as long as the function runs, whatever it does and whatever arrives (and when it returns the worker ends,
`C38_finish_partial`). -/
theorem C40_kept (F : UserF) (k : Kind) (as : List Act) {o : Order} {b : Option Body} {h : List Obs}
    (hp : (run F k as).ph = .user o b h) (hf : fin ∈ heard (run F k as).tr) : (run F k as).chan.buf = some fin := by
  obtain ⟨_, _, hk⟩ := keeps_run F k as
  unfold Keeps at hk
  rw [hp] at hk
  exact hk.1 hf

/-! ### Examples -/

/-- All messages arrive, then `n` steps. -/
def arrive (ms : List Msg) (n : Nat) : List Act := ms.flatMap (fun m => [.send m, .carry]) ++ List.replicate n .tick

def simOrd : Order := { tag := EVAL_SIM, rows := [4] }
def genOrd : Order := { tag := EVAL_GEN, rows := [], persistent := true }
def moreOrd : Order := { tag := EVAL_GEN, rows := [4], persistent := true }

/-- A simulation. -/
def simFun : UserF := fun _ _ _ _ => .ret .pairInfo

/-- A persistent generator: sends points, waits for values, stops when told to. -/
def genFun : UserF := fun _ _ _ h =>
  match h with
  | [] => .send 1
  | .sent :: _ => .recv true
  | .input .. :: _ => .send 2
  | .signal .. :: _ => .ret .pairInfo
  | _ => .ret .none

/-- A simulation that polls until it is told to stop, or three times. -/
def pollFun (u : UOut) : UserF := fun _ _ _ h =>
  match h with
  | .poll (some _) :: _ => .ret u
  | [_, _, _] => .ret u
  | _ => .poll

def stubborn : UserF := fun _ _ _ h => if h.length < 3 then .poll else .ret .none

def failing : UserF := fun _ _ _ _ => .raise

/-- A kill signal while idle, an order with rows, and the finish signal. -/
example : (run simFun .queue (arrive [(STOP, .sig KILL), (EVAL_SIM, .work simOrd), (0, .data 9), (STOP, .sig FINISH)] 9)).tr =
    [.stop, .took (STOP, .sig FINISH), .out (.answer simOrd 0 false), .ret .pairInfo, .start simOrd (some (.data 9)),
     .tookRows (0, .data 9), .took (EVAL_SIM, .work simOrd), .took (STOP, .sig KILL)] := by decide

/-- An exception. -/
example : (run failing .mpi (arrive [(EVAL_SIM, .work simOrd), (0, .data 9), (STOP, .sig FINISH)] 9)).tr =
    [.out .err, .raise, .start simOrd (some (.data 9)), .tookRows (0, .data 9), .took (EVAL_SIM, .work simOrd)] := by decide

/-- A persistent generator that gets values once and then the finish signal: the worker ends. -/
example : (run genFun .queue (arrive [(EVAL_GEN, .work genOrd), (EVAL_GEN, .work moreOrd), (0, .data 9), fin] 12)).tr =
    [.stop, .buffered fin, .ret .pairInfo, .uback fin, .utook fin, .out (.data 2), .utookRows (0, .data 9),
     .utook (EVAL_GEN, .work moreOrd), .out (.data 1), .start genOrd none, .took (EVAL_GEN, .work genOrd)] := by decide

/-- A persistent generator that is stopped by a persistent stop: one answer, then the finish signal. -/
example : (run genFun .mpi (arrive [(EVAL_GEN, .work genOrd), (PERSIS_STOP, .sig KILL), fin] 12)).tr =
    [.stop, .took fin, .out (.answer genOrd 0 false), .buffered (PERSIS_STOP, .sig KILL), .ret .pairInfo,
     .uback (PERSIS_STOP, .sig KILL), .utook (PERSIS_STOP, .sig KILL), .out (.data 1), .start genOrd none,
     .took (EVAL_GEN, .work genOrd)] := by decide

/-- The hypotheses of `C38_separate_partial`. -/
example : Framed [(EVAL_GEN, .work genOrd), (EVAL_GEN, .work moreOrd), (0, .data 9), fin] := by decide
example : Careful (run genFun .queue (arrive [(EVAL_GEN, .work genOrd), (EVAL_GEN, .work moreOrd), (0, .data 9), fin] 12)).tr := by
  constructor
  · intro m o hm ho
    have : (run genFun .queue (arrive [(EVAL_GEN, .work genOrd), (EVAL_GEN, .work moreOrd), (0, .data 9), fin] 12)).tr =
        [.stop, .buffered fin, .ret .pairInfo, .uback fin, .utook fin, .out (.data 2), .utookRows (0, .data 9),
         .utook (EVAL_GEN, .work moreOrd), .out (.data 1), .start genOrd none, .took (EVAL_GEN, .work genOrd)] := by decide
    rw [this] at hm
    simp at hm
    rcases hm with rfl | rfl
    · cases ho
    · cases ho; simp [moreOrd]
  · intro m hm
    have : (run genFun .queue (arrive [(EVAL_GEN, .work genOrd), (EVAL_GEN, .work moreOrd), (0, .data 9), fin] 12)).tr =
        [.stop, .buffered fin, .ret .pairInfo, .uback fin, .utook fin, .out (.data 2), .utookRows (0, .data 9),
         .utook (EVAL_GEN, .work moreOrd), .out (.data 1), .start genOrd none, .took (EVAL_GEN, .work genOrd)] := by decide
    rw [this] at hm
    simp at hm

/-- A simulation that polls and is told to finish (`C40_reported_partial`, `C40_kept`). -/
example : (run (pollFun .pairInfo) .queue (arrive [(EVAL_SIM, .work simOrd), (0, .data 9), fin] 3)).ph =
      .user simOrd (some (.data 9)) [.poll (some (.sig FINISH))] ∧
    (run (pollFun .pairInfo) .queue (arrive [(EVAL_SIM, .work simOrd), (0, .data 9), fin] 3)).chan.buf = some fin ∧
    (run (pollFun .pairInfo) .queue (arrive [(EVAL_SIM, .work simOrd), (0, .data 9), fin] 4)).ph = .ended := by decide

/-! ### What goes wrong -/

/-- A function that returns a status of its own after the finish signal: the signal is gone, the worker answers and waits
for another message though all have been taken. -/
theorem C38_own_status_witness :
    (run (pollFun (.triple 31)) .queue (arrive [(EVAL_SIM, .work simOrd), (0, .data 9), fin] 9)).tr =
      [.out (.answer simOrd 31 false), .buffered fin, .ret (.triple 31), .uback fin, .ptook fin, .start simOrd (some (.data 9)),
       .tookRows (0, .data 9), .took (EVAL_SIM, .work simOrd)] ∧
    (run (pollFun (.triple 31)) .queue (arrive [(EVAL_SIM, .work simOrd), (0, .data 9), fin] 9)).ph = .idle ∧
    left (run (pollFun (.triple 31)) .queue (arrive [(EVAL_SIM, .work simOrd), (0, .data 9), fin] 9)).chan = [] := by decide

/-- The finish signal sent by a manager that failed between an order and its rows: it is taken as the rows, the simulation
is run on it, and the worker waits for another message. -/
theorem C38_stop_as_rows_witness :
    (run simFun .queue (arrive [(EVAL_SIM, .work simOrd), fin] 9)).tr =
      [.out (.answer simOrd 0 false), .ret .pairInfo, .start simOrd (some (.sig FINISH)), .tookRows fin, .took (EVAL_SIM, .work simOrd)] ∧
    (run simFun .queue (arrive [(EVAL_SIM, .work simOrd), fin] 9)).ph = .idle := by decide

/-- An order without rows received by a persistent function: `recv` waits for rows that never come (the manager sends rows
only if there are any), and takes the next order for them. -/
theorem C38_no_rows_witness :
    (run genFun .queue (arrive [(EVAL_GEN, .work genOrd), (PERSIS_STOP, .work genOrd)] 9)).ph =
      .userRows genOrd none [.sent] PERSIS_STOP genOrd ∧
    left (run genFun .queue (arrive [(EVAL_GEN, .work genOrd), (PERSIS_STOP, .work genOrd)] 9)).chan = [] ∧
    Framed (sends (arrive [(EVAL_GEN, .work genOrd), (EVAL_GEN, .work genOrd), (EVAL_GEN, .work moreOrd)] 9)) ∧
    .utookRows (EVAL_GEN, .work moreOrd) ∈
      (run genFun .queue (arrive [(EVAL_GEN, .work genOrd), (EVAL_GEN, .work genOrd), (EVAL_GEN, .work moreOrd)] 9)).tr := by decide

/-- A poll that meets an order drops it; the rows are then taken for a control message and the worker fails. -/
theorem C38_poll_witness :
    Framed (sends (arrive [(EVAL_GEN, .work genOrd), (EVAL_GEN, .work moreOrd), (0, .data 9)] 9)) ∧
    (run (fun _ _ _ h => if h = [] then .poll else .ret .none) .queue
      (arrive [(EVAL_GEN, .work genOrd), (EVAL_GEN, .work moreOrd), (0, .data 9)] 9)).tr =
      [.out .err, .raise, .took (0, .data 9), .out (.answer genOrd 0 false), .ret .none, .ptook (EVAL_GEN, .work moreOrd),
       .start genOrd none, .took (EVAL_GEN, .work genOrd)] := by decide

/-- With a queue communicator only the first poll reports the signal: later polls do not see the pushed-back message. -/
theorem C40_second_poll_witness :
    (run stubborn .queue (arrive [(EVAL_SIM, .work simOrd), (0, .data 9), fin] 5)).ph =
      .user simOrd (some (.data 9)) [.poll none, .poll none, .poll (some (.sig FINISH))] ∧
    (run stubborn .mpi (arrive [(EVAL_SIM, .work simOrd), (0, .data 9), fin] 5)).ph =
      .user simOrd (some (.data 9)) [.poll (some (.sig FINISH)), .poll (some (.sig FINISH)), .poll (some (.sig FINISH))] := by decide

/-- A poll drops a persistent stop, and reports nothing though a finish signal has arrived behind it. -/
theorem C40_persis_stop_witness :
    (run stubborn .queue (arrive [(EVAL_SIM, .work simOrd), (0, .data 9), (PERSIS_STOP, .sig KILL), fin] 3)).ph =
      .user simOrd (some (.data 9)) [.poll none] ∧
    (run stubborn .queue (arrive [(EVAL_SIM, .work simOrd), (0, .data 9), (PERSIS_STOP, .sig KILL), fin] 3)).chan.inbox = [fin] ∧
    left (run stubborn .queue (arrive [(EVAL_SIM, .work simOrd), (0, .data 9), (PERSIS_STOP, .sig KILL), fin] 3)).chan = [fin] := by decide

end Verif.Worker
