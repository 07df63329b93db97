import Verif.System.Sides
/-
Workers that fail, and the time after the finish signals (helper for Props.lean).
-/
namespace Verif.System
open Verif Verif.Worker

variable {env : Env} {tr : List Manager.Ev} {ws : Nat → W}

/-- The error report of a failed worker is on the way. -/
def Failing (env : Env) (v : Manager.View) (Q : List (List Ev × Out)) : Prop :=
  ∃ Q0 pre, Q = Q0 ++ [(pre, .err)] ∧ (∀ x ∈ Q0, GoesOn env x) ∧ (v.persis ≠ 0 ∨ (Q0 = [] ∧ v.busy = true))

theorem Inv.working {v : Manager.View} {fl : Bool} {L : List Msg} {ph : Ph} {t : List Ev} {Q : List (List Ev × Out)}
    (I : Inv env v fl L ph t Q) (h : (phOrder ph).isSome = true ∨ ords L ≠ []) :
    (∀ x ∈ Q, GoesOn env x) ∧ (v.persis ≠ 0 ∨ (Q = [] ∧ v.busy = true)) := by
  cases I with
  | rest h' =>
    rcases h with h | h
    · rw [h'.ph] at h; cases h
    · exact absurd h'.ords h
  | plain h' =>
    rcases h'.at' with ⟨_, hq, _⟩ | ⟨_, _, hq⟩ | ⟨hp, ho, _⟩
    · rw [hq, h'.v]; exact ⟨fun x hx => (by cases hx), .inr ⟨rfl, rfl⟩⟩
    · rw [hq, h'.v]; exact ⟨fun x hx => (by cases hx), .inr ⟨rfl, rfl⟩⟩
    · rcases h with h | h
      · rw [hp] at h; cases h
      · exact absurd ho h
  | pers h' => exact ⟨h'.q, .inl h'.per⟩
  | closing h' =>
    rcases h with h | h
    · rw [h'.ph] at h; cases h
    · exact absurd h'.ords h

theorem fail_step {v : Manager.View} {fl : Bool} {s s' : W} {Q : List (List Ev × Out)} (hs : Step s s') (hn : s.ph ≠ .failed)
    (hf : s'.ph = .failed) (I : Inv env v fl (left s.chan) s.ph s.tr Q) (hg : ∀ m ∈ left s.chan, Good m) (hk : OnEv Kinds s'.tr) :
    ∃ pre, outs s'.tr = outs s.tr ++ [(pre, .err)] ∧ Failing env v (Q ++ [(pre, .err)]) := by
  have fin : ∀ {pre}, ((phOrder s.ph).isSome = true ∨ ords (left s.chan) ≠ []) → Failing env v (Q ++ [(pre, .err)]) :=
    fun h => ⟨Q, _, rfl, I.working h⟩
  cases hs with
  | idleFail m c hp hc hnf hnk ho =>
    refine ⟨_, rfl, fin (.inr ?_)⟩
    rw [left_recv hc]
    have h1 : ∀ x, m.2 ≠ .data x := onEv_head (l := [.out .err, .raise]) hk
    rcases hg m (by rw [left_recv hc]; exact List.mem_cons_self) with ⟨t, o, rfl, _⟩ | rfl | rfl | rfl
    · rw [ords_work]; simp
    · exact absurd rfl (h1 0)
    · exact absurd (show killMsg _ by decide) hnk
    · exact absurd (show killMsg _ by decide) hnk
  | rowsFail m c o hp hc ht =>
    refine ⟨_, rfl, fin ?_⟩
    rcases hp with hp | hp
    · exfalso
      cases I with
      | rest h => rw [h.ph] at hp; cases hp
      | plain h => rcases h.at' with ⟨h, _⟩ | ⟨⟨o, h, _⟩, _⟩ | ⟨h, _⟩ <;> rw [hp] at h <;> cases h
      | pers h => rcases h.loc with ⟨h, _⟩ | ⟨o, h, _⟩ <;> rw [hp] at h <;> cases h
      | closing h => have := h.ph; rw [hp] at this; cases this
    · rw [hp]; exact .inl rfl
  | raise o rows h hp => exact ⟨_, rfl, fin (.inl (by rw [hp]; rfl))⟩
  | retFail o rows h c bs hp hc =>
    refine ⟨.raise :: (bs ++ .ret .long :: s.tr), ?_, fin (.inl (by rw [hp]; rfl))⟩
    show outs (bs ++ .ret .long :: s.tr) ++ _ = _
    rw [(outs_bs (env := env) hc).1]
  | stay => exact absurd hf hn
  | _ => cases hf

/-- As in `Calm`, without the condition that the worker has not failed. -/
structure Mild (env : Env) (w : Nat) (tr : List Manager.Ev) (s : W) : Prop where
  tidy : Manager.Always Manager.Tidy tr
  framed : Framed (sentTo w tr)
  exc : Manager.hasExc tr = false
  stop : Manager.Ev.stop w ∉ tr
  err : Manager.Ev.recv w .err ∉ tr
  careful : Careful s.tr
  disc : Disciplined env s.tr

theorem Mild.calm {w : Nat} {s : W} (h : Mild env w tr s) (hok : s.ph ≠ .failed) : Calm env w tr s :=
  ⟨h.tidy, h.framed, h.exc, h.stop, h.careful, h.disc, hok⟩

theorem Failing.recv {v : Manager.View} {fl : Bool} {Q : List (List Ev × Out)} (h : Failing env v Q) {pre : List Ev} {x : Out}
    {rest : List (List Ev × Out)} {m : Manager.Msg} (hq : Q = (pre, x) :: rest) (hs : Says env pre x m) (w : Nat) (hm : m ≠ .err) :
    Failing env (v.step w fl false (.recv w m)) rest := by
  obtain ⟨Q0, p, h1, h2, h3⟩ := h
  cases Q0 with
  | nil =>
    rw [hq] at h1
    simp only [List.nil_append, List.cons.injEq, Prod.mk.injEq] at h1
    obtain ⟨⟨rfl, rfl⟩, rfl⟩ := h1
    cases m <;> first | exact hs.elim | exact absurd rfl hm
  | cons y Q0 =>
    rw [hq] at h1
    simp only [List.cons_append, List.cons.injEq] at h1
    obtain ⟨rfl, rfl⟩ := h1
    refine ⟨Q0, p, rfl, fun x hx => h2 x (List.mem_cons_of_mem _ hx), .inl ?_⟩
    have hv : v.persis ≠ 0 := by
      rcases h3 with h | ⟨h, _⟩
      · exact h
      · cases h
    obtain ⟨n, hx, hf, hi⟩ := h2 _ List.mem_cons_self
    simp only at hx; subst hx
    cases m with
    | data d =>
      obtain ⟨hd, ht⟩ := hs
      subst hd
      have hf' : Manager.Data.isFinished { env.msg n with rows := hRows pre, persistent := inPersis pre } = false := hf
      simp only [Manager.View.step, if_true, hf', Bool.false_eq_true, if_false, Bool.false_or]
      split
      · rcases ht with h | h <;> (simp only at h; rw [h]; decide)
      · exact hv
    | _ => exact hs.elim

theorem Joint.failing (h : Joint env tr ws) (w : Nat) (hc : Mild env w tr (ws w)) (hf : (ws w).ph = .failed) :
    Failing env (Manager.view w tr) (onTheWay w tr (ws w)) := by
  induction h with
  | init => cases hf
  | @man tr ws e h hp ih =>
    obtain ⟨e1, e2, e3⟩ := deliver_tr w e (ws w)
    obtain ⟨ht1, ht2⟩ := Manager.always_cons.mp hc.tidy
    have hx : Manager.hasExc tr = false := by
      have := hc.exc
      rw [show e :: tr = [e] ++ tr from rfl, Manager.hasExc_append, Bool.or_eq_false_iff] at this
      exact this.2
    have hc0 : Mild env w tr (ws w) := by
      refine { tidy := ht2, framed := framed_prefix hc.framed, exc := hx, stop := fun h => hc.stop (List.mem_cons_of_mem _ h), err := fun h => hc.err (List.mem_cons_of_mem _ h), careful := ?_, disc := ?_ }
      · have := hc.careful; simp only [e1] at this; exact this
      · have := hc.disc; simp only [e1] at this; exact this
    simp only [e2] at hf
    have I := ih hc0 hf
    simp only [Manager.view]
    rw [hx]
    have hskip : isGot w e = false → onTheWay w (e :: tr) (deliver w e (ws w)) = onTheWay w tr (ws w) := by
      intro he
      have : got w (e :: tr) = got w tr := by
        rw [got, List.countP_cons, got]
        simp only [he]
        simp
      simp only [onTheWay, e1, this]
    have up : ∀ {v v' : Manager.View} {Q}, Failing env v Q → (v.persis ≠ 0 → v'.persis ≠ 0) → (v.busy = true → v'.busy = true) → Failing env v' Q := by
      rintro v v' Q ⟨Q0, p, a, b, c⟩ h1 h2
      exact ⟨Q0, p, a, b, c.imp h1 (fun h => ⟨h.1, h2 h.2⟩)⟩
    cases e with
    | order to key wk =>
      rw [hskip rfl]
      refine up I ?_ ?_ <;> simp only [Manager.View.step] <;> split <;> try exact id
      · obtain ⟨t1, t2, t3, t4⟩ := ht1
        rw [t1]
        simp only [Bool.false_eq_true, if_false]
        intro hv
        split
        · rcases t4 with h | h | h <;> rw [h] <;> decide
        · exact hv
      · intro _; split <;> rfl
    | persisStop to =>
      rw [hskip rfl]
      refine up I ?_ ?_ <;> simp only [Manager.View.step] <;> split <;> first | exact id | exact fun _ => rfl
    | recv w' m =>
      by_cases hw : w' = w
      · subst hw
        cases hm : fromWorker m with
        | false =>
          rw [hskip (by simp [isGot, hm])]
          cases m <;> simp only [fromWorker, Bool.true_eq_false] at hm <;> simp only [Manager.View.step, if_true] <;> exact I
        | true =>
          obtain ⟨pre, x, rest, h1, h2⟩ := hp hm
          have hr : onTheWay w' (.recv w' m :: tr) (deliver w' (.recv w' m) (ws w')) = rest := by
            have : got w' (.recv w' m :: tr) = got w' tr + 1 := by
              rw [got, List.countP_cons, got]; simp [isGot, hm]
            simp only [onTheWay, e1, this]
            simp only [onTheWay] at h1
            rw [← List.drop_drop, h1]; rfl
          rw [hr]
          refine I.recv h1 h2 w' ?_
          rintro rfl
          exact hc.err List.mem_cons_self
      · rw [hskip (by simp [isGot, hw])]
        simp only [Manager.View.step, if_neg hw]; exact I
    | _ => rw [hskip rfl]; exact I
  | @carry tr ws v h ih =>
    by_cases hv : w = v
    · subst hv
      simp only [if_true] at hc hf ⊢
      exact ih ⟨hc.tidy, hc.framed, hc.exc, hc.stop, hc.err, hc.careful, hc.disc⟩ hf
    · simp only [if_neg hv] at hc hf ⊢; exact ih hc hf
  | @tick tr ws v h ih =>
    by_cases hv : w = v
    · subst hv
      have hk := (Joint.tick w h).kinds (w := w) hc.framed hc.careful
      simp only [if_true] at hc hk hf ⊢
      have hs := tick_step (env.F w) (ws w)
      obtain ⟨l, hl⟩ := step_grows hs
      have hc0 : Mild env w tr (ws w) := by
        refine { tidy := hc.tidy, framed := hc.framed, exc := hc.exc, stop := hc.stop, err := hc.err, careful := ?_, disc := ?_ }
        · exact hc.careful.mono (fun e he => by rw [hl]; exact List.mem_append_right _ he)
        · have := hc.disc; rw [hl] at this; exact onEv_suffix this
      by_cases hf0 : (ws w).ph = .failed
      · have : Worker.tick (env.F w) (ws w) = ws w := by unfold Worker.tick; rw [hf0]
        rw [this]; exact ih hc0 hf0
      · have I := h.inv w (hc0.calm hf0)
        have hg : ∀ m ∈ left (ws w).chan, Good m := fun m hm =>
          (good_sent hc.tidy hc.stop _ (by rw [← h.taken w]; exact List.mem_append_right _ hm)).1
        obtain ⟨pre, h1, h2⟩ := fail_step hs hf0 hf I hg hk
        have : onTheWay w tr (Worker.tick (env.F w) (ws w)) = onTheWay w tr (ws w) ++ [(pre, .err)] := by
          simp only [onTheWay, h1]
          exact List.drop_append_of_le_length (h.got_le w)
        rw [this]; exact h2
    · simp only [if_neg hv] at hc hf ⊢; exact ih hc hf

theorem Joint.at_rest (h : Joint env tr ws) (w : Nat) (hc : Mild env w tr (ws w)) (hb : (Manager.view w tr).busy = false)
    (hp : (Manager.view w tr).persis = 0) : (ws w).ph = .idle ∧ ords (left (ws w).chan) = [] ∧ onTheWay w tr (ws w) = [] := by
  by_cases hf : (ws w).ph = .failed
  · obtain ⟨_, _, _, _, h | ⟨_, h⟩⟩ := h.failing w hc hf
    · exact absurd hp h
    · rw [hb] at h; cases h
  · exact (h.inv w (hc.calm hf)).at_rest hb hp

/-- After the finish signals an idle worker sends nothing more. -/
theorem Joint.after_stops {l pre T : List Manager.Ev} (h : Joint env T ws) (w : Nat) (hT : T = l ++ pre)
    (hl : ∀ e ∈ l, ∃ v, e = .stop v) (hc : Mild env w pre (ws w)) (hF : Framed (sentTo w T)) (hb : (Manager.view w pre).busy = false)
    (hp : (Manager.view w pre).persis = 0) :
    ((ws w).ph = .idle ∨ (ws w).ph = .ended) ∧ ords (left (ws w).chan) = [] ∧ onTheWay w T (ws w) = [] ∧
      ∀ m ∈ left (ws w).chan, Good m ∨ m = fin := by
  have base : ∀ {ws : Nat → W}, Joint env pre ws → Mild env w pre (ws w) →
      ((ws w).ph = .idle ∨ (ws w).ph = .ended) ∧ ords (left (ws w).chan) = [] ∧ onTheWay w pre (ws w) = [] ∧
      ∀ m ∈ left (ws w).chan, Good m ∨ m = fin := by
    intro ws h hc
    obtain ⟨h1, h2, h3⟩ := h.at_rest w hc hb hp
    exact ⟨.inl h1, h2, h3, fun m hm => .inl (good_sent hc.tidy hc.stop _ (by rw [← h.taken w]; exact List.mem_append_right _ hm)).1⟩
  induction h generalizing l with
  | init =>
    obtain ⟨rfl, rfl⟩ := List.append_eq_nil_iff.mp hT.symm
    exact base .init hc
  | @man tr ws e h hpo ih =>
    cases l with
    | nil => simp only [List.nil_append] at hT; subst hT; exact base (.man e h hpo) hc
    | cons e' l =>
      simp only [List.cons_append, List.cons.injEq] at hT
      obtain ⟨rfl, hT⟩ := hT
      obtain ⟨v, rfl⟩ := hl e List.mem_cons_self
      obtain ⟨e1, e2, e3⟩ := deliver_tr w (.stop v) (ws w)
      have hc0 : Mild env w pre (ws w) :=
        ⟨hc.tidy, hc.framed, hc.exc, hc.stop, hc.err, by have := hc.careful; simp only [e1] at this; exact this,
          by have := hc.disc; simp only [e1] at this; exact this⟩
      obtain ⟨h1, h2, h3, h4⟩ := ih hT (fun e he => hl e (List.mem_cons_of_mem _ he)) hc0 (framed_prefix hF)
      have hg : got w (.stop v :: tr) = got w tr := by rw [got, List.countP_cons, got]; simp [isGot]
      refine ⟨by simp only [e2]; exact h1, ?_, ?_, ?_⟩
      · simp only [e3, ords_append, h2, msgTo]; split <;> rfl
      · simp only [onTheWay, e1, hg] at h3 ⊢; exact h3
      · simp only [e3, msgTo]
        intro m hm
        rcases List.mem_append.mp hm with hm | hm
        · exact h4 m hm
        · split at hm
          · simp only [Option.toList, List.mem_singleton] at hm; exact .inr hm
          · cases hm
  | @carry tr ws v h ih =>
    by_cases hv : w = v
    · subst hv
      simp only [if_true, left_carry] at hc ⊢
      exact ih hT hl ⟨hc.tidy, hc.framed, hc.exc, hc.stop, hc.err, hc.careful, hc.disc⟩ hF
    · simp only [if_neg hv] at hc ⊢; exact ih hT hl hc hF
  | @tick tr ws v h ih =>
    by_cases hv : w = v
    · subst hv
      have hk := (Joint.tick w h).kinds (w := w) hF hc.careful
      simp only [if_true] at hc hk ⊢
      have hs := tick_step (env.F w) (ws w)
      obtain ⟨l', hl'⟩ := step_grows hs
      have hc0 : Mild env w pre (ws w) := by
        refine { tidy := hc.tidy, framed := hc.framed, exc := hc.exc, stop := hc.stop, err := hc.err, careful := ?_, disc := ?_ }
        · exact hc.careful.mono (fun e he => by rw [hl']; exact List.mem_append_right _ he)
        · have := hc.disc; rw [hl'] at this; exact onEv_suffix this
      obtain ⟨h1, h2, h3, h4⟩ := ih hT hl hc0 hF
      have hnw : ∀ {c m o}, (ws w).chan.recv = (c, some m) → m.2 ≠ .work o := by
        rintro c ⟨t, b⟩ o hc rfl
        rw [left_recv hc, ords_work] at h2; cases h2
      have keep : ∀ {c m}, (ws w).chan.recv = (c, some m) → ords (left c) = [] ∧ ∀ m ∈ left c, Good m ∨ m = fin := by
        intro c m hc
        refine ⟨?_, fun m' hm' => h4 m' (by rw [left_recv hc]; exact List.mem_cons_of_mem _ hm')⟩
        rw [left_recv hc, ords_cons (fun o => hnw hc)] at h2
        exact h2
      generalize Worker.tick (env.F w) (ws w) = s' at hs hk ⊢
      have hd : ∀ {ph c n e}, outs (e :: (ws w).tr) = outs (ws w).tr → onTheWay w tr ⟨ph, c, n, e :: (ws w).tr⟩ = [] := by
        intro ph c n e he; simp only [onTheWay, he] at h3 ⊢; exact h3
      have no : ∀ {o rows hh}, (ws w).ph = .user o rows hh → False := fun hp => by rcases h1 with h | h <;> rw [hp] at h <;> cases h
      have no' : ∀ {o rows hh t o'}, (ws w).ph = .userRows o rows hh t o' → False := fun hp => by rcases h1 with h | h <;> rw [hp] at h <;> cases h
      cases hs with
      | stay => exact ⟨h1, h2, h3, h4⟩
      | idleStop m c hp hc hm => exact ⟨.inr rfl, (keep hc).1, h3, (keep hc).2⟩
      | idleDrop m c hp hc hf hm => exact ⟨.inl rfl, (keep hc).1, h3, (keep hc).2⟩
      | idleSkip m c o hp hc hm => exact absurd hm (hnw hc)
      | idleNeed m c o hp hc hm => exact absurd hm (hnw hc)
      | idleCall m c o hp hc hm => exact absurd hm (hnw hc)
      | idleFail m c hp hc hnf hnk ho =>
        exfalso
        have h1 : ∀ x, m.2 ≠ .data x := onEv_head (l := [.out .err, .raise]) hk
        rcases h4 m (by rw [left_recv hc]; exact List.mem_cons_self) with (⟨t, o, rfl, _⟩ | rfl | rfl | rfl) | rfl
        · exact hnw hc rfl
        · exact h1 0 rfl
        · exact hnk (by decide)
        · exact hnk (by decide)
        · exact hnf (by decide)
      | skipped m c o hp hc => rcases h1 with h | h <;> rw [hp] at h <;> cases h
      | rowsFail m c o hp hc ht => rcases h1 with h | h <;> rcases hp with hp | hp <;> rw [hp] at h <;> cases h
      | called m c o hp hc ht => rcases h1 with h | h <;> rw [hp] at h <;> cases h
      | rowsBack o rows h h' t o' m c hp hc hm => exact (no' hp).elim
      | rowsGot o rows h h' t o' m c hp hc hm => exact (no' hp).elim
      | obs o rows h h' hp => exact (no hp).elim
      | send o rows h h' x hp => exact (no hp).elim
      | raise o rows h hp => exact (no hp).elim
      | retFail o rows h c bs hp => exact (no hp).elim
      | retStop o rows h c bs u hp => exact (no hp).elim
      | retAnswer o rows h c bs u s r hp => exact (no hp).elim
      | pollDrop o rows h h' m c hp => exact (no hp).elim
      | pollBack o rows h h' m c hp => exact (no hp).elim
      | recvWork o rows h m c o' hp => exact (no hp).elim
      | recvBack o rows h h' m c hp => exact (no hp).elim
      | recvErr o rows h h' m c hp => exact (no hp).elim
    · simp only [if_neg hv] at hc ⊢; exact ih hT hl hc hF

theorem got_msgs (w : Nat) (tr : List Manager.Ev) : (msgsFrom w tr).length = got w tr := by
  induction tr with
  | nil => rfl
  | cons e tr ih =>
    rw [got, List.countP_cons, ← got]
    cases e with
    | recv v m =>
      simp only [msgsFrom, isGot]
      split
      · rename_i h; simp [h.1, h.2, ih]
      · rename_i h
        have : (decide (v = w) && fromWorker m) = false := by
          cases hx : (decide (v = w) && fromWorker m) with
          | false => rfl
          | true => simp only [Bool.and_eq_true, decide_eq_true_eq] at hx; exact absurd hx h
        simp [this, ih]
    | _ => simp [msgsFrom, isGot, ih]

theorem outs_stay {s s' : W} (h : Step s s') {i : Nat} {x : List Ev × Out} (hx : (outs s.tr)[i]? = some x) : (outs s'.tr)[i]? = some x := by
  obtain ⟨l, hl⟩ := step_grows h
  rw [hl, outs_append, List.getElem?_append_left (by have := List.getElem?_eq_some_iff.mp hx; exact this.1)]
  exact hx

theorem Joint.said (h : Joint env tr ws) (w i : Nat) (m : Manager.Msg) (hm : (msgsFrom w tr)[i]? = some m) :
    ∃ pre x, (outs (ws w).tr)[i]? = some (pre, x) ∧ Says env pre x m := by
  induction h generalizing i m with
  | init => simp [msgsFrom] at hm
  | @man tr ws e h hp ih =>
    simp only [(deliver_tr w e (ws w)).1]
    cases e with
    | recv v m' =>
      simp only [msgsFrom] at hm
      split at hm
      · rename_i hv
        obtain ⟨rfl, hf⟩ := hv
        rw [List.getElem?_append] at hm
        split at hm
        · exact ih i m hm
        · rename_i hlt
          obtain ⟨pre, x, rest, h1, h2⟩ := hp hf
          have hi : i = got v tr := by
            have := (List.getElem?_eq_some_iff.mp hm).1
            rw [List.length_singleton] at this
            rw [← got_msgs]; omega
          subst hi
          rw [got_msgs, Nat.sub_self] at hm
          simp only [List.getElem?_cons_zero, Option.some.injEq] at hm
          subst hm
          refine ⟨pre, x, ?_, h2⟩
          have : (onTheWay v tr (ws v))[0]? = some (pre, x) := by rw [h1]; rfl
          simpa [onTheWay] using this
      · exact ih i m hm
    | _ => exact ih i m hm
  | @carry tr ws v h ih => by_cases hv : w = v <;> simp only [hv, if_true, if_false] <;> (try exact ih i m hm); subst hv; exact ih i m hm
  | @tick tr ws v h ih =>
    obtain ⟨pre, x, h1, h2⟩ := ih i m hm
    refine ⟨pre, x, ?_, h2⟩
    by_cases hv : w = v
    · subst hv; simp only [if_true]; exact outs_stay (tick_step _ _) h1
    · simp only [if_neg hv]; exact h1

end Verif.System
