import Verif.System.Man
/-
The stages along everything that manager and workers do (helper for Props.lean).
-/
namespace Verif.System
open Verif Verif.Worker

variable {env : Env} {tr : List Manager.Ev} {ws : Nat → W}

theorem step_grows {s s' : W} (h : Step s s') : ∃ l, s'.tr = l ++ s.tr := by
  cases h with
  | retFail o rows h c bs hp hc => exact ⟨.out .err :: .raise :: (bs ++ [.ret .long]), by simp⟩
  | retStop o rows h c bs u hp hl hc hu => exact ⟨.stop :: (bs ++ [.ret u]), by simp⟩
  | retAnswer o rows h c bs u s r hp hl hc hs hu => exact ⟨.out (.answer o s r) :: (bs ++ [.ret u]), by simp⟩
  | stay => exact ⟨[], rfl⟩
  | obs => exact ⟨[], rfl⟩
  | _ => first | exact ⟨[_], rfl⟩ | exact ⟨[_, _], rfl⟩ | exact ⟨[_, _, _], rfl⟩

theorem tick_failed {F : UserF} {s : W} (h : (tick F s).ph ≠ .failed) : s.ph ≠ .failed := by
  intro h'
  apply h
  unfold tick
  rw [h']
  exact h'

theorem onEv_suffix {P : Ev → List Ev → Prop} {l tr : List Ev} (h : OnEv P (l ++ tr)) : OnEv P tr :=
  fun post e pre he => h (l ++ post) e pre (by rw [he, List.append_assoc])

theorem deliver_tr (w : Nat) (e : Manager.Ev) (s : W) :
    (deliver w e s).tr = s.tr ∧ (deliver w e s).ph = s.ph ∧ left (deliver w e s).chan = left s.chan ++ (msgTo w e).toList := by
  unfold deliver
  cases msgTo w e with
  | none => exact ⟨rfl, rfl, by simp⟩
  | some m => exact ⟨rfl, rfl, left_send _ _⟩

theorem outs_grow {s s' : W} (h : Step s s') : (outs s.tr).length ≤ (outs s'.tr).length := by
  obtain ⟨l, hl⟩ := step_grows h
  rw [hl, outs_append]
  simp

theorem Joint.got_le (h : Joint env tr ws) (w : Nat) : got w tr ≤ (outs (ws w).tr).length := by
  induction h with
  | init => simp [got]
  | @man tr ws e h hp ih =>
    simp only [(deliver_tr w e (ws w)).1]
    have hskip : ∀ {e : Manager.Ev}, isGot w e = false →
        got w (e :: tr) = got w tr := by
      intro e he
      rw [got, List.countP_cons, got]
      simp only [he]
      simp
    cases e with
    | recv w' m =>
      by_cases hw : w' = w
      · cases hm : fromWorker m with
        | false => rw [hskip (by simp [isGot, hm])]; exact ih
        | true =>
          obtain ⟨pre, x, rest, h1, _⟩ := hp hm
          subst hw
          have : got w' (.recv w' m :: tr) = got w' tr + 1 := by
            rw [got, List.countP_cons, got]; simp [isGot, hm]
          rw [this]
          have hl := congrArg List.length h1
          simp only [onTheWay, List.length_drop, List.length_cons] at hl
          omega
      · rw [hskip (by simp [isGot, hw])]; exact ih
    | _ => rw [hskip rfl]; exact ih
  | @carry tr ws v h ih => by_cases hv : w = v <;> simp only [hv, if_true, if_false] <;> (try exact ih); subst hv; exact ih
  | @tick tr ws v h ih =>
    by_cases hv : w = v
    · subst hv
      simp only [if_true]
      exact Nat.le_trans ih (outs_grow (tick_step _ _))
    · simp only [if_neg hv]; exact ih

/-- Conditions under which the stages are followed. -/
structure Calm (env : Env) (w : Nat) (tr : List Manager.Ev) (s : W) : Prop where
  tidy : Manager.Always Manager.Tidy tr
  framed : Framed (sentTo w tr)
  exc : Manager.hasExc tr = false
  stop : Manager.Ev.stop w ∉ tr
  careful : Careful s.tr
  disc : Disciplined env s.tr
  ok : s.ph ≠ .failed

theorem Joint.kinds (h : Joint env tr ws) {w : Nat} (hf : Framed (sentTo w tr)) (hc : Careful (ws w).tr) : OnEv Kinds (ws w).tr := by
  obtain ⟨as, h1, h2⟩ := h.worker w
  rw [h1] at hc ⊢
  exact sep_run _ _ _ (by rw [h2]; exact hf) hc

theorem Joint.inv (h : Joint env tr ws) (w : Nat) (hc : Calm env w tr (ws w)) :
    Inv env (Manager.view w tr) (Manager.hasFinal tr) (left (ws w).chan) (ws w).ph (ws w).tr (onTheWay w tr (ws w)) := by
  induction h with
  | init => exact .rest ⟨rfl, rfl, rfl, rfl⟩
  | @man tr ws e h hp ih =>
    obtain ⟨e1, e2, e3⟩ := deliver_tr w e (ws w)
    obtain ⟨ht1, ht2⟩ := Manager.always_cons.mp hc.tidy
    have hx : Manager.hasExc tr = false := by
      have := hc.exc
      rw [show e :: tr = [e] ++ tr from rfl, Manager.hasExc_append, Bool.or_eq_false_iff] at this
      exact this.2
    have hc0 : Calm env w tr (ws w) := by
      refine { tidy := ht2, framed := ?_, exc := hx, stop := fun h => hc.stop (List.mem_cons_of_mem _ h), careful := ?_, disc := ?_, ok := ?_ }
      · have := hc.framed; exact framed_prefix this
      · have := hc.careful; simp only [e1] at this; exact this
      · have := hc.disc; simp only [e1] at this; exact this
      · have := hc.ok; simp only [e2] at this; exact this
    have I := ih hc0
    have hin : ∀ m ∈ left (ws w).chan, m ∈ sentTo w tr := fun m hm => by
      rw [← h.taken w]; exact List.mem_append_right _ hm
    have hpst : pst ∈ left (ws w).chan → Manager.hasFinal tr = true := fun hm => (good_sent ht2 hc0.stop _ (hin _ hm)).2 rfl
    have hq : ∀ n, onTheWay w tr (ws w) = (outs (ws w).tr).drop n → onTheWay w tr (deliver w e (ws w)) = (outs (ws w).tr).drop n := by
      intro n hn; simp only [onTheWay, e1] at hn ⊢; exact hn
    simp only [e1, e2, e3, Manager.view]
    have hfm : Manager.hasFinal tr = true → Manager.hasFinal (e :: tr) = true := by
      intro h; rw [show e :: tr = [e] ++ tr from rfl, Manager.hasFinal_append, h, Bool.or_true]
    rw [hx]
    refine Inv.mono ?_ hfm
    -- received or not
    have hskip : isGot w e = false →
        onTheWay w (e :: tr) (deliver w e (ws w)) = onTheWay w tr (ws w) := by
      intro he
      have : got w (e :: tr) = got w tr := by
        rw [got, List.countP_cons, got]
        simp only [he]
        simp
      simp only [onTheWay, e1, this]
    cases e with
    | order to key wk =>
      rw [hskip rfl]
      by_cases hto : to = w
      · subst hto
        obtain ⟨t1, t2, t3, t4⟩ := ht1
        simp only [Manager.View.step, if_true, t1, Bool.false_eq_true, if_false, msgTo, Option.toList]
        have hn : wk.tag ≠ 0 := by rcases t4 with h | h | h <;> rw [h] <;> decide
        rw [t1] at I
        refine I.order (t := wk.tag) (o := orderOf wk) hn rfl (fun hm => ?_) t2 t3 (fun h => ?_)
        · have := hpst hm; rw [t1] at this; cases this
        · simp only [orderOf] at h
          cases ha : wk.activeRecv with
          | none => rw [ha] at h; cases h
          | some x => rfl
      · simp only [Manager.View.step, if_neg hto, msgTo, Option.toList, List.append_nil]; exact I
    | rows to rs vals =>
      rw [hskip rfl]
      by_cases hto : to = w
      · subst hto
        simp only [Manager.View.step, msgTo, if_true, Option.toList]
        exact I.signal (by intro o h; cases h) (by decide)
      · simp only [Manager.View.step, if_neg hto, msgTo, Option.toList, List.append_nil]; exact I
    | stop to =>
      by_cases hto : to = w
      · subst hto; exact absurd List.mem_cons_self hc.stop
      · rw [hskip rfl]
        simp only [Manager.View.step, if_neg hto, msgTo, Option.toList, List.append_nil]; exact I
    | kill to i =>
      rw [hskip rfl]
      by_cases hto : to = w
      · subst hto
        simp only [Manager.View.step, msgTo, if_true, Option.toList]
        exact I.signal (by intro o h; cases h) (by decide)
      · simp only [Manager.View.step, if_neg hto, msgTo, Option.toList, List.append_nil]; exact I
    | persisStop to =>
      rw [hskip rfl]
      by_cases hto : to = w
      · subst hto
        simp only [Manager.View.step, msgTo, if_true, Option.toList]
        exact I.pstop ht1.1 ht1.2
      · simp only [Manager.View.step, if_neg hto, msgTo, Option.toList, List.append_nil]; exact I
    | recv w' m =>
      simp only [msgTo, Option.toList, List.append_nil]
      by_cases hw : w' = w
      · subst hw
        cases hm : fromWorker m with
        | false =>
          rw [hskip (by simp [isGot, hm])]
          cases m <;> simp only [fromWorker, Bool.true_eq_false] at hm <;> simp only [Manager.View.step, if_true] <;> exact I
        | true =>
          obtain ⟨pre, x, rest, h1, h2⟩ := hp hm
          have hr : onTheWay w' (.recv w' m :: tr) (deliver w' (.recv w' m) (ws w')) = rest := by
            have : got w' (.recv w' m :: tr) = got w' tr + 1 := by
              rw [got, List.countP_cons, got]; simp [isGot, hm]
            simp only [onTheWay, e1, this]
            simp only [onTheWay] at h1
            rw [show got w' tr + 1 = got w' tr + 1 from rfl, ← List.drop_drop, h1]; rfl
          rw [hr]
          exact I.recv h1 h2 w'
      · rw [hskip (by simp [isGot, hw])]
        simp only [Manager.View.step, if_neg hw]; exact I
    | _ =>
      rw [hskip rfl]
      simp only [Manager.View.step, msgTo, Option.toList, List.append_nil]; exact I
  | @carry tr ws v h ih =>
    by_cases hv : w = v
    · subst hv
      simp only [if_true] at hc ⊢
      rw [left_carry]
      exact ih ⟨hc.tidy, hc.framed, hc.exc, hc.stop, hc.careful, hc.disc, hc.ok⟩
    · simp only [if_neg hv] at hc ⊢; exact ih hc
  | @tick tr ws v h ih =>
    by_cases hv : w = v
    · subst hv
      have hk := (Joint.tick w h).kinds (w := w) hc.framed hc.careful
      simp only [if_true] at hc hk ⊢
      have hs := tick_step (env.F w) (ws w)
      obtain ⟨l, hl⟩ := step_grows hs
      have hc0 : Calm env w tr (ws w) := by
        refine { tidy := hc.tidy, framed := hc.framed, exc := hc.exc, stop := hc.stop, careful := ?_, disc := ?_, ok := tick_failed hc.ok }
        · exact hc.careful.mono (fun e he => by rw [hl]; exact List.mem_append_right _ he)
        · have := hc.disc; rw [hl] at this; exact onEv_suffix this
      have I := ih hc0
      have hg : ∀ m ∈ left (ws w).chan, Good m := fun m hm =>
        (good_sent hc.tidy hc.stop _ (by rw [← h.taken w]; exact List.mem_append_right _ hm)).1
      obtain ⟨Qn, h1, h2⟩ := inv_step hs I hg (h.fine w) hk hc.careful hc.disc hc.ok
      have : onTheWay w tr (Worker.tick (env.F w) (ws w)) = onTheWay w tr (ws w) ++ Qn := by
        simp only [onTheWay, h1]
        exact List.drop_append_of_le_length (h.got_le w)
      rw [this]; exact h2
    · simp only [if_neg hv] at hc ⊢; exact ih hc

end Verif.System
