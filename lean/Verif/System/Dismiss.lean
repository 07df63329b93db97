import Verif.System.PropsClosing
/-!
After the receiving loop of the shutdown: all workers are idle, get the signal to finish, and end (helper for PropsDismiss.lean).
-/
namespace Verif.Manager
open Verif.History Verif.Res Verif.Sched Verif.Alloc Verif.System

variable {sp : Specs}

/-- The receiving loop ends with flag 0: nobody is active or persistent. -/
theorem drain_done (rs : List Round) (s : St) (h : (drain sp rs s).2 = .ok (some 0)) :
    anyActive (drain sp rs s).1 = false ∧ anyPersis (drain sp rs s).1 = false ∧ (s.exc = false → (drain sp rs s).1.exc = false) := by
  induction rs generalizing s with
  | nil =>
    simp only [drain] at h ⊢
    split at h
    · cases h
    · rename_i ha
      rw [if_neg ha]
      simp only [Bool.or_eq_true, not_or, Bool.not_eq_true] at ha
      exact ⟨ha.1, ha.2, id⟩
  | cons r rs ih =>
    simp only [drain] at h ⊢
    split at h
    · rename_i ha
      rw [if_pos ha]
      generalize receive sp s r.mail = z at h
      obtain ⟨s1, e⟩ := z
      cases e with
      | some e => cases h
      | none =>
        dsimp only at h ⊢
        split at h
        · rename_i hf
          rw [if_pos hf]
          obtain ⟨h1, h2, h3⟩ := ih s1 h
          refine ⟨h1, h2, fun _ => h3 ?_⟩
          cases hx : s1.exc with
          | false => rfl
          | true => simp [exitFlag, hx] at hf
        · rename_i hf
          simp only [Except.ok.injEq, Option.some.injEq] at h
          exact absurd h hf
    · rename_i ha
      rw [if_neg ha]
      simp only [Bool.or_eq_true, not_or, Bool.not_eq_true] at ha
      exact ⟨ha.1, ha.2, id⟩

theorem killWorkers_tr (s : St) : (killWorkers s).tr = ((ids s).map Ev.stop).reverse ++ s.tr := by
  unfold killWorkers
  generalize ids s = l
  induction l generalizing s with
  | nil => rfl
  | cons w l ih => rw [List.foldl_cons, ih]; simp [emit]

theorem saveK_same (s : St) (b : Bool) : (saveK sp s b).tr = s.tr ∧ ids (saveK sp s b) = ids s := by
  simp only [saveK]
  constructor
  · split <;> split <;> rfl
  · split <;> split <;> rfl

/-- How a run returns with flag 0. -/
theorem returned_cases {c : Start} {its : List Iter} {t : Nat → Int} {rs : List Round} (h : (c.run its t rs).2 = .returned 0) :
    (c.loop its).2 ≠ .running ∧ (∀ e, (c.loop its).2 ≠ .raised e) ∧ ∃ s1 s2,
      stopAllPersis c.sp t (persisIds (c.loop its).1) (emit (c.loop its).1 .final) = (s1, none) ∧ drain c.sp rs s1 = (s2, .ok (some 0)) ∧
      (c.run its t rs).1.tr = ((ids s2).map Ev.stop).reverse ++ s2.tr := by
  simp only [Start.run, Manager.run, Start.loop] at h ⊢
  generalize mainLoop c.sp its c.st = y at h ⊢
  obtain ⟨s, e⟩ := y
  have hp : persisIds (emit s .final) = persisIds s := rfl
  have key : ∀ f, finalPhase c.sp (emit s .final) t rs = ((finalPhase c.sp (emit s .final) t rs).1, .done f) → ∃ s1 s2,
      stopAllPersis c.sp t (persisIds s) (emit s .final) = (s1, none) ∧ drain c.sp rs s1 = (s2, .ok (some f)) ∧
      (finalPhase c.sp (emit s .final) t rs).1.tr = ((ids s2).map Ev.stop).reverse ++ s2.tr := by
    intro f hf
    simp only [finalPhase, hp] at hf ⊢
    generalize stopAllPersis c.sp t (persisIds s) (emit s .final) = z at hf ⊢
    obtain ⟨s1, x⟩ := z
    cases x with
    | some x => simp at hf
    | none =>
      dsimp only at hf ⊢
      generalize hd : drain c.sp rs s1 = y at hf ⊢
      obtain ⟨s2, r⟩ := y
      cases r with
      | error e => simp at hf
      | ok o =>
        cases o with
        | none => simp at hf
        | some g =>
          simp only [Prod.mk.injEq, true_and, FinEnd.done.injEq] at hf
          refine ⟨s1, s2, rfl, by rw [hd, hf], ?_⟩
          show (killWorkers _).tr = _
          rw [killWorkers_tr, (saveK_same s2 _).1, (saveK_same s2 _).2]
  have fin : ∀ e : MainEnd, e ≠ .running → (∀ x, e ≠ .raised x) → ∀ (r : St × Outcome), r = (match finalPhase c.sp (emit s .final) t rs with
      | (s, .waiting) => (s, .waiting)
      | (s, .raised x) => (s, .raisedFinal x)
      | (s, .done f) => match e with | .raised x => (s, .raised x) | _ => (s, .returned f)) → r.2 = .returned 0 →
      ∃ s1 s2, stopAllPersis c.sp t (persisIds s) (emit s .final) = (s1, none) ∧ drain c.sp rs s1 = (s2, .ok (some 0)) ∧
        r.1.tr = ((ids s2).map Ev.stop).reverse ++ s2.tr := by
    intro e h1 h2 r hr hret
    generalize hz : finalPhase c.sp (emit s .final) t rs = z at hr key
    obtain ⟨sf, ff⟩ := z
    subst hr
    cases ff with
    | waiting => cases hret
    | raised x => cases hret
    | done f =>
      cases e with
      | raised x => exact absurd rfl (h2 x)
      | running => exact absurd rfl h1
      | _ =>
        simp only [Outcome.returned.injEq] at hret
        subst hret
        exact key 0 rfl
  cases e with
  | running => cases h
  | stopped x => exact ⟨nofun, nofun, fin (.stopped x) nofun nofun _ rfl h⟩
  | flagged => exact ⟨nofun, nofun, fin .flagged nofun nofun _ rfl h⟩
  | raised x =>
    exfalso
    dsimp only at h
    generalize finalPhase c.sp (emit s .final) t rs = z at h
    obtain ⟨sf, ff⟩ := z
    cases ff <;> cases h

end Verif.Manager

namespace Verif.System
open Verif Verif.Worker
open Verif.Manager (Always Start Iter Round rounds Bundled AllocEnv)

variable {env : Env} {c : Start} {f : Nat → Iter} {t : Nat → Int} {g : Nat → Round} {tr : List Manager.Ev} {ws : Nat → W}

/-- A signal that an idle worker takes no notice of. -/
def Idly (m : Msg) : Prop := isStop m.1 = true ∧ m.2 = .sig KILL

/-- The signal to finish. -/
def finish : Msg := (STOP, .sig FINISH)

/-- Idle, with nothing to come but signals of no concern. -/
structure Ready (s : W) : Prop where
  ph : s.ph = .idle
  buf : s.chan.buf = none
  left : ∀ m ∈ left s.chan, Idly m

/-- The worker has ended, or will get the signal to finish next. -/
def Bye (s : W) : Prop := s.ph = .ended ∨ (s.ph = .idle ∧ s.chan.buf = none ∧ ∃ a b, left s.chan = a ++ finish :: b ∧ ∀ m ∈ a, Idly m)

theorem Ready.still {s s' : W} (h : Ready s) (h1 : Still s s') : Ready s' := ⟨h1.ph.trans h.ph, h1.buf.trans h.buf, by rw [h1.left]; exact h.left⟩

theorem Bye.still {s s' : W} (h : Bye s) (h1 : Still s s') : Bye s' := by
  rcases h with h | ⟨a, b, l⟩
  · exact .inl (h1.ph.trans h)
  · exact .inr ⟨h1.ph.trans a, h1.buf.trans b, by rw [h1.left]; exact l⟩

theorem handle_idly {m : Msg} (h : Idly m) (s : W) : s.handle m = s.log (.took m) := by
  unfold W.handle
  rw [if_neg (by rw [h.2]; exact fun h => absurd h.2 (by decide)), if_pos ⟨h.1, h.2⟩]

/-- A turn of an idle worker. -/
theorem tick_idle {F : UserF} {s : W} (hp : s.ph = .idle) (hb : s.chan.buf = none) :
    (tick F s = s ∧ s.chan.inbox = []) ∨ ∃ m ch, s.chan.recv = (ch, some m) ∧ tick F s = ({ s with chan := ch } : W).handle m ∧
      left s.chan = m :: left ch ∧ ch.buf = none := by
  unfold tick
  rw [hp]
  dsimp only
  cases hr : s.chan.recv with
  | mk ch m =>
    cases m with
    | none => exact .inl ⟨rfl, (recv_none hr).2.1⟩
    | some m => exact .inr ⟨m, ch, rfl, rfl, left_recv hr, recv_buf_none hr⟩

theorem Ready.tick {F : UserF} {s : W} (h : Ready s) : Ready (tick F s) := by
  rcases tick_idle (F := F) h.ph h.buf with ⟨h1, _⟩ | ⟨m, ch, _, h1, h2, h3⟩
  · rw [h1]; exact h
  · have hl := h.left
    rw [h2] at hl
    rw [h1, handle_idly (hl m List.mem_cons_self)]
    exact ⟨h.ph, h3, fun m hm => hl m (List.mem_cons_of_mem _ hm)⟩

theorem Bye.tick {F : UserF} {s : W} (h : Bye s) : Bye (tick F s) ∧
    (s.ph = .ended ∨ (tick F s = s ∧ s.chan.inbox = []) ∨ (left (tick F s).chan).length < (left s.chan).length) := by
  rcases h with h | ⟨hp, hb, a, b, hl, ha⟩
  · have : Worker.tick F s = s := by unfold Worker.tick; rw [h]
    exact ⟨.inl (by rw [this]; exact h), .inl h⟩
  · rcases tick_idle (F := F) hp hb with ⟨h1, h2⟩ | ⟨m, ch, _, h1, h2, h3⟩
    · exact ⟨.inr ⟨by rw [h1]; exact hp, by rw [h1]; exact hb, a, b, by rw [h1]; exact hl, ha⟩, .inr (.inl ⟨h1, h2⟩)⟩
    · cases a with
      | nil =>
        rw [h2] at hl
        simp only [List.nil_append, List.cons.injEq] at hl
        obtain ⟨rfl, hl⟩ := hl
        have hend : Worker.tick F s = { s with chan := ch, ph := .ended, tr := .stop :: .took finish :: s.tr } := by
          rw [h1]; unfold W.handle; rw [if_pos ⟨rfl, rfl⟩]; rfl
        refine ⟨.inl (by rw [hend]), .inr (.inr ?_)⟩
        rw [hend, h2]
        exact Nat.lt_succ_self _
      | cons x a =>
        rw [h2] at hl
        simp only [List.cons_append, List.cons.injEq] at hl
        obtain ⟨rfl, hl⟩ := hl
        have hm := handle_idly (ha m List.mem_cons_self) ({ s with chan := ch } : W)
        refine ⟨.inr ⟨by rw [h1, hm]; exact hp, by rw [h1, hm]; exact h3, a, b, by rw [h1, hm]; exact hl, fun y hy => ha y (List.mem_cons_of_mem _ hy)⟩, .inr (.inr ?_)⟩
        rw [h1, hm, h2]
        exact Nat.lt_succ_self _

/-- A worker that is ready when the manager sends the finish signals, and nothing after them, ends. -/
theorem Track.dismissed {V : List Nat} {T : Nat → List Manager.Ev} {over : Prop} (C : Track env V T over) {w n0 : Nat} (hw : w ∈ V)
    (hR : Ready ((C.at_ n0).ws w)) {l : List Manager.Ev} (hl : ∀ e ∈ l, ∃ v, e = .stop v) (hwl : .stop w ∈ l) {n1 : Nat} (h01 : n0 ≤ n1)
    (h1 : (C.at_ n1).tr = l ++ (C.at_ n0).tr) (hend : ∀ m, n1 ≤ m → (C.at_ m).tr = (C.at_ n1).tr) :
    ∃ m, n0 ≤ m ∧ ∀ k, m ≤ k → ((C.at_ k).ws w).ph = .ended := by
  have hext : ∀ m, n0 ≤ m → ∃ l', (C.at_ m).tr = l' ++ (C.at_ n0).tr ∧ ∀ e ∈ l', ∃ v, e = .stop v := by
    intro m hm
    obtain ⟨l', hl'⟩ := C.grow hm
    refine ⟨l', hl'.symm, fun e he => hl e ?_⟩
    obtain ⟨l2, hl2⟩ : ∃ l2, l2 ++ (C.at_ m).tr = (C.at_ n1).tr := by
      by_cases hmn : m ≤ n1
      · obtain ⟨l2, h⟩ := C.grow hmn; exact ⟨l2, h⟩
      · exact ⟨[], by rw [hend m (by omega)]; rfl⟩
    rw [← hl', h1, ← List.append_assoc] at hl2
    have := List.append_cancel_right hl2
    rw [← this]
    exact List.mem_append_right _ he
  -- until the signal comes, and after it
  have hst : ∀ m, n0 ≤ m → ∀ l', (C.at_ m).tr = l' ++ (C.at_ n0).tr → (Ready ((C.at_ m).ws w) ∧ .stop w ∉ l') ∨ Bye ((C.at_ m).ws w) := by
    intro m hm
    induction m with
    | zero =>
      intro l' hl'
      rw [Nat.le_zero.mp hm] at hR hl'
      have : l' = [] := by
        have := congrArg List.length hl'
        rw [List.length_append] at this
        exact List.length_eq_zero_iff.mp (by omega)
      rw [this]; exact .inl ⟨hR, by simp⟩
    | succ m ih =>
      intro l' hl'
      by_cases hmm : n0 = m + 1
      · rw [hmm] at hR hl'
        have : l' = [] := by
          have := congrArg List.length hl'
          rw [List.length_append] at this
          exact List.length_eq_zero_iff.mp (by omega)
        rw [this]; exact .inl ⟨hR, by simp⟩
      · obtain ⟨l0, h0, h0s⟩ := hext m (by omega)
        have ih := ih (by omega) l0 h0
        by_cases hs : ∀ e, C.turn m = .man e → msgTo w e = none
        · have hl0 : .stop w ∉ l0 → .stop w ∉ l' := by
            intro hnot hin
            have hn := C.next m
            cases ht : C.turn m with
            | man e =>
              rw [ht] at hn
              have : e :: l0 = l' := by
                have h3 := hn.2
                rw [h3] at hl'
                dsimp only at hl'
                rw [h0, ← List.cons_append] at hl'
                exact List.append_cancel_right hl'
              rw [← this] at hin
              rcases List.mem_cons.mp hin with h | h
              · have h4 := hs e ht
                rw [← h] at h4
                simp [msgTo] at h4
              · exact hnot h
            | carry v => rw [ht] at hn; rw [show C.at_ (m + 1) = _ from hn] at hl'; dsimp only at hl'; rw [h0] at hl'; exact hnot (List.append_cancel_right hl' ▸ hin)
            | tick v => rw [ht] at hn; rw [show C.at_ (m + 1) = _ from hn] at hl'; dsimp only at hl'; rw [h0] at hl'; exact hnot (List.append_cancel_right hl' ▸ hin)
            | wait => rw [ht] at hn; rw [show C.at_ (m + 1) = _ from hn, h0] at hl'; exact hnot (List.append_cancel_right hl' ▸ hin)
          rcases C.still w m hs with ⟨h2, _, _⟩ | ⟨_, h2, _⟩
          · exact ih.imp (fun h => ⟨h.1.still h2, hl0 h.2⟩) (fun h => h.still h2)
          · rw [h2]; exact ih.imp (fun h => ⟨h.1.tick, hl0 h.2⟩) (fun h => h.tick.1)
        · simp only [Classical.not_forall] at hs
          obtain ⟨e, ht, he⟩ := hs
          have hn := C.next m
          rw [ht] at hn
          have hel : e ∈ l' := by
            have : e :: l0 = l' := by
              have h3 := hn.2
              rw [h3] at hl'
              dsimp only at hl'
              rw [h0, ← List.cons_append] at hl'
              exact List.append_cancel_right hl'
            rw [← this]; exact List.mem_cons_self
          obtain ⟨v, rfl⟩ : ∃ v, e = .stop v := by
            obtain ⟨l2, hl2, hl3⟩ := hext (m + 1) hm
            rw [hl2] at hl'
            exact hl3 e (List.append_cancel_right hl' ▸ hel)
          have hmsg : msgTo w (.stop v) = some finish := by
            simp only [msgTo] at he ⊢
            split at he
            · rename_i h; rw [if_pos h]; rfl
            · exact absurd rfl he
          obtain ⟨_, d2, d3⟩ := deliver_tr w (.stop v) ((C.at_ m).ws w)
          have d4 := deliver_buf w (.stop v) ((C.at_ m).ws w)
          rw [hmsg] at d3
          rw [hn.2]
          dsimp only
          refine .inr ?_
          rcases ih with ⟨h, _⟩ | h | ⟨a, b, x, y, hx, hy⟩
          · exact .inr ⟨d2.trans h.ph, d4.trans h.buf, left ((C.at_ m).ws w).chan, [], d3, h.left⟩
          · exact .inl (d2.trans h)
          · exact .inr ⟨d2.trans a, d4.trans b, x, y ++ [finish], by rw [d3, hx]; simp, hy⟩
  have hbye : ∀ m, n1 ≤ m → Bye ((C.at_ m).ws w) := fun m hm =>
    (hst m (by omega) l (by rw [hend m hm, h1])).resolve_left fun h => h.2 hwl
  have hsil : ∀ m, n1 ≤ m → ∀ e, C.turn m ≠ .man e := by
    intro m hm e he
    have hn := C.next m
    rw [he] at hn
    have := hend (m + 1) (by omega)
    rw [hn.2, ← hend m hm] at this
    have := congrArg List.length this
    simp only [List.length_cons] at this
    omega
  have hstep := fun m (hm : n1 ≤ m) => C.still w m fun e he => absurd he (hsil m hm e)
  have hkeep : ∀ m, n1 ≤ m → ((C.at_ m).ws w).ph = .ended → ∀ k, m ≤ k → ((C.at_ k).ws w).ph = .ended := by
    intro m hm he k hk
    induction k with
    | zero => rw [Nat.le_zero.mp hk] at he; exact he
    | succ k ih =>
      by_cases hmk : m = k + 1
      · rw [← hmk]; exact he
      · have ih := ih (by omega)
        rcases hstep k (by omega) with ⟨h, _⟩ | ⟨_, h, _⟩
        · exact h.ph.trans ih
        · rw [h]; unfold Worker.tick; rw [ih]; exact ih
  have hfin : ∀ r m, n1 ≤ m → (left ((C.at_ m).ws w).chan).length = r → ∃ k, m ≤ k ∧ ((C.at_ k).ws w).ph = .ended := by
    intro r
    induction r using Nat.strongRecOn with
    | _ r ih =>
    intro m hm hr
    refine Classical.byContradiction fun hno => ?_
    have hnot : ∀ k, m ≤ k → ((C.at_ k).ws w).ph ≠ .ended := fun k hk h => hno ⟨k, hk, h⟩
    have hlow : ∀ k, m ≤ k → ¬ (left ((C.at_ k).ws w).chan).length < r := fun k hk h => by
      obtain ⟨j, hj, h1⟩ := ih _ h k (by omega) rfl
      exact hno ⟨j, by omega, h1⟩
    have hone : ∀ k, m ≤ k → (left ((C.at_ k).ws w).chan).length = r → Still ((C.at_ k).ws w) ((C.at_ (k + 1)).ws w) ∧
        (C.turn k = .tick w → ((C.at_ k).ws w).chan.inbox = []) := by
      intro k hk hrk
      have key : C.turn k = .tick w → (C.at_ (k + 1)).ws w = (C.at_ k).ws w ∧ ((C.at_ k).ws w).chan.inbox = [] := by
        intro ht
        rcases hstep k (by omega) with ⟨_, _, h⟩ | ⟨_, h, _⟩
        · exact absurd ht h
        · rcases ((hbye k (by omega)).tick (F := env.F w)).2 with h2 | h2 | h2
          · exact absurd h2 (hnot k hk)
          · rw [h]; exact h2
          · rw [← h, hrk] at h2; exact absurd h2 (hlow (k + 1) (by omega))
      refine ⟨?_, fun ht => (key ht).2⟩
      rcases hstep k (by omega) with ⟨h, _⟩ | ⟨h, _⟩
      · exact h
      · rw [(key h).1]; exact Still.refl _
    have hst : ∀ a b, m ≤ a → a ≤ b → (left ((C.at_ a).ws w).chan).length = r → Still ((C.at_ a).ws w) ((C.at_ b).ws w) := by
      intro a b ha hab hra
      induction b with
      | zero => rw [Nat.le_zero.mp hab]; exact Still.refl _
      | succ b ihb =>
        by_cases h : a = b + 1
        · rw [h]; exact Still.refl _
        · have h1 := ihb (by omega)
          exact h1.trans (hone b (by omega) (by rw [h1.left]; exact hra)).1
    have hrk : ∀ a, m ≤ a → (left ((C.at_ a).ws w).chan).length = r := fun a ha => by rw [(hst m a (Nat.le_refl _) ha hr).left]; exact hr
    obtain ⟨_, hbuf, a, b, hleft, _⟩ := (hbye m hm).resolve_left (hnot m (Nat.le_refl _))
    obtain ⟨b, hb, htb⟩ := C.carries w hw m
    have hin : ((C.at_ (b + 1)).ws w).chan.inbox ≠ [] := by
      have h := C.next b
      rw [htb] at h
      rw [show C.at_ (b + 1) = _ from h]
      simp only [if_true]
      have hs := hst m b (Nat.le_refl _) hb hr
      exact carry_inbox (hs.buf.trans hbuf) (by rw [hs.left, hleft]; simp)
    obtain ⟨d, hd, htd⟩ := C.ticks w hw (b + 1)
    have h3 := (hone d (by omega) (hrk d (by omega))).2 htd
    obtain ⟨l, h4⟩ := (hst (b + 1) d (by omega) hd (hrk _ (by omega))).inbox
    rw [h3] at h4
    have := congrArg List.length h4
    simp only [List.length_nil, List.length_append] at this
    have : 0 < ((C.at_ (b + 1)).ws w).chan.inbox.length := List.length_pos_iff.mpr hin
    omega
  obtain ⟨k, hk, he⟩ := hfin _ n1 (Nat.le_refl _) rfl
  exact ⟨k, by omega, hkeep k (by omega) he⟩

/-- Signals to a worker. -/
theorem sent_sig {w : Nat} (hs : .stop w ∉ tr) : ∀ m ∈ sentTo w tr, ∀ n, m.2 = .sig n → Idly m := by
  induction tr with
  | nil => intro m hm; simp [sentTo] at hm
  | cons e tr ih =>
    intro m hm n hn
    rw [sentTo, List.mem_append] at hm
    rcases hm with hm | hm
    · exact ih (fun h => hs (List.mem_cons_of_mem _ h)) m hm n hn
    · rw [Option.mem_toList] at hm
      cases e with
      | stop to =>
        simp only [msgTo] at hm
        split at hm
        · rename_i hto; subst hto; exact absurd List.mem_cons_self hs
        · cases hm
      | kill to i =>
        simp only [msgTo] at hm
        split at hm
        · simp only [Option.mem_def, Option.some.injEq] at hm; subst hm; exact ⟨rfl, rfl⟩
        · cases hm
      | persisStop to =>
        simp only [msgTo] at hm
        split at hm
        · simp only [Option.mem_def, Option.some.injEq] at hm; subst hm; exact ⟨rfl, rfl⟩
        · cases hm
      | order to key wk =>
        simp only [msgTo] at hm
        split at hm
        · simp only [Option.mem_def, Option.some.injEq] at hm; subst hm; cases hn
        · cases hm
      | rows to rs vals =>
        simp only [msgTo] at hm
        split at hm
        · simp only [Option.mem_def, Option.some.injEq] at hm; subst hm; cases hn
        · cases hm
      | _ => cases hm

/-- A stream without orders consists of signals. -/
theorem frame_sigs {l : List Msg} (h : frame .ctl l ≠ none) (ho : ords l = []) : ∀ m ∈ l, ∃ n, m.2 = .sig n := by
  induction l with
  | nil => nofun
  | cons m l ih =>
    obtain ⟨t, b⟩ := m
    cases b with
    | work o => simp [ords] at ho
    | data x => simp [frame] at h
    | sig n =>
      rw [ords_cons (by nofun)] at ho
      simp only [frame] at h
      split at h
      · intro m hm
        rcases List.mem_cons.mp hm with rfl | hm
        · exact ⟨n, rfl⟩
        · exact ih h ho m hm
      · exact absurd rfl h

theorem Joint.ready (h : Joint env tr ws) {w : Nat} (hf : Framed (sentTo w tr)) (hs : .stop w ∉ tr) (h1 : (ws w).ph = .idle) (h2 : (ws w).chan.buf = none)
    (h3 : ords (left (ws w).chan) = []) (h4 : frame .ctl (Worker.taken (ws w).tr) = some .ctl) : Ready (ws w) := by
  refine ⟨h1, h2, fun m hm => ?_⟩
  have h5 := h.taken w
  have h6 : frame .ctl (left (ws w).chan) ≠ none := by
    unfold Framed at hf
    rw [← h5, frame_append, h4] at hf
    exact hf
  obtain ⟨n, hn⟩ := frame_sigs h6 h3 m hm
  exact sent_sig hs m (by rw [← h5]; exact List.mem_append_right _ hm) n hn

end Verif.System
