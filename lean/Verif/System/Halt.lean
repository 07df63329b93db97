import Verif.System.Shutdown
/-
A persistent generator that has been told to stop: the stages to its end (helper for PropsShutdown.lean).
-/
namespace Verif.System
open Verif Verif.Worker
open Verif.Manager (view hasFinal Always)

variable {env : Env}

/-- Persistent generators that answer, and that end when a stop signal comes while they wait. -/
structure Leaving (env : Env) (F : UserF) : Prop extends Asking env F where
  leaves : ∀ n o rows h t b, o.persistent = true → isStop t = true → ∃ u, F n o rows (.signal t b :: .sent :: h) = .ret u ∧ u.own = some 12

/-- What the manager has noted about such a worker. -/
def haltView : Manager.View := { busy := true, stopped := true, persis := Alloc.EVAL_GEN }

/-- The orders in the channel; the stop signal is the last message, and the only signal. -/
structure Tail (s : W) (os : List Order) : Prop where
  buf : s.chan.buf = none
  ords : ords (left s.chan) = os
  last : ∃ l, left s.chan = l ++ [pst] ∧ ∀ m ∈ l, ∀ i, m.2 ≠ .sig i

/-- Messages with points. -/
def Speaks (env : Env) (Q : List (List Ev × Out)) : Prop := ∀ x ∈ Q, ∃ i, x.2 = .data i ∧ OkMsg (env.msg i) ∧ inPersis x.1 = true

structure PersOrder (o : Order) : Prop where
  ok : OkOrder false o
  per : o.persistent = true

inductive Halt (env : Env) (s : W) (Q : List (List Ev × Out)) : Manager.View → Prop
  | sent (o : Order) (ho : PersOrder o) (h2 : s.ph = .idle) (h3 : Tail s [o]) (h4 : Q = []) : Halt env s Q haltView
  | need (o : Order) (ho : PersOrder o) (h2 : s.ph = .needRows o) (h3 : Tail s []) (h4 : Q = []) : Halt env s Q haltView
  | ask (o : Order) (rows : Option Body) (h : List Obs) (ho : PersOrder o) (h2 : s.ph = .user o rows h) (h3 : Tail s []) (h4 : Speaks env Q)
      (h5 : asked h = true) : Halt env s Q haltView
  | wait (o : Order) (rows : Option Body) (h : List Obs) (ho : PersOrder o) (h2 : s.ph = .user o rows (.sent :: h))
      (h3 : Tail s [] ∨ ∃ o', Tail s [o'] ∧ o'.rows ≠ []) (h4 : Speaks env Q) : Halt env s Q haltView
  | more (o : Order) (rows : Option Body) (h : List Obs) (t : Nat) (o' : Order) (ho : PersOrder o) (h2 : s.ph = .userRows o rows (.sent :: h) t o')
      (h3 : Tail s []) (h4 : Speaks env Q) : Halt env s Q haltView
  | told (o : Order) (rows : Option Body) (h : List Obs) (t : Nat) (b : Body) (ho : PersOrder o) (h2 : s.ph = .user o rows (.signal t b :: .sent :: h))
      (h3 : isStop t = true) (h4 : s.chan.buf = some pst) (h5 : left s.chan = [pst]) (h6 : Speaks env Q) : Halt env s Q haltView
  | over (o : Order) (Q0 : List (List Ev × Out)) (pre : List Ev) (r : Bool) (ho : PersOrder o) (h2 : s.ph = .idle) (hb : s.chan.buf = none)
      (h3 : ∀ m ∈ left s.chan, m = pst) (h4 : Q = Q0 ++ [(pre, .answer o 12 r)]) (h5 : Speaks env Q0) : Halt env s Q haltView
  | fin (h2 : s.ph = .idle) (hb : s.chan.buf = none) (h3 : ∀ m ∈ left s.chan, m = pst) (h4 : Q = []) : Halt env s Q {}

/-- The order of the stages. -/
def haltRank (s : W) : Nat :=
  10 * (ords (left s.chan)).length + match s.ph with
    | .needRows _ | .userRows .. => 9
    | .user _ _ h => if asked h then 8 else match h with
      | .sent :: _ => 7
      | _ => 6
    | _ => 0

theorem Tail.next {s : W} {os : List Order} (h : Tail s os) {c : Comms.Chan Msg} {m : Msg} (hr : s.chan.recv = (c, some m)) :
    (m = pst ∧ left c = [] ∧ os = []) ∨ ((∀ i, m.2 ≠ .sig i) ∧ ∃ l, left c = l ++ [pst] ∧ ∀ m ∈ l, ∀ i, m.2 ≠ .sig i) := by
  obtain ⟨l, hl, hns⟩ := h.last
  have h1 := left_recv hr
  rw [hl] at h1
  cases l with
  | nil =>
    simp only [List.nil_append, List.cons.injEq] at h1
    obtain ⟨rfl, h2⟩ := h1
    refine .inl ⟨rfl, h2.symm, ?_⟩
    have := h.ords
    rw [hl, List.nil_append, ords_cons pst_not_work] at this
    exact this.symm
  | cons x l =>
    simp only [List.cons_append, List.cons.injEq] at h1
    obtain ⟨rfl, h2⟩ := h1
    exact .inr ⟨hns x List.mem_cons_self, l, h2.symm, fun m hm => hns m (List.mem_cons_of_mem _ hm)⟩

theorem speaks_nil : Speaks env [] := nofun

theorem own12 {u : UOut} (hu : u.own = some 12) (s : Int) : u.status s = some (12, false) := by
  cases u with
  | pairStatus y => simp only [UOut.own, Option.some.injEq] at hu; subst hu; rfl
  | triple y => simp only [UOut.own, Option.some.injEq] at hu; subst hu; rfl
  | _ => cases hu

/-- A step of the worker. -/
theorem tick_halt {F : UserF} (hA : Leaving env F) {s : W} {v : Manager.View} {g : Nat} (hg : g ≤ (outs s.tr).length) (hlink : Link s)
    (hfr : frame .ctl (taken s.tr) = some (want s.ph)) (hL : frame .ctl (taken s.tr ++ left s.chan) ≠ none) (I : Halt env s ((outs s.tr).drop g) v) :
    frame .ctl (taken (tick F s).tr) = some (want (tick F s).ph) ∧ Halt env (tick F s) ((outs (tick F s).tr).drop g) v ∧
    ((tick F s = s ∧ s.chan.inbox = [] ∧ s.chan.buf = none) ∨ haltRank (tick F s) < haltRank s ∨
      (s.ph = .idle ∧ (tick F s).ph = .idle ∧ (outs (tick F s).tr).drop g = (outs s.tr).drop g ∧ ords (left s.chan) = [] ∧ ords (left (tick F s).chan) = [])) := by
  have hL2 : frame (want s.ph) (left s.chan) ≠ none := by
    rw [frame_append, hfr] at hL; exact hL
  -- an idle worker takes the stop signal
  have hidle : s.ph = .idle → s.chan.buf = none → (∀ m ∈ left s.chan, m = pst) →
      (tick F s = s ∧ s.chan.inbox = []) ∨ ∃ c, tick F s = ⟨.idle, c, s.n, .took pst :: s.tr⟩ ∧ c.buf = none ∧ (∀ m ∈ left c, m = pst) ∧
        frame .ctl (taken (.took pst :: s.tr)) = some .ctl := by
    intro hp hb hall
    unfold tick
    rw [hp]
    dsimp only
    cases hr : s.chan.recv with
    | mk c m =>
      cases m with
      | none => exact .inl ⟨rfl, (recv_none hr).2.1⟩
      | some m =>
        right
        have hl := left_recv hr
        obtain rfl : m = pst := hall m (by rw [hl]; exact List.mem_cons_self)
        refine ⟨c, rfl, recv_buf_none hr, fun m hm => hall m (by rw [hl]; exact List.mem_cons_of_mem _ hm), ?_⟩
        rw [hp] at hfr
        simp only [taken, frame_append, hfr, want, Option.bind_some]
        rfl
  have hno : ∀ {l : List Msg}, (∀ m ∈ l, m = pst) → ords l = [] := by
    intro l
    induction l with
    | nil => exact fun _ => rfl
    | cons m l ih => intro h; rw [h m List.mem_cons_self, ords_cons pst_not_work]; exact ih fun m hm => h m (List.mem_cons_of_mem _ hm)
  cases I with
  | sent o ho h2 h3 h4 =>
    rw [h2] at hL2 hfr
    unfold tick
    rw [h2]
    dsimp only
    cases hr : s.chan.recv with
    | mk c m =>
      cases m with
      | none =>
        dsimp only
        exact ⟨by rw [h2]; exact hfr, .sent o ho h2 h3 h4, .inl ⟨rfl, (recv_none hr).2.1, h3.buf⟩⟩
      | some m =>
        dsimp only
        have hl := left_recv hr
        have hcb := recv_buf_none hr
        rw [hl] at hL2
        rcases h3.next hr with ⟨_, _, h⟩ | ⟨hns, hlast⟩
        · cases h
        · rcases frame_ctl hL2 with ⟨n, h1, _⟩ | ⟨o1, h1, h5, h6⟩
          · exact absurd h1 (hns n)
          · have hords : ords (left s.chan) = o1 :: ords (left c) := by
              rw [hl]; obtain ⟨t, x⟩ := m; cases h1; rfl
            have ho3 := h3.ords
            rw [hords] at ho3
            injection ho3 with e1 e2
            subst e1
            have hT : ∀ n tr ph, Tail ⟨ph, c, n, tr⟩ [] := fun n tr ph => ⟨hcb, e2, hlast⟩
            have hrk : ∀ n tr ph, (ph = .needRows o1 ∨ ph = .user o1 none []) → haltRank ⟨ph, c, n, tr⟩ < haltRank s := by
              intro n tr ph h
              rcases h with rfl | rfl <;> simp only [haltRank, e2, hords, h2, asked, List.length_nil, List.length_cons] <;> simp
            have hf : ¬ (isStop m.1 = true ∧ Body.work o1 = Body.sig FINISH) := fun h => absurd h.2 nofun
            have hk : ¬ (isStop m.1 = true ∧ Body.work o1 = Body.sig KILL) := fun h => absurd h.2 nofun
            have hd : ¬ (o1.activeRecv = true ∧ o1.persistent = false) := by rw [ho.ok.ar]; nofun
            by_cases hro : o1.rows = []
            · have he : W.handle ⟨.idle, c, s.n, s.tr⟩ m = ⟨.user o1 none [], c, s.n, .start o1 none :: .took m :: s.tr⟩ := by
                unfold W.handle
                simp only [W.log, h1, if_neg hf, if_neg hk, if_neg hd, if_pos hro]
                unfold W.call
                rw [if_pos (show o1.tag = EVAL_SIM ∨ o1.tag = EVAL_GEN from ho.ok.tag)]
              rw [he]
              refine ⟨?_, .ask o1 none [] ho rfl (hT _ _ _) ?_ rfl, .inr (.inl (hrk _ _ _ (.inr rfl)))⟩
              · simp only [taken, frame_append, hfr, want, Option.bind_some, h6, if_pos hro]
              · show Speaks env ((outs s.tr).drop g)
                rw [h4]; exact speaks_nil
            · have he : W.handle ⟨.idle, c, s.n, s.tr⟩ m = ⟨.needRows o1, c, s.n, .took m :: s.tr⟩ := by
                unfold W.handle
                simp only [W.log, h1, if_neg hf, if_neg hk, if_neg hd, if_neg hro]
              rw [he]
              refine ⟨?_, .need o1 ho rfl (hT _ _ _) h4, .inr (.inl (hrk _ _ _ (.inl rfl)))⟩
              simp only [taken, frame_append, hfr, want, Option.bind_some, h6, if_neg hro]
  | need o ho h2 h3 h4 =>
    rw [h2] at hL2 hfr
    unfold tick
    rw [h2]
    dsimp only
    cases hr : s.chan.recv with
    | mk c m =>
      cases m with
      | none =>
        dsimp only
        exact ⟨by rw [h2]; exact hfr, .need o ho h2 h3 h4, .inl ⟨rfl, (recv_none hr).2.1, h3.buf⟩⟩
      | some m =>
        dsimp only
        have hl := left_recv hr
        have hcb := recv_buf_none hr
        rw [hl] at hL2
        obtain ⟨⟨x, h1⟩, h5, h6⟩ := frame_rows hL2
        have he : (W.log ⟨.needRows o, c, s.n, s.tr⟩ (.tookRows m)).call o (some m.2) = ⟨.user o (some m.2) [], c, s.n, .start o (some m.2) :: .tookRows m :: s.tr⟩ := by
          unfold W.call
          rw [if_pos (show o.tag = EVAL_SIM ∨ o.tag = EVAL_GEN from ho.ok.tag)]; rfl
        rw [he]
        have hords : ords (left s.chan) = ords (left c) := by rw [hl, ords_sig (by intro o; rw [h1]; nofun)]
        rcases h3.next hr with ⟨rfl, _⟩ | ⟨_, hlast⟩
        · cases h1
        · refine ⟨?_, .ask o _ [] ho rfl ⟨hcb, hords ▸ h3.ords, hlast⟩ ?_ rfl, .inr (.inl ?_)⟩
          · simp only [taken, frame_append, hfr, want, Option.bind_some, h6]
          · show Speaks env ((outs s.tr).drop g)
            rw [h4]; exact speaks_nil
          · simp only [haltRank, ← hords, h2, asked, if_true]; omega
  | ask o rows h ho h2 h3 h4 h5 =>
    have hfr' : frame .ctl (taken s.tr) = some .ctl := by rw [hfr, h2]; rfl
    have hrun : inPersis s.tr = true := by
      unfold Link at hlink
      rw [h2] at hlink
      simp only [inPersis, hlink.1, ho.per]
    unfold tick
    rw [h2]
    dsimp only
    rcases hA.acts s.n o rows h ho.per h5 with ⟨x, hx, hm⟩ | ⟨u, hx, hu⟩
    · rw [hx]
      dsimp only
      have hQ : (outs (.out (.data x) :: s.tr)).drop g = (outs s.tr).drop g ++ [(s.tr, .data x)] := by
        rw [outs, List.drop_append_of_le_length hg]
      refine ⟨by simpa [taken, want] using hfr', .wait o rows h ho rfl (.inl ⟨h3.buf, h3.ords, h3.last⟩) ?_, .inr (.inl ?_)⟩
      · show Speaks env ((outs (.out (.data x) :: s.tr)).drop g)
        rw [hQ]
        intro y hy
        rcases List.mem_append.mp hy with hy | hy
        · exact h4 y hy
        · rw [List.mem_singleton] at hy; subst hy; exact ⟨x, rfl, hm, hrun⟩
      · simp only [haltRank, h2, h5, if_true]; simp [asked]
    · rw [hx]
      dsimp only
      unfold W.finish
      simp only [W.log, h3.buf, own12 hu]
      rw [if_neg (by decide)]
      have hQ : (outs (.out (.answer o 12 false) :: .ret u :: s.tr)).drop g = (outs s.tr).drop g ++ [(.ret u :: s.tr, .answer o 12 false)] := by
        rw [outs, show outs (.ret u :: s.tr) = outs s.tr from rfl, List.drop_append_of_le_length hg]
      refine ⟨by simpa [taken, want] using hfr', .over o _ _ false ho rfl h3.buf ?_ hQ h4, .inr (.inl ?_)⟩
      · obtain ⟨l, hl, hns⟩ := h3.last
        rw [h2] at hL2
        have : l = [] := by
          cases l with
          | nil => rfl
          | cons m l =>
            rw [hl] at hL2
            have ho3 := h3.ords
            rw [hl] at ho3
            rcases frame_ctl hL2 with ⟨n, h1, _⟩ | ⟨o1, h1, _⟩
            · exact absurd h1 (hns m List.mem_cons_self n)
            · obtain ⟨t, x⟩ := m
              cases h1
              cases ho3
        subst this
        show ∀ m ∈ left s.chan, m = pst
        rw [hl]; simp
      · simp only [haltRank, h2, h5, if_true]
        omega
  | wait o rows h ho h2 h3 h4 =>
    have hfr' : frame .ctl (taken s.tr) = some .ctl := by rw [hfr, h2]; rfl
    rw [h2] at hL2
    have hbuf : s.chan.buf = none := by
      rcases h3 with h3 | ⟨_, h3, _⟩ <;> exact h3.buf
    unfold tick
    rw [h2]
    dsimp only
    rw [hA.waits s.n o rows h ho.per]
    dsimp only
    rw [if_neg (by simp)]
    cases hr : s.chan.recv with
    | mk c m =>
      cases m with
      | none =>
        dsimp only
        exact ⟨by rw [h2]; exact hfr', .wait o rows h ho h2 h3 h4, .inl ⟨rfl, (recv_none hr).2.1, hbuf⟩⟩
      | some m =>
        dsimp only
        have hl := left_recv hr
        have hcb := recv_buf_none hr
        rw [hl] at hL2
        have hn : (m = pst ∧ left c = []) ∨ ((∀ i, m.2 ≠ .sig i) ∧ ∃ l, left c = l ++ [pst] ∧ ∀ m ∈ l, ∀ i, m.2 ≠ .sig i) := by
          rcases h3 with h3 | ⟨_, h3, _⟩
          · exact (h3.next hr).imp (fun h => ⟨h.1, h.2.1⟩) id
          · exact (h3.next hr).imp (fun h => ⟨h.1, h.2.1⟩) id
        rcases hn with ⟨rfl, hc⟩ | ⟨hns, hlast⟩
        · -- the stop signal
          have he : (W.log ⟨.user o rows (.sent :: h), c, s.n, s.tr⟩ (.utook pst)).pushBack pst o rows (.sent :: h) (.signal pst.1 pst.2) =
              ⟨.user o rows (.signal pst.1 pst.2 :: .sent :: h), { c with buf := some pst }, s.n, .uback pst :: .utook pst :: s.tr⟩ := by
            unfold W.pushBack
            simp only [W.log, push_ok hcb]
          have hlb : left { c with buf := some pst } = [pst] := by rw [left_push hcb, hc]
          have hgoal : frame .ctl (taken (.uback pst :: .utook pst :: s.tr)) = some .ctl := by
            simp only [taken, List.dropLast_concat, hfr']
          have hords : ords (left s.chan) = [] := by rw [hl, hc]; rfl
          have hp2 : pst.2 = .sig KILL := rfl
          have hp1 : isStop pst.1 = true := rfl
          rw [hp2] at he
          simp only [hp2, hp1, if_true, W.log] at he ⊢
          rw [he]
          refine ⟨hgoal, .told o rows h pst.1 (.sig KILL) ho rfl rfl rfl hlb h4, .inr (.inl ?_)⟩
          simp only [haltRank, hlb, hords, h2, asked]
          simp [ords_cons pst_not_work, show ords [] = [] from rfl]
        · rcases frame_ctl hL2 with ⟨n, h1, _⟩ | ⟨o1, h1, h5, h6⟩
          · exact absurd h1 (hns n)
          · have hords : ords (left s.chan) = o1 :: ords (left c) := by
              rw [hl]; obtain ⟨t, x⟩ := m; cases h1; rfl
            obtain ⟨h3, hro⟩ : Tail s [o1] ∧ o1.rows ≠ [] := by
              rcases h3 with h3 | ⟨o2, h3, hro⟩
              · have := h3.ords; rw [hords] at this; cases this
              · have := h3.ords
                rw [hords] at this
                injection this with e1 e2
                subst e1
                exact ⟨h3, hro⟩
            have e2 : ords (left c) = [] := by
              have := h3.ords
              rw [hords] at this
              injection this
            simp only [h1, W.log]
            refine ⟨?_, .more o rows h m.1 o1 ho rfl ⟨hcb, e2, hlast⟩ h4, .inr (.inl ?_)⟩
            · simp only [taken, frame_append, hfr', Option.bind_some, h6, if_neg hro, want]
            · simp only [haltRank, e2, hords, h2, asked, List.length_nil, List.length_cons]; simp
  | more o rows h t o' ho h2 h3 h4 =>
    rw [h2] at hL2 hfr
    unfold tick
    rw [h2]
    dsimp only
    cases hr : s.chan.recv with
    | mk c m =>
      cases m with
      | none =>
        dsimp only
        exact ⟨by rw [h2]; exact hfr, .more o rows h t o' ho h2 h3 h4, .inl ⟨rfl, (recv_none hr).2.1, h3.buf⟩⟩
      | some m =>
        dsimp only
        have hl := left_recv hr
        have hcb := recv_buf_none hr
        rw [hl] at hL2
        obtain ⟨⟨x, h1⟩, h5, h6⟩ := frame_rows hL2
        rw [if_neg (by rw [h5]; nofun)]
        have hords : ords (left s.chan) = ords (left c) := by rw [hl, ords_sig (by intro o; rw [h1]; nofun)]
        rcases h3.next hr with ⟨rfl, _⟩ | ⟨_, hlast⟩
        · cases h1
        · refine ⟨?_, .ask o rows _ ho rfl ⟨hcb, hords ▸ h3.ords, hlast⟩ h4 rfl, .inr (.inl ?_)⟩
          · simp only [W.log, taken, frame_append, hfr, want, Option.bind_some, h6]
          · simp only [haltRank, W.log, ← hords, h2, asked, if_true]; omega
  | told o rows h t b ho h2 h3 h4 h5 h6 =>
    have hfr' : frame .ctl (taken s.tr) = some .ctl := by rw [hfr, h2]; rfl
    obtain ⟨u, hx, hu⟩ := hA.leaves s.n o rows h t b ho.per h3
    unfold tick
    rw [h2]
    dsimp only
    rw [hx]
    dsimp only
    unfold W.finish
    have hrec : s.chan.recv = ({ s.chan with buf := none }, some pst) := by unfold Comms.Chan.recv; rw [h4]
    have hl := left_recv hrec
    rw [h5] at hl
    have hl0 : left { s.chan with buf := none } = [] := by injection hl with _ hl; exact hl.symm
    simp only [W.log, h4, own12 hu, hrec]
    rw [if_neg (by decide)]
    have hQ : (outs (.out (.answer o 12 false) :: .buffered pst :: .ret u :: s.tr)).drop g =
        (outs s.tr).drop g ++ [(.buffered pst :: .ret u :: s.tr, .answer o 12 false)] := by
      rw [outs, show outs (.buffered pst :: .ret u :: s.tr) = outs s.tr from rfl, List.drop_append_of_le_length hg]
    refine ⟨?_, .over o _ _ false ho rfl rfl ?_ hQ h6, .inr (.inl ?_)⟩
    · simp only [taken, frame_append, hfr', Option.bind_some, want]; rfl
    · show ∀ m ∈ left { s.chan with buf := none }, m = pst
      rw [hl0]; nofun
    · simp only [haltRank, hl0, h5, h2, asked]
      simp [ords_cons pst_not_work, show ords [] = [] from rfl]
  | over o Q0 pre r ho h2 hb h3 h4 h5 =>
    rcases hidle h2 hb h3 with ⟨h, hi⟩ | ⟨c, h, i1, i2, i3⟩
    · rw [h]; exact ⟨hfr, .over o Q0 pre r ho h2 hb h3 h4 h5, .inl ⟨rfl, hi, hb⟩⟩
    · rw [h]; exact ⟨i3, .over o Q0 pre r ho rfl i1 i2 h4 h5, .inr (.inr ⟨h2, rfl, rfl, hno h3, hno i2⟩)⟩
  | fin h2 hb h3 h4 =>
    rcases hidle h2 hb h3 with ⟨h, hi⟩ | ⟨c, h, i1, i2, i3⟩
    · rw [h]; exact ⟨hfr, .fin h2 hb h3 h4, .inl ⟨rfl, hi, hb⟩⟩
    · rw [h]; exact ⟨i3, .fin rfl i1 i2 h4, .inr (.inr ⟨h2, rfl, rfl, hno h3, hno i2⟩)⟩

end Verif.System
