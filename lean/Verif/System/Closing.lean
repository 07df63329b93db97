import Verif.System.Halt
import Verif.System.PropsShutdown
/-
The shutdown with persistent generators: every worker is either as in the main loop, or was told to stop (helper for PropsClosing.lean).
-/
namespace Verif.Manager
open Verif.History Verif.Res Verif.Sched Verif.Alloc Verif.System

variable {sp : Specs} {P : St → Reply → Prop} {s0 : St}

theorem stopPersis_tr (hg : sp.finalGenSend = false) (s : St) (w : Nat) (t : Int) : (stopPersis sp s w t).1.tr = .persisStop w :: s.tr := by
  simp only [stopPersis, stopSend, hg, andThen, emit, modW_tr]; rfl

/-- Without `kill_canceled_sims` no kill signals are sent, and a worker is told to stop once. -/
theorem Reach.closing {p : Ph} {s : St} (h : Reach sp P s0 p s) (hg : sp.finalGenSend = false) (hk : sp.kill = false) (h0 : VI sp s0)
    (ht0 : s0.tr = []) (hp0 : s0.pending = []) (hc : p.clean = true) :
    Always (fun pre e => (∀ w i, e ≠ .kill w i) ∧ ∀ w, e = .persisStop w → (view w pre).stopped = false) s.tr := by
  have hf0 : Manager.hasFinal s0.tr = false := by rw [ht0]; rfl
  have hmic : ∀ {a b : St} {Q : Ev → Prop}, Micros sp Q a b → (∀ e, Q e → (∀ w i, e ≠ .kill w i) ∧ ∀ w, e ≠ .persisStop w) →
      Always (fun pre e => (∀ w i, e ≠ .kill w i) ∧ ∀ w, e = .persisStop w → (view w pre).stopped = false) a.tr →
      Always (fun pre e => (∀ w i, e ≠ .kill w i) ∧ ∀ w, e = .persisStop w → (view w pre).stopped = false) b.tr :=
    fun hm hq ha => hm.always ha fun e he pre => ⟨(hq e he).1, fun w hw => absurd hw ((hq e he).2 w)⟩
  have hev : ∀ {tr : List Ev} (e : Ev), Always (fun pre e => (∀ w i, e ≠ .kill w i) ∧ ∀ w, e = .persisStop w → (view w pre).stopped = false) tr →
      (∀ w i, e ≠ .kill w i) → (∀ w, e ≠ .persisStop w) →
      Always (fun pre e => (∀ w i, e ≠ .kill w i) ∧ ∀ w, e = .persisStop w → (view w pre).stopped = false) (e :: tr) :=
    fun e ih h1 h2 => always_cons.mpr ⟨⟨h1, fun w hw => absurd hw (h2 w)⟩, ih⟩
  have hkc : ∀ s, (killCancelled sp s).1 = s := fun s => by simp only [killCancelled, hk, Bool.false_eq_true, if_false]
  induction h with
  | init => rw [ht0]; exact .nil
  | test e _ _ ih => exact hev _ (ih rfl) nofun nofun
  | stop e _ _ ih => exact hev _ (ih rfl) nofun nofun
  | kill _ _ ih => rw [hkc]; exact ih rfl
  | killErr _ _ ih => rw [hkc]; exact ih rfl
  | mail w m t _ _ _ ih => exact hmic (micros_handleMsg _ w m t) (fun e h => by cases h <;> exact ⟨nofun, nofun⟩) (ih rfl)
  | mailErr w m t _ _ _ ih => exact hmic (micros_handleMsg _ w m t) (fun e h => by cases h <;> exact ⟨nofun, nofun⟩) (ih rfl)
  | save _ ih => exact hmic (micros_saveK (Q := fun _ => False) _ _) (fun _ h => h.elim) (ih rfl)
  | allocErr cs _ _ ih => exact hev _ (ih rfl) nofun nofun
  | allocFlag cs work p _ _ ih => exact hev _ (ih rfl) nofun nofun
  | allocOk cs work p t _ _ ih => exact hev _ (ih rfl) nofun nofun
  | give hr _ he ih => exact hmic (micros_handOut _ _ _ _) (fun e h => by cases h with | send h => cases h <;> exact ⟨nofun, nofun⟩ | _ => exact ⟨nofun, nofun⟩) (ih rfl)
  | giveErr hr hm he ih => rw [checkOrder_clean he hc]; exact ih rfl
  | again _ _ _ ih => exact ih rfl
  | noWork _ _ ih => exact ih rfl
  | final _ ih => exact hev _ (ih hc) nofun nofun
  | @pstop s x w ws t hr he ih =>
    obtain ⟨hv, hT⟩ := hr.vi h0 hf0 hp0 hc
    obtain ⟨hw, k, y, hk, hy, _⟩ := (hT _ _ rfl).ok w List.mem_cons_self
    rw [stopPersis_tr hg]
    refine always_cons.mpr ⟨⟨nofun, fun v hv' => ?_⟩, ih hc⟩
    cases hv'
    have := (hv.agree k y hy).stopped
    rw [hk] at this
    rw [this]
    exact decide_eq_false hw
  | pstopErr t _ _ ih => simp [Ph.clean] at hc
  | drain _ ih => exact ih hc
  | dmail w m t _ _ _ ih => exact hmic (micros_handleMsg _ w m t) (fun e h => by cases h <;> exact ⟨nofun, nofun⟩) (ih hc)
  | dmailErr w m t _ _ _ ih => simp [Ph.clean] at hc
  | dsave _ ih => exact hmic (micros_saveK (Q := fun _ => False) _ _) (fun _ h => h.elim) (ih hc)
  | @done s x p _ ih =>
    have h1 := hmic (micros_saveK (sp := sp) (Q := fun _ => False) s sp.saveDone) (fun _ h => h.elim) (ih hc)
    have h2 := hmic (micros_killWorkers (sp := sp) (saveK sp s sp.saveDone)) (fun e h => by obtain ⟨w, rfl⟩ := h; exact ⟨nofun, nofun⟩) h1
    exact h2

/-- All of them are told. -/
theorem stopAll_told (hg : sp.finalGenSend = false) (t : Nat → Int) (ws : List Nat) (s : St) (h : (stopAllPersis sp t ws s).2 = none) :
    ∀ w ∈ ws, .persisStop w ∈ (stopAllPersis sp t ws s).1.tr := by
  induction ws generalizing s with
  | nil => nofun
  | cons v ws ih =>
    simp only [stopAllPersis] at h ⊢
    obtain ⟨h1, h2⟩ := andThen_none h
    rw [h2] at h ⊢
    intro w hw
    rcases List.mem_cons.mp hw with rfl | hw
    · exact (stopAll_tr (sp := sp) t ws _).subset (by rw [stopPersis_tr hg]; exact List.mem_cons_self)
    · exact ih _ h w hw

theorem finalPhase_told (hg : sp.finalGenSend = false) {s : St} {t : Nat → Int} {rs : List Round} (h : (finalPhase sp s t rs).2 = .waiting) :
    ∀ w ∈ persisIds s, .persisStop w ∈ (finalPhase sp s t rs).1.tr := by
  have h0 := stopAll_told hg t (persisIds s) s
  simp only [finalPhase] at h ⊢
  generalize stopAllPersis sp t (persisIds s) s = z at h h0 ⊢
  obtain ⟨s1, e⟩ := z
  cases e with
  | some e => cases h
  | none =>
    dsimp only at h h0 ⊢
    obtain ⟨l, hl, _⟩ := drain_tr (sp := sp) rs s1
    generalize drain sp rs s1 = y at h hl ⊢
    obtain ⟨s2, x⟩ := y
    cases x with
    | error e => cases h
    | ok o =>
      cases o with
      | none => intro w hw; rw [hl]; exact List.mem_append_right _ (h0 rfl w hw)
      | some f => cases h

end Verif.Manager

namespace Verif.System
open Verif Verif.Worker
open Verif.Manager (Always Start Iter Round rounds Bundled AllocEnv)

variable {env : Env} {tr : List Manager.Ev} {ws : Nat → W}

/-- What the manager does until the shutdown ends. -/
def Shuts (pre : List Manager.Ev) : Manager.Ev → Prop
  | .persisStop to => Manager.hasFinal pre = true ∧ (Manager.view to pre).persis ≠ 0 ∧ (Manager.view to pre).stopped = false
  | e => Neat false pre e

theorem shuts_reach {c : Start} {o : Alloc.UserOpts} (hu : PlainGens c o) {aenv : AllocEnv} {p : Manager.Ph} {s : Manager.St}
    (hr : Manager.Reach c.sp ((Bundled.persGens o).P aenv c.sp) c.st p s) (hc : p.clean = true) (hd : ∀ x, p ≠ .done x) (hx : s.exc = false) :
    Always Shuts s.tr ∧ Manager.Whole s.tr := by
  obtain ⟨h1, h2⟩ := hr.tidy hu.fin Manager.start_vi Manager.start_tr Manager.start_pending hc
  refine ⟨?_, h2⟩
  have h3 := Manager.opg_orders hr
  have h3' := Manager.opg_simOrders hu.alt hr
  have h3'' := Manager.gens_orders hr
  have h4 := hr.closing hu.fin hu.kill Manager.start_vi Manager.start_tr Manager.start_pending hc
  have h5 := hr.noStop Manager.start_tr hd
  have h6 := (hr.vi Manager.start_vi (by rw [Manager.start_tr]; rfl) Manager.start_pending hc).1
  have h7 : Manager.hasExc s.tr = false := by rw [← h6.exc]; exact hx
  intro post e pre he
  have a1 := h1 post e pre he
  have a3 := h3 post e pre he
  have a3' := h3' post e pre he
  have a3'' := h3'' post e pre he
  have a4 := h4 post e pre he
  have hm : e ∈ s.tr := by rw [he]; simp
  cases e with
  | order to key wk =>
    obtain ⟨b1, b2, b3, b4⟩ := a1
    have a3 : Manager.OpgShape o wk := a3 b1
    have a3' := a3' b1
    obtain ⟨_, _, _, d4⟩ := a3'' b1
    refine ⟨b1, b2.imp id (·.1), ?_, a3.imp (·.1) (·.1), ?_⟩
    · rcases a3 with ⟨_, _, h⟩ | ⟨_, h⟩
      · rw [h]; rfl
      · rw [h, hu.act]; rfl
    · rcases d4 with h | ⟨d5, d6, d7⟩
      · obtain ⟨e1, e2⟩ := a3' h
        exact .inl ⟨e2, fun _ => e1⟩
      · refine .inr ⟨d6, rfl, d5, fun hne => ?_⟩
        rcases d7 with h | h
        · exact h.nonempty
        · exact absurd h.idle.2 hne
  | persisStop to => exact ⟨a1.1, a1.2, a4.2 to rfl⟩
  | stop to => have := h5 to hm; rw [h7] at this; cases this
  | kill to i => exact absurd rfl (a4.1 to i)
  | _ => trivial

/-- Until a worker is told to stop, there are no signals to it. -/
theorem shuts_sent (w : Nat) (h : Always Shuts tr) (hw : .persisStop w ∉ tr) : ∀ m ∈ sentTo w tr, ∀ n, m.2 ≠ .sig n := by
  induction tr with
  | nil => intro m hm; simp [sentTo] at hm
  | cons e tr ih =>
    obtain ⟨h1, h2⟩ := Manager.always_cons.mp h
    intro m hm
    rw [sentTo, List.mem_append] at hm
    rcases hm with hm | hm
    · exact ih h2 (fun h => hw (List.mem_cons_of_mem _ h)) m hm
    · rw [Option.mem_toList] at hm
      cases e with
      | persisStop to =>
        simp only [msgTo] at hm
        split at hm
        · rename_i hto; subst hto; exact absurd List.mem_cons_self hw
        · cases hm
      | kill to i => cases (show false = true from h1)
      | stop to => exact (show False from h1).elim
      | order to key wk =>
        simp only [msgTo] at hm
        split at hm
        · simp only [Option.mem_def, Option.some.injEq] at hm; subst hm; nofun
        · cases hm
      | rows to rs vals =>
        simp only [msgTo] at hm
        split at hm
        · simp only [Option.mem_def, Option.some.injEq] at hm; subst hm; nofun
        · cases hm
      | _ => cases hm

theorem Tail.extend {s s' : W} {os : List Order} (h : Tail s os) (h2 : left s'.chan = left s.chan) (h3 : s'.chan.buf = s.chan.buf) : Tail s' os :=
  ⟨h3 ▸ h.buf, by rw [h2]; exact h.ords, by rw [h2]; exact h.last⟩

theorem Halt.extend {s s' : W} {Q : List (List Ev × Out)} {v : Manager.View} (h : Halt env s Q v) (h1 : s'.ph = s.ph) (h2 : left s'.chan = left s.chan)
    (h3 : s'.chan.buf = s.chan.buf) : Halt env s' Q v := by
  cases h with
  | sent o ho a b c => exact .sent o ho (h1 ▸ a) (b.extend h2 h3) c
  | need o ho a b c => exact .need o ho (h1 ▸ a) (b.extend h2 h3) c
  | ask o r h ho a b c d => exact .ask o r h ho (h1 ▸ a) (b.extend h2 h3) c d
  | wait o r h ho a b c =>
    refine .wait o r h ho (h1 ▸ a) ?_ c
    rcases b with b | ⟨o', b, b'⟩
    · exact .inl (b.extend h2 h3)
    · exact .inr ⟨o', b.extend h2 h3, b'⟩
  | more o r h t o' ho a b c => exact .more o r h t o' ho (h1 ▸ a) (b.extend h2 h3) c
  | told o r h t b ho a c d e f => exact .told o r h t b ho (h1 ▸ a) c (h3 ▸ d) (h2 ▸ e) f
  | over o Q0 pre r ho a b c d e => exact .over o Q0 pre r ho (h1 ▸ a) (h3 ▸ b) (h2 ▸ c) d e
  | fin a b c d => exact .fin (h1 ▸ a) (h3 ▸ b) (h2 ▸ c) d

/-- What is still to come: messages with points and the last answer. -/
theorem Halt.queue {s : W} {Q : List (List Ev × Out)} {v : Manager.View} (h : Halt env s Q v) :
    (Speaks env Q ∨ ∃ o Q0 pre r, PersOrder o ∧ Q = Q0 ++ [(pre, .answer o 12 r)] ∧ Speaks env Q0) ∧ (v = haltView ∨ (v = {} ∧ Q = [])) := by
  cases h with
  | sent o ho a b c => exact ⟨.inl (by rw [c]; exact speaks_nil), .inl rfl⟩
  | need o ho a b c => exact ⟨.inl (by rw [c]; exact speaks_nil), .inl rfl⟩
  | ask o r h ho a b c d => exact ⟨.inl c, .inl rfl⟩
  | wait o r h ho a b c => exact ⟨.inl c, .inl rfl⟩
  | more o r h t o' ho a b c => exact ⟨.inl c, .inl rfl⟩
  | told o r h t b ho a c d e f => exact ⟨.inl f, .inl rfl⟩
  | over o Q0 pre r ho a b c d e => exact ⟨.inr ⟨o, Q0, pre, r, ho, d, e⟩, .inl rfl⟩
  | fin a b c d => exact ⟨.inl (by rw [d]; exact speaks_nil), .inr ⟨rfl, d⟩⟩

/-- The manager receives a message. -/
theorem Halt.pop {s : W} {x : List Ev × Out} {rest : List (List Ev × Out)} {v : Manager.View} (h : Halt env s (x :: rest) v) :
    (Halt env s rest haltView ∧ v = haltView ∧ ∃ i, x.2 = .data i ∧ OkMsg (env.msg i) ∧ inPersis x.1 = true) ∨
    (Halt env s rest {} ∧ v = haltView ∧ rest = [] ∧ ∃ o r, PersOrder o ∧ x.2 = .answer o 12 r) := by
  have hs : ∀ {Q : List (List Ev × Out)}, Q = x :: rest → Speaks env Q → Speaks env rest ∧ ∃ i, x.2 = .data i ∧ OkMsg (env.msg i) ∧ inPersis x.1 = true := by
    rintro Q rfl h
    exact ⟨fun y hy => h y (List.mem_cons_of_mem _ hy), h x List.mem_cons_self⟩
  cases h with
  | sent o ho a b c => cases c
  | need o ho a b c => cases c
  | ask o r h ho a b c d => obtain ⟨h1, h2⟩ := hs rfl c; exact .inl ⟨.ask o r h ho a b h1 d, rfl, h2⟩
  | wait o r h ho a b c => obtain ⟨h1, h2⟩ := hs rfl c; exact .inl ⟨.wait o r h ho a b h1, rfl, h2⟩
  | more o r h t o' ho a b c => obtain ⟨h1, h2⟩ := hs rfl c; exact .inl ⟨.more o r h t o' ho a b h1, rfl, h2⟩
  | told o r h t b ho a c d e f => obtain ⟨h1, h2⟩ := hs rfl f; exact .inl ⟨.told o r h t b ho a c d e h1, rfl, h2⟩
  | over o Q0 pre r ho a b c d e =>
    cases Q0 with
    | nil =>
      simp only [List.nil_append, List.cons.injEq] at d
      obtain ⟨rfl, rfl⟩ := d
      exact .inr ⟨.fin a b c rfl, rfl, rfl, o, r, ho, rfl⟩
    | cons y Q0 =>
      simp only [List.cons_append, List.cons.injEq] at d
      obtain ⟨rfl, rfl⟩ := d
      obtain ⟨h1, h2⟩ := (⟨fun y hy => e y (List.mem_cons_of_mem _ hy), e x List.mem_cons_self⟩ : Speaks env Q0 ∧ _)
      exact .inl ⟨.over o Q0 pre r ho a b c rfl h1, rfl, h2⟩
  | fin a b c d => cases d

/-- A worker in the shutdown. -/
structure Told (env : Env) (w : Nat) (tr : List Manager.Ev) (s : W) : Prop where
  told : .persisStop w ∈ tr
  fin : Manager.hasFinal tr = true
  whole : frame .ctl (sentTo w tr) = some .ctl
  frame : frame .ctl (taken s.tr) = some (want s.ph)
  halt : Halt env s (onTheWay w tr s) (Manager.view w tr)

structure Free (env : Env) (w : Nat) (tr : List Manager.Ev) (s : W) : Prop where
  free : .persisStop w ∉ tr
  view : Manager.view w tr = { busy := (Manager.owes w tr).isSome, persis := (Manager.view w tr).persis }
  inv : SInv env false (Manager.owes w tr) (Manager.view w tr).persis s (onTheWay w tr s)

theorem onTheWay_other {w : Nat} {e : Manager.Ev} {s : W} (he : isGot w e = false) : onTheWay w (e :: tr) (deliver w e s) = onTheWay w tr s := by
  have : got w (e :: tr) = got w tr := by
    rw [got, List.countP_cons, got]
    simp only [he]
    simp
  simp only [onTheWay, (deliver_tr w e s).1, this]

/-- A worker is told to stop. -/
theorem Free.told {w : Nat} {s : W} (h : Free env w tr s) (hn : Shuts tr (.persisStop w)) (hns : ∀ m ∈ left s.chan, ∀ i, m.2 ≠ .sig i)
    (hL : Worker.frame .ctl (taken s.tr ++ left s.chan) ≠ none) (hW : Framed (sentTo w (.persisStop w :: tr))) :
    Told env w (.persisStop w :: tr) (deliver w (.persisStop w) s) := by
  obtain ⟨n1, n2, n3⟩ := hn
  obtain ⟨e1, e2, e3⟩ := deliver_tr w (.persisStop w) s
  have hm : msgTo w (.persisStop w) = some pst := by simp only [msgTo, if_true]
  rw [hm] at e3
  have J := h.inv
  refine ⟨List.mem_cons_self, ?_, ?_, by rw [e1, e2]; exact J.frame, ?_⟩
  · rw [show Manager.Ev.persisStop w :: tr = [.persisStop w] ++ tr from rfl, Manager.hasFinal_append, n1, Bool.or_true]
  · have h1 : Worker.frame .ctl (sentTo w (.persisStop w :: tr)) ≠ none := hW
    rw [sentTo, hm, frame_append] at h1 ⊢
    cases hx : Worker.frame .ctl (sentTo w tr) with
    | none => rw [hx] at h1; exact absurd rfl h1
    | some x => cases x with
      | ctl => rfl
      | rows => rw [hx] at h1; exact absurd rfl h1
  · rw [onTheWay_other rfl]
    have hv : Manager.view w (.persisStop w :: tr) = { busy := true, stopped := true, persis := (Manager.view w tr).persis } := by
      rw [show Manager.view w (.persisStop w :: tr) = (Manager.view w tr).step w (Manager.hasFinal tr) (Manager.hasExc tr) (.persisStop w) from rfl]
      simp only [Manager.View.step, if_true]
      rw [h.view]
    have hview : (Manager.view w tr).persis = EVAL_GEN → Manager.view w (.persisStop w :: tr) = haltView := fun hp => by rw [hv, hp]; rfl
    have hlast : ∃ l, left (deliver w (.persisStop w) s).chan = l ++ [pst] ∧ ∀ m ∈ l, ∀ i, m.2 ≠ .sig i := ⟨left s.chan, e3, hns⟩
    have htail : ∀ {os}, s.chan.buf = none → ords (left s.chan) = os → Tail (deliver w (.persisStop w) s) os := by
      rintro os hb rfl
      refine ⟨by rw [deliver_buf]; exact hb, ?_, hlast⟩
      rw [e3, ords_append]
      simp [ords_cons pst_not_work, show ords [] = [] from rfl]
    have hpv : ∀ {o : Order}, OkOrder false o → (Manager.view w tr).persis = pv o → PersOrder o ∧ (Manager.view w tr).persis = EVAL_GEN := by
      intro o ho hp
      by_cases h1 : o.persistent = true
      · exact ⟨⟨ho, h1⟩, by rw [hp, pv, if_pos h1]⟩
      · rw [pv, if_neg h1] at hp; exact absurd hp n2
    have hL2 : Worker.frame (want s.ph) (left s.chan) ≠ none := by
      rw [frame_append, J.frame] at hL; exact hL
    cases J.stage with
    | rest z => exact absurd z n2
    | work o r x y z t => exact absurd t n2
    | done o pre st r x y z => exact absurd z n2
    | sent o ho z a b d e =>
      obtain ⟨h1, h2⟩ := hpv ho z
      rw [hview h2]
      exact .sent o h1 (e2.trans b) (htail (J.buf (by rw [b]; nofun)) d) e
    | need o ho z a b d e =>
      obtain ⟨h1, h2⟩ := hpv ho z
      rw [hview h2]
      exact .need o h1 (e2.trans b) (htail (J.buf (by rw [b]; nofun)) d) e
    | ask o r x y z t a b d e f =>
      rw [hview t]
      refine .ask o r x ⟨y, z⟩ (e2.trans b) (htail (J.buf ?_) d) (by rw [e]; exact speaks_nil) f
      rw [b]; intro o' _ _ hh; cases hh; exact z
    | said o r x pre i y z t a b d e f =>
      rw [hview t]
      refine .wait o r x ⟨y, z⟩ (e2.trans b) (.inl (htail (J.buf ?_) d)) ?_
      · rw [b]; intro o' _ _ hh; cases hh; exact z
      · rw [e]; intro q hq; rw [List.mem_singleton] at hq; subst hq; exact ⟨i, rfl, f⟩
    | wait o r x y z t a b d e =>
      rw [hview t]
      refine .wait o r x ⟨y, z⟩ (e2.trans b) (.inl (htail (J.buf ?_) d)) (by rw [e]; exact speaks_nil)
      rw [b]; intro o' _ _ hh; cases hh; exact z
    | next o r x o' y z t a b d e f =>
      rw [hview t]
      refine .wait o r x ⟨y, z⟩ (e2.trans b) (.inr ⟨o', htail (J.buf ?_) d, f⟩) (by rw [e]; exact speaks_nil)
      rw [b]; intro o' _ _ hh; cases hh; exact z
    | more o r x t' o' y z t a b d e =>
      rw [hview t]
      exact .more o r x t' o' ⟨y, z⟩ (e2.trans b) (htail (J.buf (by rw [b]; nofun)) d) (by rw [e]; exact speaks_nil)
    | over o pre r y z t a b d e =>
      rw [hview t, e]
      refine .over o [] pre r ⟨y, z⟩ (e2.trans b) (by rw [deliver_buf]; exact J.buf (by rw [b]; nofun)) ?_ rfl speaks_nil
      have hnil : left s.chan = [] := by
        rw [b] at hL2
        cases hl : left s.chan with
        | nil => rfl
        | cons m l =>
          exfalso
          rw [hl] at hL2 d hns
          rcases frame_ctl hL2 with ⟨n, h1, _⟩ | ⟨o1, h1, h5, h6⟩
          · exact hns m List.mem_cons_self n h1
          · obtain ⟨t1, x1⟩ := m
            cases h1
            cases d
      rw [e3, hnil]
      intro m hm
      simpa using hm

/-- Nothing is sent to a worker that was told to stop. -/
theorem Told.silent {w : Nat} {e : Manager.Ev} {s : W} (h : Told env w tr s) (hn : Shuts tr e) (hF : Framed (sentTo w (e :: tr))) : msgTo w e = none := by
  cases e with
  | order to key wk =>
    have h1 : Manager.hasFinal tr = false := (show Neat false tr (.order to key wk) from hn).1
    rw [h.fin] at h1; cases h1
  | rows to rs vals =>
    simp only [msgTo]
    split
    · rename_i hto
      subst hto
      exfalso
      have h1 : Worker.frame .ctl (sentTo to (.rows to rs vals :: tr)) ≠ none := hF
      rw [sentTo, frame_append, h.whole] at h1
      simp only [msgTo, if_true, Option.toList, Option.bind_some] at h1
      exact h1 rfl
    · rfl
  | persisStop to =>
    simp only [msgTo]
    split
    · rename_i hto
      subst hto
      exfalso
      obtain ⟨n1, n2, n3⟩ := hn
      rcases h.halt.queue.2 with hv | ⟨hv, _⟩
      · rw [hv] at n3; cases n3
      · rw [hv] at n2; exact n2 rfl
    · rfl
  | kill to i => cases (show false = true from hn)
  | stop to => exact (show False from hn).elim
  | _ => rfl

theorem Told.man {w : Nat} {e : Manager.Ev} {s : W}
    (hp : ∀ m, e = .recv w m → fromWorker m = true → ∃ pre x rest, onTheWay w tr s = (pre, x) :: rest ∧ Says env pre x m)
    (h : Told env w tr s) (hn : Shuts tr e) (hF : Framed (sentTo w (e :: tr))) (hx : Manager.hasExc tr = false) : Told env w (e :: tr) (deliver w e s) := by
  obtain ⟨e1, e2, e3⟩ := deliver_tr w e s
  have hs := h.silent hn hF
  have hl : left (deliver w e s).chan = left s.chan := by rw [e3, hs]; simp
  refine ⟨List.mem_cons_of_mem _ h.told, ?_, ?_, by rw [e1, e2]; exact h.frame, ?_⟩
  · rw [show e :: tr = [e] ++ tr from rfl, Manager.hasFinal_append, h.fin, Bool.or_true]
  · rw [sentTo, hs]; simp only [Option.toList, List.append_nil]; exact h.whole
  have hother : isGot w e = false → Manager.view w (e :: tr) = Manager.view w tr →
      Halt env (deliver w e s) (onTheWay w (e :: tr) (deliver w e s)) (Manager.view w (e :: tr)) := fun h1 h2 => by
    rw [onTheWay_other h1, h2]
    exact h.halt.extend e2 hl (deliver_buf w e s)
  cases e with
  | order to key wk =>
    have h1 : Manager.hasFinal tr = false := (show Neat false tr (.order to key wk) from hn).1
    rw [h.fin] at h1; cases h1
  | persisStop to =>
    by_cases hto : to = w
    · rw [hto] at hs; simp [msgTo] at hs
    · exact hother rfl (by simp only [Manager.view, Manager.View.step, if_neg hto])
  | recv w' m =>
    by_cases hw : w' = w
    · subst hw
      have hgot : fromWorker m = true → ∀ {pre x rest}, onTheWay w' tr s = (pre, x) :: rest →
          onTheWay w' (.recv w' m :: tr) (deliver w' (.recv w' m) s) = rest := by
        intro hm pre x rest h1
        have hg : got w' (.recv w' m :: tr) = got w' tr + 1 := by simp [got, isGot, hm]
        simp only [onTheWay, e1, hg]
        simp only [onTheWay] at h1
        rw [← List.drop_drop, h1]; rfl
      cases m with
      | finished => exact hother (by simp [isGot, fromWorker]) (by simp only [Manager.view, Manager.View.step]; split <;> rfl)
      | log => exact hother (by simp [isGot, fromWorker]) (by simp only [Manager.view, Manager.View.step]; split <;> rfl)
      | err =>
        exfalso
        obtain ⟨pre, x, rest, h1, h2⟩ := hp _ rfl rfl
        have hh := h.halt
        rw [h1] at hh
        rcases hh.pop with ⟨_, _, i, h3, _⟩ | ⟨_, _, _, o, r, _, h3⟩ <;> dsimp only at h3 <;> subst h3 <;> exact h2
      | data d =>
        obtain ⟨pre, x, rest, h1, h2⟩ := hp _ rfl rfl
        rw [hgot rfl h1]
        have hh := h.halt
        rw [h1] at hh
        rw [show Manager.view w' (.recv w' (.data d) :: tr) = (Manager.view w' tr).step w' (Manager.hasFinal tr) (Manager.hasExc tr) (.recv w' (.data d)) from rfl, hx]
        rcases hh.pop with ⟨h4, h5, i, h3, h6, h7⟩ | ⟨h4, h5, _, o, r, ho, h3⟩
        · dsimp only at h3 h7
          subst h3
          obtain ⟨rfl, _⟩ := h2
          have hfin : Manager.Data.isFinished { env.msg i with rows := hRows pre, persistent := inPersis pre } = false := h6.fin
          have hv : (Manager.view w' tr).step w' (Manager.hasFinal tr) false (.recv w' (.data { env.msg i with rows := hRows pre, persistent := inPersis pre })) = haltView := by
            rw [h5]
            simp only [Manager.View.step, if_true, hfin, Bool.false_eq_true, if_false]
            simp only [h6.gen, haltView, ite_self]
            simp
          rw [hv]
          exact h4.extend e2 hl (deliver_buf w' _ s)
        · dsimp only at h3
          subst h3
          obtain ⟨out, rfl⟩ := h2
          have hfin : Manager.Data.isFinished { calcType := o.tag, calcStatus := (12 : Int).toNat, rows := hRows pre, persistent := o.persistent, out := out } = true := rfl
          have hv : (Manager.view w' tr).step w' (Manager.hasFinal tr) false (.recv w' (.data { calcType := o.tag, calcStatus := (12 : Int).toNat, rows := hRows pre, persistent := o.persistent, out := out })) = {} := by
            rw [h5]
            simp only [Manager.View.step, if_true, hfin, haltView]
            simp
          rw [hv]
          exact h4.extend e2 hl (deliver_buf w' _ s)
    · exact hother (by simp [isGot, hw]) (by simp only [Manager.view, Manager.View.step, if_neg hw])
  | _ => exact hother rfl rfl

theorem Shuts.neat {e : Manager.Ev} (h : Shuts tr e) (he : ∀ w, e ≠ .persisStop w) : Neat false tr e := by
  cases e with
  | persisStop w => exact absurd rfl (he w)
  | _ => exact h

/-- An event of the manager, for a worker that was not told to stop. -/
theorem Free.man {w : Nat} {e : Manager.Ev} {s : W}
    (hp : ∀ m, e = .recv w m → fromWorker m = true → ∃ pre x rest, onTheWay w tr s = (pre, x) :: rest ∧ Says env pre x m)
    (h : Free env w tr s) (hn : Shuts tr e) (he : e ≠ .persisStop w) :
    Free env w (e :: tr) (deliver w e s) ∧ e ≠ .recv w .err ∧
    ((∀ to key wk, e ≠ .order to key wk) → (Manager.view w tr).persis = 0 → (Manager.view w (e :: tr)).persis = 0) := by
  have hnot : .persisStop w ∉ e :: tr := fun hm => by
    rcases List.mem_cons.mp hm with hm | hm
    · exact he hm.symm
    · exact h.free hm
  by_cases hps : ∃ v, e = .persisStop v
  · obtain ⟨v, rfl⟩ := hps
    have hv : v ≠ w := fun hv => he (by rw [hv])
    have h1 : Manager.view w (.persisStop v :: tr) = Manager.view w tr := by simp only [Manager.view, Manager.View.step, if_neg hv]
    have h2 : Manager.owes w (.persisStop v :: tr) = Manager.owes w tr := rfl
    refine ⟨⟨hnot, by rw [h1, h2]; exact h.view, h.inv.other rfl h1 h2 (by simp [msgTo, hv])⟩, nofun, fun _ h0 => by rw [h1]; exact h0⟩
  · obtain ⟨h1, h2, h3, _, h5⟩ := SInv.man hp h.view h.inv (hn.neat fun v hv => hps ⟨v, hv⟩)
    exact ⟨⟨hnot, h1, h2⟩, h3, h5⟩

/-- Manager and workers together, the shutdown included. -/
theorem Joint.closing (h : Joint env tr ws) (hF : ∀ w, Simple (env.F w)) (hA : ∀ w, Leaving env (env.F w)) (hn : Always Shuts tr)
    (hf : ∀ w, Framed (sentTo w tr)) (hx : Manager.hasExc tr = false) (w : Nat) : Free env w tr (ws w) ∨ Told env w tr (ws w) := by
  induction h with
  | init => exact .inl ⟨by simp, rfl, ⟨rfl, fun _ => rfl, nofun, onEv_nil, .rest rfl rfl rfl rfl rfl⟩⟩
  | @man tr ws e h hp ih =>
    obtain ⟨h1, h2⟩ := Manager.always_cons.mp hn
    have hx' : Manager.hasExc tr = false := by
      rw [show e :: tr = [e] ++ tr from rfl, Manager.hasExc_append, Bool.or_eq_false_iff] at hx
      exact hx.2
    have hp' : ∀ m, e = .recv w m → fromWorker m = true → ∃ pre x rest, onTheWay w tr (ws w) = (pre, x) :: rest ∧ Says env pre x m :=
      fun m he hm => by subst he; exact hp hm
    rcases ih h2 (fun w => framed_prefix (hf w)) hx' with I | I
    · by_cases he : e = .persisStop w
      · subst he
        refine .inr (I.told h1 ?_ (by rw [h.taken w]; exact framed_prefix (hf w)) (hf w))
        exact fun m hm => shuts_sent w h2 I.free m (by rw [← h.taken w]; exact List.mem_append_right _ hm)
      · exact .inl (I.man hp' h1 he).1
    · exact .inr (I.man hp' h1 (hf w) hx')
  | @carry tr ws v h ih =>
    have I := ih hn hf hx
    dsimp only
    split
    · rcases I with I | I
      · exact .inl ⟨I.free, I.view, I.inv.extend rfl rfl (carry_buf _) (by simp only [left_carry])⟩
      · exact .inr ⟨I.told, I.fin, I.whole, I.frame, I.halt.extend rfl (by simp only [left_carry]) (carry_buf _)⟩
    · exact I
  | @tick tr ws v h ih =>
    have I := ih hn hf hx
    dsimp only
    split
    · rcases I with I | I
      · refine .inl ⟨I.free, I.view, (tick_simple (hF w) (fun _ => (hA w).toAsking) (B := bound (hF w)) (bound_spec (hF w)) (h.got_le w) (h.fine w).2.2 ?_ ?_ I.inv).1⟩
        · rw [h.taken w]; exact hf w
        · intro m hm n hmn
          exact absurd hmn (shuts_sent w hn I.free m (by rw [← h.taken w]; exact List.mem_append_right _ hm) n)
      · obtain ⟨t1, t2, _⟩ := tick_halt (hA w) (h.got_le w) (h.fine w).2.2 I.frame (by rw [h.taken w]; exact hf w) I.halt
        exact .inr ⟨I.told, I.fin, I.whole, t1, t2⟩
    · exact I

end Verif.System
