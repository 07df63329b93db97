import Verif.System.Origin
/-
Everything that the manager writes to a worker is complete, also with `final_gen_send` (helper for PropsBack.lean).
-/
namespace Verif.Manager
open Verif.History Verif.Res Verif.Sched Verif.Alloc Verif.System

variable {sp : Specs} {P : St → Reply → Prop} {s0 : St}

theorem Whole.order {l0 l tr : List Ev} {to key : Nat} {wk : Work} (h : Whole tr) (hl0 : ∀ e ∈ l0, plainEv e = true)
    (ht : wk.tag = EVAL_SIM ∨ wk.tag = EVAL_GEN ∨ wk.tag = PERSIS_STOP)
    (hl : (wk.rows = [] ∧ l = []) ∨ (wk.rows ≠ [] ∧ ∃ vals, l = [.rows to wk.rows vals])) : Whole (l ++ .order to key wk :: (l0 ++ tr)) := by
  intro v
  have hw0 := (h.plain (l := l0) hl0) v
  have htag : wk.tag ≠ Worker.STOP := by rcases ht with h | h | h <;> rw [h] <;> decide
  rw [sentTo_append, sentTo, Worker.frame_append, Worker.frame_append, hw0]
  simp only [Option.bind_some, msgTo]
  split
  · rename_i hto
    simp only [Option.toList, Worker.frame, if_neg htag]
    rw [show (orderOf wk).rows = wk.rows from rfl]
    rcases hl with ⟨h1, rfl⟩ | ⟨h1, vals, rfl⟩
    · rw [if_pos h1]; rfl
    · rw [if_neg h1]; simp [sentTo, msgTo, hto, Worker.frame, Worker.isStop]
  · rename_i hto
    simp only [Option.toList, Worker.frame, Option.bind_some]
    rcases hl with ⟨h1, rfl⟩ | ⟨h1, vals, rfl⟩
    · rfl
    · simp [sentTo, msgTo, hto, Worker.frame]

theorem Reach.whole {p : Ph} {s : St} (h : Reach sp P s0 p s) (ht0 : s0.tr = []) (hc : p.clean = true) : Whole s.tr := by
  have hkill : ∀ {s : St}, Whole s.tr → Whole (killCancelled sp s).1.tr :=
    fun {s} ih => Whole.micros (micros_killCancelled (sp := sp) s) ih (fun e h => by cases h <;> rfl)
  have hmsg : ∀ {s : St} {w m t}, Whole s.tr → Whole (handleMsg sp s w m t).1.tr :=
    fun {s w m t} ih => Whole.micros (micros_handleMsg (sp := sp) s w m t) ih (fun e h => by cases h <;> rfl)
  have hsave : ∀ {s : St} {b}, Whole s.tr → Whole (saveK sp s b).tr :=
    fun {s b} ih => Whole.micros (micros_saveK (sp := sp) (Q := fun _ => False) s b) ih (fun e h => h.elim)
  have hev : ∀ {tr : List Ev} (e : Ev), Whole tr → plainEv e = true → Whole (e :: tr) :=
    fun {tr} e ih h2 => ih.plain (l := [e]) (by simpa using h2)
  induction h with
  | init => rw [ht0]; exact fun w => rfl
  | test e _ _ ih => exact hev _ (ih rfl) rfl
  | stop e _ _ ih => exact hev _ (ih rfl) rfl
  | kill _ _ ih => exact hkill (ih rfl)
  | killErr _ _ ih => exact hkill (ih rfl)
  | mail w m t _ _ _ ih => exact hmsg (ih rfl)
  | mailErr w m t _ _ _ ih => exact hmsg (ih rfl)
  | save _ ih => exact hsave (ih rfl)
  | allocErr cs _ _ ih => exact hev _ (ih rfl) rfl
  | allocFlag cs work p _ _ ih => exact hev _ (ih rfl) rfl
  | allocOk cs work p t _ _ ih => exact hev _ (ih rfl) rfl
  | @give s w wk t rest hr hm he ih =>
    obtain ⟨_, k, wk', l0, l, hG, _⟩ := handOut_ok he
    have har : wk'.tag = wk.tag ∧ wk'.rows = wk.rows := by rw [hG.order]; exact ⟨rfl, rfl⟩
    rw [hG.tr]
    refine Whole.plain (Whole.order (ih rfl) ?_ (by rw [har.1]; exact hG.tag) ?_) (by cases orderOp sp wk w t <;> simp [plainEv])
    · rcases hG.before with rfl | ⟨team, rfl, _⟩ <;> simp [plainEv]
    · rw [hG.after, har.2]
      split
      · rename_i h; exact .inl ⟨h, rfl⟩
      · rename_i h; exact .inr ⟨h, _, rfl⟩
  | giveErr hr hm he ih => rw [checkOrder_clean he hc]; exact ih rfl
  | again _ _ _ ih => exact ih rfl
  | noWork _ _ ih => exact ih rfl
  | final _ ih => exact hev _ (ih hc) rfl
  | @pstop s x w ws t hr he ih =>
    have h1 := ih hc
    have hS : (stopSend sp s w t).2 = none ∧ (stopPersis sp s w t).1.tr = (stopSend sp s w t).1.tr := by
      simp only [stopPersis, andThen] at he ⊢
      cases hq : (stopSend sp s w t).2 with
      | some e => rw [hq] at he; simp at he
      | none => simp [modW_tr]
    rw [hS.2]
    have h2 := hS.1
    simp only [stopSend] at h2 ⊢
    cases hg : sp.finalGenSend with
    | false => simp only [Bool.false_eq_true, if_false]; exact hev _ h1 rfl
    | true =>
      simp only [hg, if_true] at h2 ⊢
      cases hk : checkOrder sp s (lastOrder s) w true with
      | some e => simp [hk] at h2
      | none =>
        simp only [hk, andThen] at h2 ⊢
        cases hq : (sendOrder sp s (lastOrder s) w t).2 with
        | some e => simp [hq] at h2
        | none =>
          simp only
          rcases sendOrder_cases (sp := sp) s (lastOrder s) w t with ⟨hne, _⟩ | ⟨k, wk', l0, l, hS', hok, _⟩
          · exact absurd hq hne
          · obtain ⟨o1, o2, o3⟩ := hok hq
            have har : wk'.tag = (lastOrder s).tag ∧ wk'.rows = (lastOrder s).rows := by rw [hS'.order]; exact ⟨rfl, rfl⟩
            refine hev _ ?_ rfl
            show Whole (sendOrder sp s (lastOrder s) w t).1.tr
            rw [hS'.tr]
            refine Whole.order h1 ?_ (by rw [har.1]; exact o1) ?_
            · rcases hS'.before with rfl | ⟨team, rfl, _⟩ <;> simp [plainEv]
            · rw [har.2]
              by_cases hr0 : (lastOrder s).rows = []
              · exact .inl ⟨hr0, o3 hr0⟩
              · rcases hS'.after with h | ⟨vals, h, _⟩
                · exact absurd h (o2 hr0).1
                · exact .inr ⟨hr0, vals, h⟩
  | pstopErr t _ _ ih => simp [Ph.clean] at hc
  | drain _ ih => exact ih hc
  | dmail w m t _ _ _ ih => exact hmsg (ih hc)
  | dmailErr w m t _ _ _ ih => simp [Ph.clean] at hc
  | dsave _ ih => exact hsave (ih hc)
  | @done s x p _ ih =>
    have h2 : Whole (killWorkers (saveK sp s sp.saveDone)).tr :=
      Whole.micros (micros_killWorkers (sp := sp) _) (hsave (b := sp.saveDone) (ih hc)) (fun e h => by obtain ⟨w, rfl⟩ := h; rfl)
    exact h2

/-- What is sent to a worker in a run without errors. -/
theorem framed_run (c : Start) (its : List Iter) (t : Nat → Int) (rounds : List Round) (hc : (c.loop its).2.clean = true)
    (hnr : ∀ e, (c.run its t rounds).2 ≠ .raisedFinal e) (w : Nat) : Worker.Framed (sentTo w (c.run its t rounds).1.tr) := by
  obtain ⟨p, hp, hr⟩ := clean_reach c its t rounds hc hnr
  have h := hr.whole start_tr hp w
  unfold Worker.Framed; rw [h]; simp

end Verif.Manager
