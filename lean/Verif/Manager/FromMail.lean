import Verif.Manager.Ckpt
/-
Messages in the record of the main loop are messages that arrived (helper for System/GensDemo.lean).
-/
namespace Verif.Manager
open Verif.History Verif.Res Verif.Sched Verif.Alloc

variable {sp : Specs}

/-- If the event is the receipt of a message, it is one of these. -/
def FromMail (mail : List Mail) (e : Ev) : Prop := ∀ w m, e = .recv w m → ∃ x ∈ mail, x.w = w ∧ x.m = m

theorem mail_handleAll (xs : List Mail) (s : St) {mail : List Mail} (h : ∀ x ∈ xs, x ∈ mail) : Micros sp (FromMail mail) s (handleAll sp xs s).1 := by
  induction xs generalizing s with
  | nil => exact .refl s
  | cons x xs ih =>
    simp only [handleAll]
    split
    · refine micros_andThen ((micros_handleMsg s x.w x.m x.t).mono (fun e he => ?_)) (fun _ => ih _ (fun y hy => h y (List.mem_cons_of_mem _ hy)))
      intro w m hw
      cases he <;> cases hw
      exact ⟨x, h x List.mem_cons_self, rfl, rfl⟩
    · exact ih s (fun y hy => h y (List.mem_cons_of_mem _ hy))

theorem mail_handOutAll (l : List (Nat × Work × Int)) (s : St) {mail : List Mail} : Micros sp (FromMail mail) s (handOutAll sp l s).1 := by
  induction l generalizing s with
  | nil => exact .refl s
  | cons x l ih =>
    obtain ⟨w, wk, t⟩ := x
    simp only [handOutAll]
    split
    · exact .refl s
    · refine micros_andThen ((micros_handOut s wk w t).mono (fun e he => ?_)) (fun _ => ih _)
      intro w' m hw
      subst hw
      cases he with
      | send h => cases h

theorem mail_iter (s : St) (it : Iter) : Micros sp (FromMail it.mail) s (iter sp s it).1 := by
  have h1 : Micros sp (FromMail it.mail) s (andThen (killCancelled sp s) (fun s => receive sp s it.mail)).1 := by
    refine micros_andThen ((micros_killCancelled s).mono (fun e he => ?_))
      (fun _ => micros_andThen (mail_handleAll it.mail _ fun _ h => h) (fun _ => micros_saveK _ _))
    intro w m hw
    subst hw
    cases he
  simp only [iter]
  generalize andThen (killCancelled sp s) (fun s => receive sp s it.mail) = x at h1
  obtain ⟨s1, e⟩ := x
  have hop : ∀ o, FromMail it.mail (.op o) := fun o w m h => by cases h
  cases e with
  | some e => exact h1
  | none =>
    simp only at h1 ⊢
    generalize it.alloc s1 = y
    cases y with
    | raised cs => exact h1.trans (micros_op s1 (.requestCancel cs) (hop _))
    | ok cs work flag p =>
      simp only
      have h2 : Micros sp (FromMail it.mail) s { (doOp s1 (.requestCancel cs)).1 with pinfo := p } :=
        (h1.trans (micros_op _ _ (hop _))).trans (Micro.pinfo _ p).one
      split
      · exact h2
      · simp only [afterAlloc]
        have h3 := h2.trans (mail_handOutAll (work.map fun p => (p.1, p.2, it.t p.1)) _)
        generalize handOutAll sp (work.map fun p => (p.1, p.2, it.t p.1)) { (doOp s1 (.requestCancel cs)).1 with pinfo := p } = z at h3
        obtain ⟨s2, e⟩ := z
        cases e with
        | some e => exact h3
        | none => simp only; split <;> exact h3

/-- What the main loop receives has arrived in one of its passes. -/
theorem mainLoop_mail (its : List Iter) (s : St) {w : Nat} {m : Msg} (h : .recv w m ∈ (mainLoop sp its s).1.tr) :
    .recv w m ∈ s.tr ∨ ∃ it ∈ its, ∃ x ∈ it.mail, x.w = w ∧ x.m = m := by
  induction its generalizing s with
  | nil => exact .inl h
  | cons it its ih =>
    simp only [mainLoop] at h
    split at h
    · simp only [emit, List.mem_cons, reduceCtorEq, false_or] at h
      exact .inl h
    · obtain ⟨l, hl, hq⟩ := (mail_iter (sp := sp) (emit s (.test (termTest sp s.hist it.e1))) it).tr
      generalize iter sp (emit s (.test (termTest sp s.hist it.e1))) it = x at hl h
      obtain ⟨s1, f⟩ := x
      have hl' : .recv w m ∈ s1.tr → .recv w m ∈ s.tr ∨ ∃ it' ∈ it :: its, ∃ x ∈ it'.mail, x.w = w ∧ x.m = m := by
        intro hm
        dsimp only at hl
        rw [hl] at hm
        rcases List.mem_append.mp hm with hm | hm
        · obtain ⟨x, hx, h1⟩ := hq _ hm w m rfl
          exact .inr ⟨it, List.mem_cons_self, x, hx, h1⟩
        · simp only [emit, List.mem_cons, reduceCtorEq, false_or] at hm
          exact .inl hm
      cases f with
      | next =>
        rcases ih s1 h with h | ⟨it', hit, hx⟩
        · exact hl' h
        · exact .inr ⟨it', List.mem_cons_of_mem _ hit, hx⟩
      | flagged => exact hl' h
      | raised e => exact hl' h

theorem mail_stopAll (t : Nat → Int) (ws : List Nat) (s : St) {mail : List Mail} : Micros sp (FromMail mail) s (stopAllPersis sp t ws s).1 := by
  induction ws generalizing s with
  | nil => exact .refl s
  | cons w ws ih =>
    simp only [stopAllPersis]
    refine micros_andThen ((micros_stopPersis s w (t w)).mono (fun e he => ?_)) (fun _ => ih _)
    intro w' m hw
    subst hw
    cases he <;> rename_i h <;> cases h

theorem mail_drain (rs : List Round) (s : St) : Micros sp (FromMail (rs.flatMap (·.mail))) s (drain sp rs s).1 := by
  induction rs generalizing s with
  | nil => simp only [drain]; split <;> exact .refl s
  | cons r rs ih =>
    simp only [drain]
    split
    · have h1 : Micros sp (FromMail ((r :: rs).flatMap (·.mail))) s (receive sp s r.mail).1 :=
        micros_andThen (mail_handleAll r.mail _ fun x h => by rw [List.flatMap_cons]; exact List.mem_append_left _ h) (fun _ => micros_saveK _ _)
      generalize receive sp s r.mail = y at h1
      obtain ⟨s1, e⟩ := y
      cases e with
      | some e => exact h1
      | none =>
        dsimp only at h1 ⊢
        split
        · refine h1.trans ((ih s1).mono fun e he w m hw => ?_)
          obtain ⟨x, hx, h2⟩ := he w m hw
          exact ⟨x, by rw [List.flatMap_cons]; exact List.mem_append_right _ hx, h2⟩
        · exact h1
    · exact .refl s

/-- What a whole run receives has arrived in one of its passes. -/
theorem run_mail (its : List Iter) (s : St) (t : Nat → Int) (rs : List Round) {w : Nat} {m : Msg} (h : .recv w m ∈ (run sp s its t rs).1.tr) :
    .recv w m ∈ s.tr ∨ (∃ it ∈ its, ∃ x ∈ it.mail, x.w = w ∧ x.m = m) ∨ ∃ x ∈ rs.flatMap (·.mail), x.w = w ∧ x.m = m := by
  have h0 := mainLoop_mail (sp := sp) its s (w := w) (m := m)
  have hfin : ∀ s1 : St, .recv w m ∈ (finalPhase sp (emit s1 .final) t rs).1.tr → .recv w m ∈ s1.tr ∨ ∃ x ∈ rs.flatMap (·.mail), x.w = w ∧ x.m = m := by
    intro s1 hm
    have hmic : Micros sp (FromMail (rs.flatMap (·.mail))) (emit s1 .final) (finalPhase sp (emit s1 .final) t rs).1 := by
      have h1 := mail_stopAll (sp := sp) t (persisIds (emit s1 .final)) (emit s1 .final) (mail := rs.flatMap (·.mail))
      simp only [finalPhase]
      generalize stopAllPersis sp t (persisIds (emit s1 .final)) (emit s1 .final) = y at h1
      obtain ⟨s2, e⟩ := y
      cases e with
      | some e => exact h1
      | none =>
        dsimp only at h1 ⊢
        have h2 := h1.trans (mail_drain (sp := sp) rs s2)
        generalize drain sp rs s2 = z at h2
        obtain ⟨s3, e⟩ := z
        cases e with
        | error e => exact h2
        | ok f =>
          cases f with
          | none => exact h2
          | some f =>
            dsimp only at h2 ⊢
            refine ((h2.trans (micros_saveK _ _)).trans ((micros_killWorkers _).mono fun e he => ?_)).trans (Micro.pinfo _ _).one
            obtain ⟨v, rfl⟩ := he
            nofun
    obtain ⟨l, hl, hq⟩ := hmic.tr
    rw [hl] at hm
    rcases List.mem_append.mp hm with hm | hm
    · exact .inr (hq _ hm w m rfl)
    · simp only [emit, List.mem_cons, reduceCtorEq, false_or] at hm
      exact .inl hm
  simp only [run] at h
  generalize mainLoop sp its s = y at h h0
  obtain ⟨s1, e⟩ := y
  have done : .recv w m ∈ s1.tr ∨ ∃ x ∈ rs.flatMap (·.mail), x.w = w ∧ x.m = m := by
    have h2 := hfin s1
    cases e with
    | running => exact .inl h
    | _ =>
      dsimp only at h
      generalize finalPhase sp (emit s1 .final) t rs = z at h h2
      obtain ⟨s2, x⟩ := z
      cases x <;> exact h2 h
  rcases done with h2 | h2
  · rcases h0 h2 with h3 | h3
    · exact .inl h3
    · exact .inr (.inl h3)
  · exact .inr (.inr h2)

end Verif.Manager
