import Verif.Manager.HeldRun
/-
The invariant about resource sets holds throughout a run with a bundled allocation function.
-/
namespace Verif.Manager
open Verif.History Verif.Res Verif.Sched Verif.Alloc

variable {sp : Specs} {P : St → Reply → Prop} {s0 : St}

/-- Events of one message. -/
theorem held_msgEvents {rm0 : RM} {s : St} (w : Nat) (m : Msg) (t : Int) (h : Always (HeldAt rm0) s.tr)
    (hs : hasFinal s.tr = false → Settled rm0 s.tr) : Always (HeldAt rm0) (handleMsg sp s w m t).1.tr := by
  have h1 : Always (HeldAt rm0) (.recv w m :: s.tr) := always_cons.mpr ⟨hs, h⟩
  rcases handleMsg_trace (sp := sp) s w m t with ⟨_, _, _, _, htr⟩ | ⟨_, _, _, l, htr, hl⟩
  · rw [htr]
    refine Always.append (l := ((ids s).map Ev.stop).reverse) (Always.append (l := [.exc]) h1 (by simp [HeldAt])) ?_
    intro e he pre
    simp only [List.mem_reverse, List.mem_map] at he
    obtain ⟨x, _, rfl⟩ := he
    trivial
  · rw [htr]
    exact Always.append h1 (fun e he pre => by rcases hl e he with ⟨_, rfl⟩ | ⟨_, rfl⟩ <;> trivial)

theorem quiet_save {rm0 : RM} {p p' : Ph} {s : St} {b : Bool} (h : Held rm0 p s) (hf : p'.fine = true → p.fine = true)
    (hg : p'.going = true → p.going = true) (hh : ∀ rest, p' ≠ .hand rest) : Held rm0 p' (saveK sp s b) := by
  obtain ⟨l, hl, hq⟩ := (micros_saveK (sp := sp) (Q := fun _ => False) s b).tr
  exact h.quiet hl (fun e he => (hq e he).elim) (fun _ e he => (hq e he).elim) (fun e he => (hq e he).elim) hf hg hh

theorem held_reach {c : Start} {P : St → Reply → Prop} {rm0 : RM} (h0 : c.rm = some rm0)
    (hfresh : ∀ i w : Nat, rm0.assigned[i]? ≠ some (some w)) (hlwf : ∀ rm, SameLayout rm rm0 → LWF rm)
    (hfgs : c.sp.finalGenSend = false)
    (hP : ∀ s cs work p, Reach c.sp P c.st .alloc s → P s (.ok cs work false p) → Scheduled c.sp s work)
    {p : Ph} {s : St} (h : Reach c.sp P c.st p s) : Sane s.tr → Held rm0 p s := by
  have hat : ∀ {p : Ph} {s : St}, Reach c.sp P c.st p s → s.rm = some (rmAt rm0 s.tr) := fun h => start_rmAt h0 h
  have hfin : ∀ {p : Ph} {s : St}, Reach c.sp P c.st p s → hasFinal s.tr = !p.main := fun h => h.hasFinal rfl
  have hvi : ∀ {p : Ph} {s : St}, Reach c.sp P c.st p s → p.clean = true → VI c.sp s :=
    fun h hc => (h.vi start_vi rfl rfl hc).1
  have hexc : ∀ {p : Ph} {s : St}, Reach c.sp P c.st p s → s.exc = hasExc s.tr := fun h => h.excOk rfl
  have sane : ∀ {Q : Ev → Prop} {a b : St}, Micros c.sp Q a b → Sane b.tr → Sane a.tr := by
    intro Q a b hm hs
    obtain ⟨l, hl, _⟩ := hm.tr
    rw [hl] at hs
    exact hs.suffix
  have kill : ∀ {p p' : Ph} {s : St}, Held rm0 p s → (p'.fine = true → p.fine = true) → (p'.going = true → p.going = true) →
      (∀ rest, p' ≠ .hand rest) → Held rm0 p' (killCancelled c.sp s).1 := by
    intro p p' s h hf hg hh
    obtain ⟨l, hl, hq⟩ := (micros_killCancelled (sp := c.sp) s).tr
    exact h.quiet hl (fun e he => by cases hq e he <;> rfl) (fun _ e he => by cases hq e he <;> rfl)
      (fun e he pre => by cases hq e he <;> trivial) hf hg hh
  have msg : ∀ {w : Nat} {m : Msg} {t : Int} {s : St}, Sane (handleMsg c.sp s w m t).1.tr →
      Sane s.tr ∧ ∀ d, m = .data d → d.persistent = true → d.calcType ≠ 0 := by
    intro w m t s hs
    refine ⟨sane (micros_handleMsg s w m t) hs, fun d hd hp => ?_⟩
    refine hs w d ?_ hp
    subst hd
    rcases handleMsg_trace (sp := c.sp) s w (.data d) t with ⟨_, _, _, _, htr⟩ | ⟨_, _, _, l, htr, _⟩ <;> rw [htr] <;> simp
  have fine_stop : ∀ {e : MErr}, (Ph.over (.raised e)).fine = true → False := fun h => by simp [Ph.fine] at h
  induction h with
  | init =>
    intro _
    refine ⟨fun _ i w => ?_, fun _ w => ⟨fun _ _ => rfl, fun h => by simp [start_tr, view] at h⟩, fun rest h => (by simp at h), Always.nil⟩
    rw [start_tr]
    simp only [rmAt, holds, List.not_mem_nil, iff_false]
    exact hfresh i w
  | @test s e hr he ih =>
    intro hs
    have hs' : Sane s.tr := Sane.suffix (l := [.test 0]) hs
    have h1 := ih hs'
    exact ⟨fun _ => Settled.still (l := [.test 0]) (h1.settled rfl) (by simp [still]),
      fun _ => IdleOk.still (l := [.test 0]) (h1.idle rfl) (by simp [still, neutral]), fun rest h => by simp at h,
      always_cons.mpr ⟨fun _ => h1.settled rfl, h1.events⟩⟩
  | @stop s e hr he ih =>
    intro hs
    have hs' : Sane s.tr := Sane.suffix (l := [.test (termTest c.sp s.hist e)]) hs
    have h1 := ih hs'
    exact ⟨fun _ => Settled.still (l := [.test (termTest c.sp s.hist e)]) (h1.settled rfl) (by simp [still]),
      fun h => by simp [Ph.going] at h, fun rest h => by simp at h, always_cons.mpr ⟨fun _ => h1.settled rfl, h1.events⟩⟩
  | kill hr he ih =>
    intro hs
    exact kill (ih (sane (micros_killCancelled _) hs)) (fun _ => rfl) (fun _ => rfl) (fun _ h => by simp at h)
  | killErr hr he ih =>
    intro hs
    exact kill (ih (sane (micros_killCancelled _) hs)) (fun h => (fine_stop h).elim) (fun h => by simp [Ph.going] at h) (fun _ h => by simp at h)
  | @mail s w m t hr hw he ih =>
    intro hs
    obtain ⟨hs', hm⟩ := msg hs
    have h1 := ih hs'
    have hx := hr.noExc rfl rfl (by simp)
    obtain ⟨k, hk, hid⟩ := (mem_ids (hvi hr rfl).tab).mp hw
    refine ⟨fun _ => (h1.settled rfl).msg (hat hr) he,
      fun _ => (h1.idle rfl).msg (hat hr) hx (by rw [← hexc hr]; exact hx) ⟨k, by rw [← hid]; exact wPos_idAt hk⟩ hm he,
      fun rest h => by simp at h, held_msgEvents w m t h1.events (fun _ => h1.settled rfl)⟩
  | @mailErr s e w m t hr hw he ih =>
    intro hs
    have h1 := ih (msg hs).1
    exact ⟨fun h => (fine_stop h).elim, fun h => by simp [Ph.going] at h, fun rest h => by simp at h,
      held_msgEvents w m t h1.events (fun _ => h1.settled rfl)⟩
  | save hr ih =>
    intro hs
    exact quiet_save (ih (sane (micros_saveK (Q := fun _ => False) _ _) hs)) (fun _ => rfl) (fun _ => rfl) (fun _ h => by simp at h)
  | @allocErr s cs hr hP ih =>
    intro hs
    have h1 := ih (Sane.suffix (l := [.op (.requestCancel cs)]) hs)
    exact h1.quiet (l := [.op (.requestCancel cs)]) rfl (by simp [still]) (by simp [neutral]) (by simp [HeldAt])
      (fun h => (fine_stop h).elim) (fun h => by simp [Ph.going] at h) (fun _ h => by simp at h)
  | @allocFlag s cs work p hr hP ih =>
    intro hs
    have h1 := ih (Sane.suffix (l := [.op (.requestCancel cs)]) hs)
    exact h1.quiet (l := [.op (.requestCancel cs)]) rfl (by simp [still]) (by simp [neutral]) (by simp [HeldAt])
      (fun h => rfl) (fun h => by simp [Ph.going] at h) (fun _ h => by simp at h)
  | @allocOk s cs work p t hr hPs ih =>
    intro hs
    have h1 := ih (Sane.suffix (l := [.op (.requestCancel cs)]) hs)
    have h2 : Held rm0 .loop ({ (doOp s (.requestCancel cs)).1 with pinfo := p } : St) :=
      h1.quiet (l := [.op (.requestCancel cs)]) rfl (by simp [still]) (by simp [neutral]) (by simp [HeldAt])
      (fun h => rfl) (fun h => rfl) (fun _ h => by simp at h)
    refine ⟨fun _ => h2.settled rfl, fun _ => h2.idle rfl, ?_, h2.events⟩
    intro rest hrest
    simp only [Ph.hand.injEq] at hrest
    subst hrest
    have h3 := answer_handOk (hat hr) (hlwf _ (rmAt_layout rm0 _)) (hvi hr rfl) (start_idsOk hr) (hP _ _ _ _ hr hPs) t
    have e1 : rmAt rm0 ({ (doOp s (.requestCancel cs)).1 with pinfo := p } : St).tr = rmAt rm0 s.tr := rfl
    have e2 : ∀ w, view w ({ (doOp s (.requestCancel cs)).1 with pinfo := p } : St).tr = view w s.tr :=
      fun w => view_neutral w [.op (.requestCancel cs)] s.tr (by simp [neutral])
    rw [e1]
    refine ⟨h3.nodup, h3.mem, fun x hx => ?_, h3.new⟩
    rw [e2]
    exact h3.team x hx
  | give hr hm he ih =>
    intro hs
    have h1 := ih (sane (micros_handOut _ _ _ _) hs)
    exact (h1.give (hvi hr rfl) (hfin hr) (hat hr)).2 he
  | giveErr hr hm he ih =>
    intro hs
    have h1 := ih (sane (micros_handOut _ _ _ _) hs)
    exact ⟨fun h => (fine_stop h).elim, fun h => by simp [Ph.going] at h, fun rest h => by simp at h,
      (h1.give (hvi hr rfl) (hfin hr) (hat hr)).1⟩
  | again hr _ _ ih =>
    intro hs
    exact (ih hs).quiet (l := []) rfl (by simp) (by simp) (by simp) (fun _ => rfl) (fun _ => rfl) (fun _ h => by simp at h)
  | noWork hr _ ih =>
    intro hs
    exact (ih hs).quiet (l := []) rfl (by simp) (by simp) (by simp) (fun _ => rfl) (fun _ => rfl) (fun _ h => by simp at h)
  | @final s x hr ih =>
    intro hs
    have h1 := ih (Sane.suffix (l := [.final]) hs)
    exact h1.quiet (l := [.final]) rfl (by simp [still]) (by simp [neutral]) (by simp [HeldAt])
      (fun h => h) (fun h => by simp [Ph.going] at h) (fun _ h => by simp at h)
  | @pstop s x w ws t hr he ih =>
    intro hs
    have h1 := ih (sane (micros_stopPersis _ _ _) hs)
    obtain ⟨l, hl, hq⟩ := (micros_stopPersis (sp := c.sp) s w t).tr
    have hq' : ∀ e ∈ l, e = .persisStop w := fun e he => by
      cases hq e he with
      | stop => rfl
      | send _ _ _ h => rw [hfgs] at h; cases h
      | gen _ _ h => rw [hfgs] at h; cases h
    exact h1.quiet hl (fun e he => by rw [hq' e he]; rfl) (fun h => by simp [Ph.going] at h) (fun e he pre => by rw [hq' e he]; trivial)
      (fun h => h) (fun h => by simp [Ph.going] at h) (fun _ h => by simp at h)
  | @pstopErr s x w ws t hr he ih =>
    intro hs
    have h1 := ih (sane (micros_stopPersis _ _ _) hs)
    obtain ⟨l, hl, hq⟩ := (micros_stopPersis (sp := c.sp) s w t).tr
    have hq' : ∀ e ∈ l, e = .persisStop w := fun e he => by
      cases hq e he with
      | stop => rfl
      | send _ _ _ h => rw [hfgs] at h; cases h
      | gen _ _ h => rw [hfgs] at h; cases h
    exact h1.quiet hl (fun e he => by rw [hq' e he]; rfl) (fun h => by simp [Ph.going] at h) (fun e he pre => by rw [hq' e he]; trivial)
      (fun h => by simp [Ph.fine] at h) (fun h => by simp [Ph.going] at h) (fun _ h => by simp at h)
  | drain hr ih =>
    intro hs
    exact (ih hs).quiet (l := []) rfl (by simp) (by simp) (by simp) (fun h => h) (fun h => by simp [Ph.going] at h) (fun _ h => by simp at h)
  | @dmail s x w m t hr hw he ih =>
    intro hs
    have h1 := ih (msg hs).1
    exact ⟨fun h => (h1.settled h).msg (hat hr) he, fun h => by simp [Ph.going] at h, fun rest h => by simp at h,
      held_msgEvents w m t h1.events (fun h => by rw [hfin hr] at h; simp [Ph.main] at h)⟩
  | @dmailErr s x w m t hr hw he ih =>
    intro hs
    have h1 := ih (msg hs).1
    exact ⟨fun h => by simp [Ph.fine] at h, fun h => by simp [Ph.going] at h, fun rest h => by simp at h,
      held_msgEvents w m t h1.events (fun h => by rw [hfin hr] at h; simp [Ph.main] at h)⟩
  | dsave hr ih =>
    intro hs
    exact quiet_save (ih (sane (micros_saveK (Q := fun _ => False) _ _) hs)) (fun h => h) (fun h => by simp [Ph.going] at h) (fun _ h => by simp at h)
  | @done s x p hr ih =>
    intro hs
    have hs1 : Sane (saveK c.sp s c.sp.saveDone).tr := sane (micros_killWorkers _) hs
    have h1 := ih (sane (micros_saveK (Q := fun _ => False) _ _) hs1)
    have h2 : Held rm0 (.drain x) (saveK c.sp s c.sp.saveDone) := quiet_save h1 (fun h => h) (fun h => h) (fun _ h => by simp at h)
    obtain ⟨l, hl, hq⟩ := (micros_killWorkers (sp := c.sp) (saveK c.sp s c.sp.saveDone)).tr
    exact h2.quiet hl (fun e he => by obtain ⟨w, rfl⟩ := hq e he; rfl) (fun h => by simp [Ph.going] at h)
      (fun e he pre => by obtain ⟨w, rfl⟩ := hq e he; trivial) (fun h => h) (fun h => by simp [Ph.going] at h) (fun _ h => by simp at h)

/-- Nobody holds a set that somebody else holds, and all sets held exist. -/
def Apart (n : Nat) (tr : List Ev) : Prop := ∀ i w, i ∈ holds w tr → i < n ∧ ∀ w', i ∈ holds w' tr → w' = w

theorem apart_always {rm0 : RM} (hl : ∀ tr, (rmAt rm0 tr).assigned.length = rm0.rsets.length) {tr : List Ev} (h : Always (HeldAt rm0) tr) :
    Apart rm0.rsets.length tr := by
  have hs : ∀ tr, Settled rm0 tr → Apart rm0.rsets.length tr := by
    intro tr hs i w hi
    refine ⟨?_, fun w' hi' => hs.disjoint hi' hi⟩
    have := (hs i w).mpr hi
    rw [← hl tr]
    exact (List.getElem?_eq_some_iff.mp this).1
  induction tr with
  | nil => intro i w hi; simp [holds] at hi
  | cons e tr ih =>
    obtain ⟨h1, h2⟩ := always_cons.mp h
    have h3 := ih h2
    have hsub : (∀ w i, i ∈ holds w (e :: tr) → i ∈ holds w tr) → Apart rm0.rsets.length (e :: tr) :=
      fun hsub i w hi => ⟨(h3 i w (hsub w i hi)).1, fun w' hi' => (h3 i w (hsub w i hi)).2 w' (hsub w' i hi')⟩
    cases e with
    | order to key wk => exact hs _ h1.2.2.2
    | recv w m =>
      apply hsub
      cases m with
      | data d =>
        intro w' i hi
        simp only [holds] at hi
        split at hi
        · simp at hi
        · exact hi
      | _ => exact fun w i hi => hi
    | _ => exact hsub (fun w i hi => hi)

end Verif.Manager
