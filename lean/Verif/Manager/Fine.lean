import Verif.Manager.BundledSims
import Verif.Manager.HeldRun
/-
As long as nothing has been raised, the history is that of a sequence of updates without error: what is proved about
such sequences (`Verif.History.Props`) holds in the run.
-/
namespace Verif.Manager
open Verif.History Verif.Res Verif.Sched Verif.Alloc

variable {sp : Specs} {P : St → Reply → Prop} {s0 : St}

/-- The updates recorded so far went through one after the other and gave the present history. -/
def Fine (h0 : Hist) (s : St) : Prop := History.run h0 (opsOf s.tr) = (s.hist, none)

theorem hrun_append (h : Hist) (a b : List Op) : History.run h (a ++ b) =
    if (History.run h a).2 = none then History.run (History.run h a).1 b else History.run h a := by
  induction a generalizing h with
  | nil => simp [History.run]
  | cons o a ih =>
    have key : ∀ l : List Op, History.run h (o :: l) =
        if (apply h o).2 = none then History.run (apply h o).1 l else apply h o := by
      intro l
      simp only [History.run]
      split <;> rename_i hx <;> rw [hx] <;> simp
    rw [List.cons_append, key, key]
    by_cases hn : (apply h o).2 = none
    · simp only [hn, if_true]; exact ih _
    · simp [hn]

theorem Fine.op {h0 : Hist} {s : St} (h : Fine h0 s) (o : Op) (hok : (doOp s o).2 = none) : Fine h0 (doOp s o).1 := by
  simp only [Fine, doOp, Option.map_eq_none_iff] at *
  rw [opsOf_cons]
  simp only
  rw [hrun_append, h]
  simp only [if_true, History.run]
  generalize apply s.hist o = x at *
  obtain ⟨h', e⟩ := x
  simp only at hok
  subst hok
  rfl

theorem Fine.same {h0 : Hist} {s s' : St} (h : Fine h0 s) (h1 : s'.hist = s.hist) (h2 : opsOf s'.tr = opsOf s.tr) : Fine h0 s' := by
  simp only [Fine, h1, h2] at *; exact h

theorem Fine.mod {h0 : Hist} {s : St} (h : Fine h0 s) (w : Nat) (f : Wrk → Wrk) : Fine h0 (modW sp s w f) :=
  h.same (modW_hist ..) (by rw [modW_tr])

theorem opsOf_none {l tr : List Ev} (h : ∀ e ∈ l, ∀ o, e ≠ .op o) : opsOf (l ++ tr) = opsOf tr := by
  rw [opsOf_append]
  have : opsOf l = [] := by
    simp only [opsOf, List.filterMap_eq_nil_iff, List.mem_reverse]
    intro e he
    have := h e he
    cases e with
    | op o => exact absurd rfl (this o)
    | _ => rfl
  rw [this, List.append_nil]

/-- Steps that only make updates that cannot fail. -/
theorem Micros.fine {Q : Ev → Prop} {h0 : Hist} {a b : St} (h : Micros sp Q a b) (ha : Fine h0 a)
    (hq : ∀ o, Q (.op o) → ∀ h, (apply h o).2 = none) : Fine h0 b := by
  refine Micros.inv (I := Fine h0) (fun a b m ha => ?_) h ha
  cases m with
  | ev e _ _ _ _ =>
    refine ha.same rfl (opsOf_none (l := [e]) ?_)
    intro e' he' o ho
    simp only [List.mem_singleton] at he'
    subst he' ho
    simp_all
  | op o hq' => exact ha.op o (by simp only [doOp]; rw [hq o hq']; rfl)
  | mod w f hid => exact ha.mod _ _
  | assign w team rm rm' h h' h3 => exact ha.same rfl (opsOf_none (l := [_]) (by simp))
  | free w rm h h2 => exact ha.same rfl (opsOf_none (l := [_]) (by simp))
  | exc => exact ha
  | pending l => exact ha
  | persisIn l => exact ha
  | simFiles l => exact ha
  | genFiles l => exact ha
  | pinfo p => exact ha

theorem Fine.freeup {h0 : Hist} {s : St} (h : Fine h0 s) (w : Nat) : Fine h0 (freeup s w) := by
  simp only [Manager.freeup]
  split
  · exact h
  · exact h.same rfl (opsOf_none (l := [_]) (by simp))

theorem Fine.quiet {h0 : Hist} {a b : St} (h : Fine h0 a) (hm : Micros sp (fun _ => False) a b) : Fine h0 b :=
  hm.fine h (fun _ h => h.elim)

theorem Fine.finishPersis {h0 : Hist} {s : St} (h : Fine h0 s) (w : Nat) : Fine h0 (finishPersis sp s w) := by
  simp only [Manager.finishPersis]
  refine Fine.freeup ?_ w
  split
  · refine Fine.mod ?_ _ _; exact Fine.same (h.mod w _) rfl rfl
  · exact h.mod w _

theorem Fine.updateOnMsg {h0 : Hist} {s : St} (h : Fine h0 s) (w : Nat) (d : Data) (t : Int)
    (hok : (updateOnMsg sp s w d t).2 = none) : Fine h0 (updateOnMsg sp s w d t).1 := by
  simp only [Manager.updateOnMsg] at hok ⊢
  have h1 : Fine h0 (markIdle sp s w d) := h.quiet (micros_markIdle s w d)
  generalize markIdle sp s w d = s1 at hok h1
  have hens : ∀ r, Fine h0 (ensureSimId sp s1 r) := fun r => h1.quiet (micros_ensureSimId s1 r)
  split
  · rename_i hf
    rw [if_pos hf] at hok
    obtain ⟨h2, h3⟩ := andThen_none hok
    rw [h3]
    refine Fine.finishPersis ?_ w
    simp only [finalData] at h2 ⊢
    cases ho : d.out with
    | arr r =>
      simp only [ho] at h2 ⊢
      split
      · rename_i hg; rw [if_pos hg] at h2; exact (hens r).op _ h2
      · rename_i hg
        rw [if_neg hg] at h2
        split
        · rename_i hg'; rw [if_pos hg'] at h2; exact h1.op _ h2
        · exact h1
    | none => exact h1
    | other => exact h1
  · rename_i hf
    rw [if_neg hf] at hok
    simp only [workData] at hok ⊢
    obtain ⟨h2, h3⟩ := andThen_none hok
    rw [h3]
    have h4 : Fine h0 (if d.calcType = EVAL_SIM then simData sp s1 d t
        else if d.calcType = EVAL_GEN then genData sp s1 w d t else (s1, none)).1 := by
      split
      · rename_i hs
        rw [if_pos hs] at h2
        simp only [simData] at h2 ⊢
        cases ho : d.out with
        | arr r => simp only [ho] at h2 ⊢; exact h1.op _ h2
        | none => simp only [ho] at h2 ⊢; exact h1.op _ h2
        | other =>
          simp only [ho] at h2 ⊢
          split
          · exact h1
          · rename_i hx; rw [if_neg hx] at h2; simp at h2
      · split
        · rename_i hs hg
          rw [if_neg hs, if_pos hg] at h2
          simp only [genData] at h2 ⊢
          cases ho : d.out with
          | arr r =>
            simp only [ho] at h2 ⊢
            obtain ⟨h5, h6⟩ := andThen_none h2
            have := (hens r).op _ h5
            rw [h6]
            split <;> exact this
          | none => exact h1
          | other => exact h1
        · exact h1
    generalize (if d.calcType = EVAL_SIM then simData sp s1 d t
        else if d.calcType = EVAL_GEN then genData sp s1 w d t else (s1, none)).1 = s2 at h4
    split
    · exact h4.mod _ _
    · exact h4.freeup w

theorem Fine.handleMsg {h0 : Hist} {s : St} (h : Fine h0 s) (w : Nat) (m : Msg) (t : Int)
    (hok : (handleMsg sp s w m t).2 = none) : Fine h0 (handleMsg sp s w m t).1 := by
  have h1 : Fine h0 (emit s (.recv w m)) := h.same rfl (opsOf_none (l := [_]) (by simp))
  simp only [Manager.handleMsg] at hok ⊢
  cases m with
  | finished => exact h1
  | log => exact h1
  | err =>
    simp only at hok ⊢
    split
    · exact h1.mod _ _
    · rename_i hx; rw [if_neg hx] at hok; simp at hok
  | data d => exact h1.updateOnMsg w d t hok

theorem Fine.sendOrder {h0 : Hist} {s : St} (h : Fine h0 s) (wk : Work) (w : Nat) (t : Int) :
    Fine h0 (sendOrder sp s wk w t).1 :=
  (micros_sendOrder s wk w t).fine h (fun _ h => by cases h)

theorem Fine.handOut {h0 : Hist} {s : St} (h : Fine h0 s) (wk : Work) (w : Nat) (t : Int)
    (hok : (handOut sp s wk w t).2 = none) : Fine h0 (handOut sp s wk w t).1 := by
  simp only [Manager.handOut] at hok ⊢
  cases hc : checkOrder sp s wk w false with
  | some e => simp [hc] at hok
  | none =>
    simp only [hc] at hok ⊢
    obtain ⟨h2, h3⟩ := andThen_none hok
    rw [h3] at hok ⊢
    have h4 := h.sendOrder (sp := sp) wk w t
    generalize (Manager.sendOrder sp s wk w t).1 = s1 at hok h4
    simp only [updateOnAlloc] at hok ⊢
    split
    · exact h4.mod _ _
    · rename_i hx
      rw [if_neg hx] at hok
      have h5 : Fine h0 (if wk.persistent = true then
          modW sp (modW sp s1 w fun x => { x with active := wk.tag }) w
            (fun x => { x with persis := wk.tag, activeRecv := x.activeRecv || wk.activeRecv.getD false })
        else modW sp s1 w fun x => { x with active := wk.tag }) := by
        split
        · exact (h4.mod _ _).mod _ _
        · exact h4.mod _ _
      generalize (if wk.persistent = true then
          modW sp (modW sp s1 w fun x => { x with active := wk.tag }) w
            (fun x => { x with persis := wk.tag, activeRecv := x.activeRecv || wk.activeRecv.getD false })
        else modW sp s1 w fun x => { x with active := wk.tag }) = s2 at hok h5
      split
      · rename_i hy; rw [if_pos hy] at hok; exact h5.op _ hok
      · rename_i hy
        rw [if_neg hy] at hok
        split
        · rename_i hz; rw [if_pos hz] at hok; exact h5.op _ hok
        · exact h5

theorem Fine.stopPersis {h0 : Hist} {s : St} (h : Fine h0 s) (w : Nat) (t : Int)
    (hok : (stopPersis sp s w t).2 = none) : Fine h0 (stopPersis sp s w t).1 := by
  simp only [Manager.stopPersis] at hok ⊢
  obtain ⟨h2, h3⟩ := andThen_none hok
  rw [h3]
  have h4 : Fine h0 (stopSend sp s w t).1 := by
    simp only [stopSend] at h2 ⊢
    split
    · rename_i hx
      rw [if_pos hx] at h2
      cases hc : checkOrder sp s (lastOrder s) w true with
      | some e => simp [hc] at h2
      | none =>
        simp only [hc] at h2 ⊢
        obtain ⟨h5, h6⟩ := andThen_none h2
        rw [h6] at h2 ⊢
        exact (h.sendOrder _ _ _).op _ h2
    · exact h.same rfl (opsOf_none (l := [_]) (by simp))
  exact Fine.same (h4.mod _ _) rfl rfl

theorem fine_requestCancel {h0 : Hist} {s : St} (h : Fine h0 s) (cs : List Nat) : Fine h0 (doOp s (.requestCancel cs)).1 :=
  h.op _ rfl

/-- As long as nothing has been raised, the history is the result of updates without error. -/
theorem Reach.fine {p : Ph} {s : St} (h : Reach sp P s0 p s) (h0 : s0.tr = []) (hp : p.fine = true) : Fine s0.hist s := by
  induction h with
  | init => simp only [Fine, h0]; rfl
  | test e _ _ ih => exact (ih rfl).same rfl (opsOf_none (l := [_]) (by simp))
  | stop e _ _ ih => exact (ih rfl).same rfl (opsOf_none (l := [_]) (by simp))
  | kill _ _ ih => exact (micros_killCancelled _).fine (ih rfl) (fun o h => by cases h; exact fun _ => rfl)
  | mail w m t _ _ he ih => exact (ih rfl).handleMsg w m t he
  | save _ ih => exact (ih rfl).quiet (micros_saveK _ _)
  | allocFlag cs work p _ _ ih => exact fine_requestCancel (ih rfl) cs
  | allocOk cs work p t _ _ ih => exact fine_requestCancel (ih rfl) cs
  | give _ _ he ih => exact (ih rfl).handOut _ _ _ he
  | again _ _ _ ih => exact ih rfl
  | final _ ih => exact (ih hp).same rfl (opsOf_none (l := [_]) (by simp))
  | pstop t _ he ih => exact (ih hp).stopPersis _ t he
  | drain _ ih => exact ih hp
  | dmail w m t _ _ he ih => exact (ih hp).handleMsg w m t he
  | dsave _ ih => exact (ih hp).quiet (micros_saveK _ _)
  | done p _ ih =>
    exact Fine.same ((micros_killWorkers (sp := sp) _).fine ((ih hp).quiet (micros_saveK _ _)) (fun o h => by obtain ⟨_, h⟩ := h; cases h)) rfl rfl
  | _ => simp [Ph.fine] at hp

end Verif.Manager
