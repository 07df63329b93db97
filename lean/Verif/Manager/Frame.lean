import Verif.Manager.Start
/-
What the functions of the manager leave alone: the checkpoint files and `persis_info`.
-/
namespace Verif.Manager
open Verif.History Verif.Res Verif.Sched Verif.Alloc

variable {sp : Specs}

/-- The files and `persis_info` are the same. -/
def Kept (a b : St) : Prop := b.simFiles = a.simFiles ∧ b.genFiles = a.genFiles ∧ b.pinfo = a.pinfo

theorem Kept.refl (a : St) : Kept a a := ⟨rfl, rfl, rfl⟩
theorem Kept.trans {a b c : St} (h : Kept a b) (h' : Kept b c) : Kept a c :=
  ⟨h'.1.trans h.1, h'.2.1.trans h.2.1, h'.2.2.trans h.2.2⟩

theorem kept_modW (s : St) (w : Nat) (f : Wrk → Wrk) : Kept s (modW sp s w f) := by
  simp only [modW]; split <;> exact ⟨rfl, rfl, rfl⟩
theorem kept_doOp (s : St) (o : Op) : Kept s (doOp s o).1 := ⟨rfl, rfl, rfl⟩
theorem kept_emit (s : St) (e : Ev) : Kept s (emit s e) := ⟨rfl, rfl, rfl⟩
theorem kept_andThen {s : St} {r : R} {f : St → R} (h : Kept s r.1) (hf : ∀ s', Kept s' (f s').1) :
    Kept s (andThen r f).1 := by
  simp only [andThen]
  split
  · exact h
  · exact h.trans (hf _)
theorem kept_killWorkers (s : St) : Kept s (killWorkers s) := by
  have : ∀ (l : List Nat) (s : St), Kept s (l.foldl (fun s w => emit s (.stop w)) s) := by
    intro l
    induction l with
    | nil => exact fun s => .refl s
    | cons w l ih => exact fun s => (kept_emit s (.stop w)).trans (ih _)
  exact this _ _
theorem kept_setResources (s : St) (wk : Work) (w : Nat) : Kept s (setResources sp s wk w).1 := by
  simp only [setResources]
  split
  · exact .refl s
  · split
    · exact .refl s
    · split <;> exact ⟨rfl, rfl, rfl⟩
theorem kept_sendRows (s : St) (wk : Work) (w k : Nat) (t : Int) : Kept s (sendRows sp s wk w k t).1 := by
  simp only [sendRows]
  have h : Kept s (if wk.tag = EVAL_GEN then modW sp s w (fun x => { x with genStarted := t }) else s) := by
    split
    · exact kept_modW ..
    · exact .refl s
  generalize (if wk.tag = EVAL_GEN then modW sp s w (fun x => { x with genStarted := t }) else s) = s1 at h
  split
  · exact h
  · split
    · exact h
    · split
      · exact h
      · split <;> exact h
theorem kept_sendOrder (s : St) (wk : Work) (w : Nat) (t : Int) : Kept s (sendOrder sp s wk w t).1 := by
  have h := kept_setResources (sp := sp) s wk w
  simp only [sendOrder]
  generalize setResources sp s wk w = x at h
  obtain ⟨s1, wk1, e⟩ := x
  cases e with
  | some e => exact h
  | none =>
    simp only
    split
    · exact h
    · exact (h.trans (kept_emit _ _)).trans (kept_sendRows ..)
theorem kept_updateOnAlloc (s : St) (wk : Work) (w : Nat) (t : Int) : Kept s (updateOnAlloc sp s wk w t).1 := by
  simp only [updateOnAlloc]
  have h := kept_modW (sp := sp) s w (fun x => { x with active := wk.tag })
  generalize modW sp s w (fun x => { x with active := wk.tag }) = s1 at h
  split
  · exact h
  · have h2 : Kept s (if wk.persistent = true then
        modW sp s1 w (fun x => { x with persis := wk.tag, activeRecv := x.activeRecv || wk.activeRecv.getD false }) else s1) := by
      split
      · exact h.trans (kept_modW ..)
      · exact h
    generalize (if wk.persistent = true then
        modW sp s1 w (fun x => { x with persis := wk.tag, activeRecv := x.activeRecv || wk.activeRecv.getD false }) else s1) = s2 at h2
    split
    · exact h2.trans (kept_doOp ..)
    · split
      · exact h2.trans (kept_doOp ..)
      · exact h2
theorem kept_handOut (s : St) (wk : Work) (w : Nat) (t : Int) : Kept s (handOut sp s wk w t).1 := by
  simp only [handOut]
  split
  · exact .refl s
  · exact kept_andThen (kept_sendOrder ..) (fun s => kept_updateOnAlloc ..)
theorem kept_freeup (s : St) (w : Nat) : Kept s (freeup s w) := by
  simp only [freeup]; split <;> exact ⟨rfl, rfl, rfl⟩
theorem kept_ensureSimId (s : St) (d : Rec) : Kept s (ensureSimId sp s d) := by
  simp only [ensureSimId]; split <;> exact ⟨rfl, rfl, rfl⟩
theorem kept_markIdle (s : St) (w : Nat) (d : Data) : Kept s (markIdle sp s w d) := by
  simp only [markIdle]; split
  · exact kept_modW ..
  · exact .refl s
theorem kept_finalData (s : St) (w : Nat) (d : Data) (t : Int) : Kept s (finalData sp s w d t).1 := by
  simp only [finalData]
  split
  · split
    · exact (kept_ensureSimId s _).trans (kept_doOp ..)
    · split
      · exact kept_doOp ..
      · exact .refl s
  · exact .refl s
theorem kept_finishPersis (s : St) (w : Nat) : Kept s (finishPersis sp s w) := by
  simp only [finishPersis]
  refine Kept.trans ?_ (kept_freeup _ _)
  have h := kept_modW (sp := sp) s w (fun x => if x.activeRecv then { x with persis := 0, active := 0, activeRecv := false }
    else { x with persis := 0 })
  generalize modW sp s w (fun x => if x.activeRecv then { x with persis := 0, active := 0, activeRecv := false }
    else { x with persis := 0 }) = s1 at h
  split
  · refine h.trans ?_
    exact Kept.trans (b := { s1 with pending := s1.pending.erase w }) ⟨rfl, rfl, rfl⟩ (kept_modW ..)
  · exact h
theorem kept_excKill (s : St) : Kept s (killWorkers (emit { s with exc := true } .exc)) := by
  refine Kept.trans (b := emit { s with exc := true } .exc) ⟨rfl, rfl, rfl⟩ (kept_killWorkers _)
theorem kept_updateOnMsg (s : St) (w : Nat) (d : Data) (t : Int) : Kept s (updateOnMsg sp s w d t).1 := by
  simp only [updateOnMsg]
  refine (kept_markIdle (sp := sp) s w d).trans ?_
  generalize markIdle sp s w d = s1
  split
  · exact kept_andThen (kept_finalData ..) (fun s => kept_finishPersis s w)
  · simp only [workData]
    refine kept_andThen ?_ (fun s => ?_)
    · split
      · simp only [simData]
        split
        · split
          · exact .refl _
          · exact kept_excKill _
        · exact kept_doOp ..
        · exact kept_doOp ..
      · split
        · simp only [genData]
          split
          · refine kept_andThen ((kept_ensureSimId s1 _).trans (kept_doOp ..)) (fun s => ?_)
            split <;> exact .refl _
          · exact .refl _
        · exact .refl _
    · split
      · exact kept_modW ..
      · exact kept_freeup ..
theorem kept_handleMsg (s : St) (w : Nat) (m : Msg) (t : Int) : Kept s (handleMsg sp s w m t).1 := by
  simp only [handleMsg]
  refine (kept_emit s (.recv w m)).trans ?_
  generalize emit s (.recv w m) = s1
  cases m with
  | finished => exact .refl _
  | log => exact .refl _
  | err =>
    simp only
    refine (kept_modW (sp := sp) s1 w (fun x => { x with active := 0 })).trans ?_
    split
    · exact .refl _
    · exact kept_excKill _
  | data d => exact kept_updateOnMsg ..
theorem kept_killLoop (kids : List Nat) (l : List (Nat × Nat)) (s : St) : Kept s (killLoop sp kids l s).1 := by
  induction l generalizing s with
  | nil => exact .refl s
  | cons x l ih =>
    obtain ⟨i, w⟩ := x
    simp only [killLoop]
    split
    · exact .refl s
    · exact kept_andThen ((kept_emit ..).trans (kept_doOp ..)) ih
theorem kept_killCancelled (s : St) : Kept s (killCancelled sp s).1 := by
  simp only [killCancelled]
  split
  · split
    · exact .refl s
    · split
      · exact .refl s
      · exact kept_killLoop ..
  · exact .refl s
theorem kept_stopPersis (s : St) (w : Nat) (t : Int) : Kept s (stopPersis sp s w t).1 := by
  simp only [stopPersis]
  refine kept_andThen ?_ (fun s => ?_)
  · simp only [stopSend]
    split
    · split
      · exact .refl s
      · exact kept_andThen (kept_sendOrder ..) (fun s => kept_doOp ..)
    · exact kept_emit ..
  · have := kept_modW (sp := sp) s w (fun x => if x.active = 0 then { x with active := x.persis } else x)
    exact ⟨this.1, this.2.1, this.2.2⟩

end Verif.Manager
