import Verif.Manager.Bundled
/-
Apart from the call of the allocation function, nothing in the manager depends on `persis_info`.
-/
namespace Verif.Manager
open Verif.History Verif.Res Verif.Sched Verif.Alloc

variable {sp : Specs}

/-- The same state with another `persis_info`. -/
def St.withP (q : PInfo) (s : St) : St := { s with pinfo := q }

/-- The same for a result. -/
def rp {α : Type} (q : PInfo) (r : St × α) : St × α := (r.1.withP q, r.2)

variable (q : PInfo)

theorem withP_modW (s : St) (w : Nat) (f : Wrk → Wrk) : modW sp (s.withP q) w f = (modW sp s w f).withP q := by
  simp only [modW, St.withP]; split <;> rfl
theorem withP_getW (s : St) (w : Nat) : getW sp (s.withP q) w = getW sp s w := rfl
theorem withP_doOp (s : St) (o : Op) : doOp (s.withP q) o = rp q (doOp s o) := rfl
theorem withP_emit (s : St) (e : Ev) : emit (s.withP q) e = (emit s e).withP q := rfl
theorem withP_andThen {r : R} {f : St → R} (hf : ∀ s, f (s.withP q) = rp q (f s)) : andThen (rp q r) f = rp q (andThen r f) := by
  obtain ⟨s, e⟩ := r
  cases e with
  | some e => rfl
  | none => exact hf s
theorem withP_killWorkers (s : St) : killWorkers (s.withP q) = (killWorkers s).withP q := by
  have : ∀ (l : List Nat) (s : St), l.foldl (fun s w => emit s (.stop w)) (s.withP q) = (l.foldl (fun s w => emit s (.stop w)) s).withP q := by
    intro l
    induction l with
    | nil => exact fun s => rfl
    | cons w l ih => exact fun s => ih (emit s (.stop w))
  exact this _ _
theorem withP_saveK (s : St) (b : Bool) : saveK sp (s.withP q) b = (saveK sp s b).withP q := by
  simp only [saveK, St.withP]
  (repeat' split) <;> rfl
theorem withP_setResources (s : St) (wk : Work) (w : Nat) : setResources sp (s.withP q) wk w = rp q (setResources sp s wk w) := by
  simp only [setResources, St.withP, rp]
  split
  · rfl
  · split
    · rfl
    · split <;> rfl
theorem withP_sendRows (s : St) (wk : Work) (w k : Nat) (t : Int) : sendRows sp (s.withP q) wk w k t = rp q (sendRows sp s wk w k t) := by
  have h : (if wk.tag = EVAL_GEN then modW sp (s.withP q) w (fun x => { x with genStarted := t }) else s.withP q)
      = (if wk.tag = EVAL_GEN then modW sp s w (fun x => { x with genStarted := t }) else s).withP q := by
    split
    · exact withP_modW ..
    · rfl
  simp only [sendRows]
  rw [h]
  generalize (if wk.tag = EVAL_GEN then modW sp s w (fun x => { x with genStarted := t }) else s) = s1
  have h2 : (s1.withP q).hist = s1.hist := rfl
  rw [h2]
  (repeat' split) <;> rfl
theorem withP_sendOrder (s : St) (wk : Work) (w : Nat) (t : Int) : sendOrder sp (s.withP q) wk w t = rp q (sendOrder sp s wk w t) := by
  simp only [sendOrder]
  rw [withP_setResources]
  generalize setResources sp s wk w = x
  obtain ⟨s1, wk1, e⟩ := x
  cases e with
  | some e => rfl
  | none =>
    simp only [rp]
    have : (s1.withP q).W = s1.W := rfl
    rw [this]
    split
    · rfl
    · exact withP_sendRows q (emit s1 _) ..
theorem withP_updateOnAlloc (s : St) (wk : Work) (w : Nat) (t : Int) : updateOnAlloc sp (s.withP q) wk w t = rp q (updateOnAlloc sp s wk w t) := by
  simp only [updateOnAlloc]
  rw [withP_modW]
  generalize modW sp s w _ = s1
  split
  · rfl
  · have h : (if wk.persistent then modW sp (s1.withP q) w (fun x => { x with persis := wk.tag, activeRecv := x.activeRecv || wk.activeRecv.getD false }) else s1.withP q)
      = (if wk.persistent then modW sp s1 w (fun x => { x with persis := wk.tag, activeRecv := x.activeRecv || wk.activeRecv.getD false }) else s1).withP q := by
      split
      · exact withP_modW ..
      · rfl
    rw [h]
    generalize (if wk.persistent then modW sp s1 w (fun x => { x with persis := wk.tag, activeRecv := x.activeRecv || wk.activeRecv.getD false }) else s1) = s2
    (repeat' split) <;> rfl
theorem withP_handOut (s : St) (wk : Work) (w : Nat) (t : Int) : handOut sp (s.withP q) wk w t = rp q (handOut sp s wk w t) := by
  simp only [handOut]
  have : checkOrder sp (s.withP q) wk w false = checkOrder sp s wk w false := rfl
  rw [this]
  split
  · rfl
  · rw [withP_sendOrder]
    exact withP_andThen q fun s => withP_updateOnAlloc q s wk w t
theorem withP_handOutAll (l : List (Nat × Work × Int)) : ∀ s : St, handOutAll sp l (s.withP q) = rp q (handOutAll sp l s) := by
  induction l with
  | nil => exact fun s => rfl
  | cons x l ih =>
    obtain ⟨w, wk, t⟩ := x
    intro s
    simp only [handOutAll]
    have : (s.withP q).hist = s.hist := rfl
    rw [this, withP_handOut]
    split
    · rfl
    · exact withP_andThen q ih
theorem withP_freeup (s : St) (w : Nat) : freeup (s.withP q) w = (freeup s w).withP q := by
  simp only [freeup, St.withP]; split <;> rfl
theorem withP_ensureSimId (s : St) (d : Rec) : ensureSimId sp (s.withP q) d = (ensureSimId sp s d).withP q := by
  unfold ensureSimId
  have h : (s.withP q).persisIn = s.persisIn := rfl
  rw [h]
  split <;> rfl
theorem withP_markIdle (s : St) (w : Nat) (d : Data) : markIdle sp (s.withP q) w d = (markIdle sp s w d).withP q := by
  unfold markIdle
  rw [withP_modW]
  have h1 : (s.withP q).pending = s.pending := rfl
  have h2 : (s.withP q).exc = s.exc := rfl
  rw [h1, h2, withP_getW]
  split <;> rfl
theorem withP_finalData (s : St) (w : Nat) (d : Data) (t : Int) : finalData sp (s.withP q) w d t = rp q (finalData sp s w d t) := by
  simp only [finalData]
  split
  · rw [withP_ensureSimId]
    (repeat' split) <;> rfl
  · rfl
theorem withP_finishPersis (s : St) (w : Nat) : finishPersis sp (s.withP q) w = (finishPersis sp s w).withP q := by
  simp only [finishPersis]
  rw [withP_modW]
  generalize modW sp s w _ = s1
  have h : (if w ∈ (s1.withP q).pending then modW sp { s1.withP q with pending := (s1.withP q).pending.erase w } w (fun x => { x with active := 0 }) else s1.withP q)
      = (if w ∈ s1.pending then modW sp { s1 with pending := s1.pending.erase w } w (fun x => { x with active := 0 }) else s1).withP q := by
    have : (s1.withP q).pending = s1.pending := rfl
    rw [this]
    split
    · exact withP_modW q { s1 with pending := s1.pending.erase w } w _
    · rfl
  rw [h, withP_freeup]
theorem withP_simData (s : St) (d : Data) (t : Int) : simData sp (s.withP q) d t = rp q (simData sp s d t) := by
  simp only [simData]
  split
  · have : (s.withP q).exc = s.exc := rfl
    rw [this]
    split
    · rfl
    · have := withP_killWorkers q (emit { s with exc := true } .exc)
      simp only [rp]
      rw [← this]
      rfl
  · rfl
  · rfl
theorem withP_genData (s : St) (w : Nat) (d : Data) (t : Int) : genData sp (s.withP q) w d t = rp q (genData sp s w d t) := by
  simp only [genData]
  split
  · rw [withP_ensureSimId, withP_doOp]
    refine withP_andThen q fun s => ?_
    have h1 : anyActive (s.withP q) = anyActive s := rfl
    rw [h1, withP_getW]
    split <;> rfl
  · rfl
theorem withP_workData (s : St) (w : Nat) (d : Data) (t : Int) : workData sp (s.withP q) w d t = rp q (workData sp s w d t) := by
  simp only [workData]
  have h : (if d.calcType = EVAL_SIM then simData sp (s.withP q) d t else if d.calcType = EVAL_GEN then genData sp (s.withP q) w d t else (s.withP q, none))
      = rp q (if d.calcType = EVAL_SIM then simData sp s d t else if d.calcType = EVAL_GEN then genData sp s w d t else (s, none)) := by
    rw [withP_simData, withP_genData]
    (repeat' split) <;> rfl
  rw [h]
  refine withP_andThen q fun s => ?_
  rw [withP_modW, withP_freeup]
  split <;> rfl
theorem withP_updateOnMsg (s : St) (w : Nat) (d : Data) (t : Int) : updateOnMsg sp (s.withP q) w d t = rp q (updateOnMsg sp s w d t) := by
  simp only [updateOnMsg]
  rw [withP_markIdle, withP_finalData, withP_workData]
  split
  · refine withP_andThen q fun s => ?_
    rw [withP_finishPersis]
    rfl
  · rfl
theorem withP_handleMsg (s : St) (w : Nat) (m : Msg) (t : Int) : handleMsg sp (s.withP q) w m t = rp q (handleMsg sp s w m t) := by
  simp only [handleMsg]
  rw [withP_emit]
  cases m with
  | finished => rfl
  | err =>
    simp only []
    rw [withP_modW]
    generalize modW sp (emit s (Ev.recv w Msg.err)) w _ = s1
    have : (s1.withP q).exc = s1.exc := rfl
    rw [this]
    split
    · rfl
    · have := withP_killWorkers q (emit { s1 with exc := true } .exc)
      simp only [rp]
      rw [← this]
      rfl
  | log => rfl
  | data d => exact withP_updateOnMsg q _ w d t
theorem withP_handleAll (l : List Mail) : ∀ s : St, handleAll sp l (s.withP q) = rp q (handleAll sp l s) := by
  induction l with
  | nil => exact fun s => rfl
  | cons x l ih =>
    intro s
    simp only [handleAll]
    have : ids (s.withP q) = ids s := rfl
    rw [this, withP_handleMsg, ih]
    split
    · exact withP_andThen q ih
    · rfl
theorem withP_receive (s : St) (mail : List Mail) : receive sp (s.withP q) mail = rp q (receive sp s mail) := by
  simp only [receive]
  rw [withP_handleAll]
  refine withP_andThen q fun s => ?_
  rw [withP_saveK]
  rfl
theorem withP_killLoop (kids : List Nat) (l : List (Nat × Nat)) : ∀ s : St, killLoop sp kids l (s.withP q) = rp q (killLoop sp kids l s) := by
  induction l with
  | nil => exact fun s => rfl
  | cons x l ih =>
    intro s
    simp only [killLoop]
    have : (s.withP q).W = s.W := rfl
    rw [this]
    split
    · rfl
    · rw [withP_emit, withP_doOp]
      exact withP_andThen q ih
theorem withP_killCancelled (s : St) : killCancelled sp (s.withP q) = rp q (killCancelled sp s) := by
  simp only [killCancelled]
  have : (s.withP q).hist = s.hist := rfl
  rw [this]
  split
  · split
    · rfl
    · split
      · rfl
      · exact withP_killLoop q _ _ s
  · rfl
theorem withP_stopPersis (s : St) (w : Nat) (t : Int) : stopPersis sp (s.withP q) w t = rp q (stopPersis sp s w t) := by
  have h : stopSend sp (s.withP q) w t = rp q (stopSend sp s w t) := by
    simp only [stopSend]
    have h1 : lastOrder (s.withP q) = lastOrder s := rfl
    have h2 : checkOrder sp (s.withP q) (lastOrder s) w true = checkOrder sp s (lastOrder s) w true := rfl
    rw [h1, h2, withP_sendOrder]
    split
    · split
      · rfl
      · exact withP_andThen q fun s1 => rfl
    · rfl
  simp only [stopPersis]
  rw [h]
  refine withP_andThen q fun s => ?_
  rw [withP_modW]
  rfl
theorem withP_stopAllPersis (t : Nat → Int) (l : List Nat) : ∀ s : St, stopAllPersis sp t l (s.withP q) = rp q (stopAllPersis sp t l s) := by
  induction l with
  | nil => exact fun s => rfl
  | cons w l ih =>
    intro s
    simp only [stopAllPersis]
    rw [withP_stopPersis]
    exact withP_andThen q ih
theorem withP_drain (l : List Round) : ∀ s : St, drain sp l (s.withP q) = rp q (drain sp l s) := by
  induction l with
  | nil =>
    intro s
    simp only [drain]
    have h1 : anyActive (s.withP q) = anyActive s := rfl
    have h2 : anyPersis (s.withP q) = anyPersis s := rfl
    rw [h1, h2]
    split <;> rfl
  | cons r l ih =>
    intro s
    simp only [drain]
    have h1 : anyActive (s.withP q) = anyActive s := rfl
    have h2 : anyPersis (s.withP q) = anyPersis s := rfl
    rw [h1, h2, withP_receive]
    generalize receive sp s r.mail = x
    obtain ⟨s1, e⟩ := x
    split
    · cases e with
      | some e => rfl
      | none =>
        simp only [rp]
        have : exitFlag sp (s1.withP q) r.e = exitFlag sp s1 r.e := rfl
        rw [this]
        split
        · exact ih s1
        · rfl
    · rfl
theorem withP_finalPhase (s : St) (t : Nat → Int) (rounds : List Round) :
    finalPhase sp (s.withP q) t rounds = ((finalPhase sp s t rounds).1.withP
      (match (finalPhase sp s t rounds).2 with | .done _ => { q with numGensStarted := 0 } | _ => q), (finalPhase sp s t rounds).2) := by
  simp only [finalPhase]
  have : persisIds (s.withP q) = persisIds s := rfl
  rw [this, withP_stopAllPersis]
  generalize stopAllPersis sp t (persisIds s) s = x
  obtain ⟨s1, e⟩ := x
  cases e with
  | some e => rfl
  | none =>
    simp only [rp]
    rw [withP_drain]
    generalize drain sp rounds s1 = y
    obtain ⟨s2, r⟩ := y
    cases r with
    | error e => rfl
    | ok o =>
      cases o with
      | none => rfl
      | some f =>
        simp only [rp]
        rw [withP_saveK, withP_killWorkers]
        rfl

end Verif.Manager
