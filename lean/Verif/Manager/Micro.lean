import Verif.Manager.Reach
/-
Every function of the manager model as a sequence of elementary changes of the state.
-/
namespace Verif.Manager
open Verif.History Verif.Res Verif.Sched Verif.Alloc

/-- Elementary changes; what is recorded satisfies `Q`. -/
inductive Micro (sp : Specs) (Q : Ev → Prop) : St → St → Prop
  | ev (s : St) (e : Ev) (h1 : ∀ o, e ≠ .op o) (h2 : ∀ k t, e ≠ .assign k t) (h3 : ∀ w, e ≠ .free w) (hq : Q e) :
      Micro sp Q s (emit s e)
  | op (s : St) (o : Op) (hq : Q (.op o)) : Micro sp Q s (doOp s o).1
  | mod (s : St) (w : Nat) (f : Wrk → Wrk) (hid : ∀ x, (f x).id = x.id ∧ (f x).genWorker = x.genWorker ∧ (f x).zrw = x.zrw) :
      Micro sp Q s (modW sp s w f)
  | assign (s : St) (w : Nat) (team : List Nat) (rm rm' : RM) (h : s.rm = some rm) (h' : assignRsets rm team w = some rm')
      (hq : Q (.assign w team)) : Micro sp Q s { s with rm := some rm', tr := .assign w team :: s.tr }
  | free (s : St) (w : Nat) (rm : RM) (h : s.rm = some rm) (hq : Q (.free w)) :
      Micro sp Q s { s with rm := some (freeRsets rm w), tr := .free w :: s.tr }
  | exc (s : St) : Micro sp Q s { s with exc := true }
  | pending (s : St) (l : List Nat) : Micro sp Q s { s with pending := l }
  | persisIn (s : St) (l : List Field) : Micro sp Q s { s with persisIn := l }
  | simFiles (s : St) (l) : Micro sp Q s { s with simFiles := l }
  | genFiles (s : St) (l) : Micro sp Q s { s with genFiles := l }
  | pinfo (s : St) (p : PInfo) : Micro sp Q s { s with pinfo := p }

/-- Sequences of elementary changes. -/
inductive Micros (sp : Specs) (Q : Ev → Prop) : St → St → Prop
  | refl (s : St) : Micros sp Q s s
  | tail {a b c : St} : Micros sp Q a b → Micro sp Q b c → Micros sp Q a c

variable {sp : Specs} {Q : Ev → Prop}

theorem Micros.trans {a b c : St} (h : Micros sp Q a b) (h' : Micros sp Q b c) : Micros sp Q a c := by
  induction h' with
  | refl => exact h
  | tail _ m ih => exact .tail ih m

theorem Micro.one {a b : St} (h : Micro sp Q a b) : Micros sp Q a b := .tail (.refl a) h

theorem Micro.mono {Q' : Ev → Prop} (hq : ∀ e, Q e → Q' e) {a b : St} (h : Micro sp Q a b) : Micro sp Q' a b := by
  cases h with
  | ev e h1 h2 h3 h => exact .ev _ e h1 h2 h3 (hq _ h)
  | op o h => exact .op _ o (hq _ h)
  | mod w f hid => exact .mod _ w f hid
  | assign w team rm rm' h h' h3 => exact .assign _ w team rm rm' h h' (hq _ h3)
  | free w rm h h2 => exact .free _ w rm h (hq _ h2)
  | exc => exact .exc _
  | pending l => exact .pending _ l
  | persisIn l => exact .persisIn _ l
  | simFiles l => exact .simFiles _ l
  | genFiles l => exact .genFiles _ l
  | pinfo p => exact .pinfo _ p

theorem Micros.mono {Q' : Ev → Prop} (hq : ∀ e, Q e → Q' e) {a b : St} (h : Micros sp Q a b) : Micros sp Q' a b := by
  induction h with
  | refl => exact .refl _
  | tail _ m ih => exact .tail ih (m.mono hq)

theorem Micros.inv {I : St → Prop} (hI : ∀ a b, Micro sp Q a b → I a → I b) {a b : St} (h : Micros sp Q a b) (h0 : I a) :
    I b := by
  induction h with
  | refl => exact h0
  | tail _ m ih => exact hI _ _ m ih

theorem micros_ev (s : St) (e : Ev) (h1 : ∀ o, e ≠ .op o) (h2 : ∀ k t, e ≠ .assign k t) (h3 : ∀ w, e ≠ .free w) (hq : Q e) :
    Micros sp Q s (emit s e) := (Micro.ev s e h1 h2 h3 hq).one

theorem micros_op (s : St) (o : Op) (hq : Q (.op o)) : Micros sp Q s (doOp s o).1 := (Micro.op s o hq).one

theorem micros_mod (s : St) (w : Nat) (f : Wrk → Wrk)
    (hid : ∀ x, (f x).id = x.id ∧ (f x).genWorker = x.genWorker ∧ (f x).zrw = x.zrw) : Micros sp Q s (modW sp s w f) :=
  (Micro.mod s w f hid).one

theorem micros_andThen {s : St} {r : R} {f : St → R} (h : Micros sp Q s r.1) (hf : r.2 = none → Micros sp Q r.1 (f r.1).1) :
    Micros sp Q s (andThen r f).1 := by
  simp only [andThen]
  split
  · exact h
  · rename_i he; exact h.trans (hf he)

/-- Finish signals. -/
def QFinish (e : Ev) : Prop := ∃ w, e = .stop w

theorem micros_killWorkers_aux (l : List Nat) (s : St) : Micros sp QFinish s (l.foldl (fun s w => emit s (.stop w)) s) := by
  induction l generalizing s with
  | nil => exact .refl s
  | cons w l ih => exact (micros_ev s (.stop w) (by simp) (by simp) (by simp) ⟨w, rfl⟩).trans (ih _)

theorem micros_killWorkers (s : St) : Micros sp QFinish s (killWorkers s) := micros_killWorkers_aux _ _

theorem micros_saveK (s : St) (b : Bool) : Micros sp Q s (saveK sp s b) := by
  simp only [saveK]
  have h1 : Micros sp Q s (if (given sp.kSims || b && !given sp.kGens) = true then
      { s with simFiles := saveEveryK s.simFiles (trimH s.hist) s.hist.simEndedCount (sp.kSims.getD 0) b } else s) := by
    split
    · exact (Micro.simFiles s _).one
    · exact .refl s
  refine h1.trans ?_
  generalize (if (given sp.kSims || b && !given sp.kGens) = true then
      { s with simFiles := saveEveryK s.simFiles (trimH s.hist) s.hist.simEndedCount (sp.kSims.getD 0) b } else s) = s1
  split
  · exact (Micro.genFiles s1 _).one
  · exact .refl s1

/-- What the hand-out of order `wk` to `w` records. -/
inductive QSend (wk : Work) (w : Nat) : Ev → Prop
  | assign (team) : QSend wk w (.assign w team)
  | order (to : Nat) (wk' : Work) (h : wk' = { wk with team := wk'.team }) : QSend wk w (.order to w wk')
  | rows (to vals) : QSend wk w (.rows to wk.rows vals)

theorem micros_setResources (s : St) (wk : Work) (w : Nat) : Micros sp (QSend wk w) s (setResources sp s wk w).1 := by
  simp only [setResources]
  split
  · exact .refl s
  · rename_i rm hrm
    split
    · exact .refl s
    · split
      · exact .refl s
      · rename_i hs
        exact (Micro.assign s w _ rm _ hrm hs (.assign _)).one

theorem setResources_wk (s : St) (wk : Work) (w : Nat) :
    (setResources sp s wk w).2.1 = { wk with team := (setResources sp s wk w).2.1.team } := by
  simp only [setResources]
  repeat' split
  all_goals rfl

theorem micros_sendRows (s : St) (wk wk' : Work) (w k : Nat) (t : Int) (h : wk' = { wk with team := wk'.team }) :
    Micros sp (QSend wk w) s (sendRows sp s wk' w k t).1 := by
  simp only [sendRows]
  have h1 : Micros sp (QSend wk w) s (if wk'.tag = EVAL_GEN then modW sp s w (fun x => { x with genStarted := t }) else s) := by
    split
    · exact micros_mod _ _ _ (fun x => ⟨rfl, rfl, rfl⟩)
    · exact .refl s
  refine h1.trans ?_
  have hr : wk'.rows = wk.rows := by rw [h]
  generalize (if wk'.tag = EVAL_GEN then modW sp s w (fun x => { x with genStarted := t }) else s) = s1
  repeat' split
  all_goals first
    | exact .refl _
    | exact micros_ev _ _ (by simp) (by simp) (by simp) (by rw [hr]; exact .rows _ _)

theorem micros_sendOrder (s : St) (wk : Work) (w : Nat) (t : Int) : Micros sp (QSend wk w) s (sendOrder sp s wk w t).1 := by
  have h := micros_setResources (sp := sp) s wk w
  have hwk := setResources_wk (sp := sp) s wk w
  simp only [sendOrder]
  generalize setResources sp s wk w = x at h hwk
  obtain ⟨s1, wk1, e⟩ := x
  cases e with
  | some e => exact h
  | none =>
    simp only
    split
    · exact h
    · exact h.trans ((micros_ev _ _ (by simp) (by simp) (by simp) (.order _ _ hwk)).trans (micros_sendRows _ _ _ _ _ _ hwk))

/-- What the hand-out of order `wk` to `w` in the main loop records. -/
inductive QGive (sp : Specs) (wk : Work) (w : Nat) (t : Int) : Ev → Prop
  | send {e} (h : QSend wk w e) : QGive sp wk w t e
  | sim (h : wk.tag = EVAL_SIM) : QGive sp wk w t (.op (.giveSim wk.rows w t sp.kill))
  | gen (h : wk.tag = EVAL_GEN) : QGive sp wk w t (.op (.giveGen wk.rows t))

theorem micros_updateOnAlloc (s : St) (wk : Work) (w : Nat) (t : Int) :
    Micros sp (QGive sp wk w t) s (updateOnAlloc sp s wk w t).1 := by
  simp only [updateOnAlloc]
  refine (micros_mod s w (fun x => { x with active := wk.tag }) (fun x => ⟨rfl, rfl, rfl⟩)).trans ?_
  generalize modW sp s w (fun x => { x with active := wk.tag }) = s1
  split
  · exact .refl s1
  · have h2 : Micros sp (QGive sp wk w t) s1 (if wk.persistent = true then
        modW sp s1 w (fun x => { x with persis := wk.tag, activeRecv := x.activeRecv || wk.activeRecv.getD false }) else s1) := by
      split
      · exact micros_mod _ _ _ (fun x => ⟨rfl, rfl, rfl⟩)
      · exact .refl s1
    refine h2.trans ?_
    generalize (if wk.persistent = true then
        modW sp s1 w (fun x => { x with persis := wk.tag, activeRecv := x.activeRecv || wk.activeRecv.getD false }) else s1) = s2
    split
    · rename_i h; exact micros_op _ _ (.sim h)
    · split
      · rename_i h; exact micros_op _ _ (.gen h)
      · exact .refl _

theorem micros_handOut (s : St) (wk : Work) (w : Nat) (t : Int) :
    Micros sp (QGive sp wk w t) s (handOut sp s wk w t).1 := by
  simp only [handOut]
  split
  · exact .refl s
  · exact micros_andThen ((micros_sendOrder _ _ _ _).mono fun _ => .send) (fun _ => micros_updateOnAlloc _ _ _ _)

/-- What the handling of message `m` of worker `w` records. -/
inductive QMsg (sp : Specs) (w : Nat) (m : Msg) : Ev → Prop
  | recv : QMsg sp w m (.recv w m)
  | free : QMsg sp w m (.free w)
  | exc : QMsg sp w m .exc
  | stop (w' : Nat) : QMsg sp w m (.stop w')
  | sim (d : Data) (r : Option Rec) (t : Int) (hm : m = .data d)
      (hc : d.calcType = EVAL_SIM ∨ d.calcStatus = FINISHED_PERSISTENT_SIM) : QMsg sp w m (.op (.simReturn d.rows r t sp.kill))
  | gen (d : Data) (r : Rec) (ts t : Int) (hm : m = .data d) (ho : d.out = .arr r) : QMsg sp w m (.op (.genReturn w r ts t))

theorem micros_freeup {m : Msg} (s : St) (w : Nat) : Micros sp (QMsg sp w m) s (freeup s w) := by
  simp only [freeup]
  split
  · exact .refl s
  · rename_i rm h; exact (Micro.free s w rm h .free).one

theorem micros_ensureSimId (s : St) (d : Rec) : Micros sp Q s (ensureSimId sp s d) := by
  simp only [ensureSimId]
  split
  · exact (Micro.persisIn s _).one
  · exact .refl s

theorem micros_markIdle (s : St) (w : Nat) (d : Data) : Micros sp Q s (markIdle sp s w d) := by
  simp only [markIdle]
  split
  · exact micros_mod _ _ _ (fun x => ⟨rfl, rfl, rfl⟩)
  · exact .refl s

theorem micros_finalData (s : St) (w : Nat) (d : Data) (t : Int) :
    Micros sp (QMsg sp w (.data d)) s (finalData sp s w d t).1 := by
  simp only [finalData]
  split
  · rename_i r hr
    split
    · exact (micros_ensureSimId _ _).trans (micros_op _ _ (.gen d r _ _ rfl hr))
    · split
      · rename_i h; exact micros_op _ _ (.sim d _ _ rfl (.inr h.1))
      · exact .refl s
  · exact .refl s

theorem micros_finishPersis {m : Msg} (s : St) (w : Nat) : Micros sp (QMsg sp w m) s (finishPersis sp s w) := by
  simp only [finishPersis]
  refine (micros_mod s w (fun x => if x.activeRecv then { x with persis := 0, active := 0, activeRecv := false }
    else { x with persis := 0 }) (fun x => by split <;> exact ⟨rfl, rfl, rfl⟩)).trans ?_
  generalize modW sp s w (fun x => if x.activeRecv then { x with persis := 0, active := 0, activeRecv := false }
    else { x with persis := 0 }) = s1
  refine Micros.trans (b := if w ∈ s1.pending then
      modW sp { s1 with pending := s1.pending.erase w } w (fun x => { x with active := 0 }) else s1) ?_ (micros_freeup _ _)
  split
  · exact (Micro.pending s1 _).one.trans (micros_mod _ _ _ (fun x => ⟨rfl, rfl, rfl⟩))
  · exact .refl s1

theorem micros_raise {w : Nat} {m : Msg} (s : St) :
    Micros sp (QMsg sp w m) s (killWorkers (emit { s with exc := true } .exc)) :=
  (Micro.exc s).one.trans ((micros_ev _ _ (by simp) (by simp) (by simp) .exc).trans
    ((micros_killWorkers _).mono fun _ ⟨w', h⟩ => h ▸ .stop w'))

theorem micros_simData {w : Nat} (s : St) (d : Data) (t : Int) (hc : d.calcType = EVAL_SIM) :
    Micros sp (QMsg sp w (.data d)) s (simData sp s d t).1 := by
  simp only [simData]
  split
  · split
    · exact .refl s
    · exact micros_raise s
  · exact micros_op _ _ (.sim d _ _ rfl (.inl hc))
  · exact micros_op _ _ (.sim d _ _ rfl (.inl hc))

theorem micros_genData (s : St) (w : Nat) (d : Data) (t : Int) :
    Micros sp (QMsg sp w (.data d)) s (genData sp s w d t).1 := by
  simp only [genData]
  split
  · rename_i r hr
    refine micros_andThen ((micros_ensureSimId _ _).trans (micros_op _ _ (.gen d r _ _ rfl hr))) (fun _ => ?_)
    split <;> exact .refl _
  · exact .refl s

theorem micros_workData (s : St) (w : Nat) (d : Data) (t : Int) :
    Micros sp (QMsg sp w (.data d)) s (workData sp s w d t).1 := by
  simp only [workData]
  refine micros_andThen ?_ (fun _ => ?_)
  · split
    · rename_i h; exact micros_simData _ _ _ h
    · split
      · exact micros_genData _ _ _ _
      · exact .refl s
  · cases d.persistent
    · exact micros_freeup _ _
    · exact micros_mod _ _ _ (fun x => ⟨rfl, rfl, rfl⟩)

theorem micros_updateOnMsg (s : St) (w : Nat) (d : Data) (t : Int) :
    Micros sp (QMsg sp w (.data d)) s (updateOnMsg sp s w d t).1 := by
  simp only [updateOnMsg]
  refine (micros_markIdle s w d).trans ?_
  generalize markIdle sp s w d = s1
  split
  · exact micros_andThen (micros_finalData _ _ _ _) (fun _ => micros_finishPersis _ _)
  · exact micros_workData _ _ _ _

theorem micros_handleMsg (s : St) (w : Nat) (m : Msg) (t : Int) : Micros sp (QMsg sp w m) s (handleMsg sp s w m t).1 := by
  simp only [handleMsg]
  refine (micros_ev s (.recv w m) (by simp) (by simp) (by simp) .recv).trans ?_
  generalize emit s (.recv w m) = s1
  split
  · exact .refl _
  · have h := micros_mod (sp := sp) (Q := QMsg sp w .err) s1 w (fun x => { x with active := 0 }) (fun x => ⟨rfl, rfl, rfl⟩)
    refine h.trans ?_
    split
    · exact .refl _
    · exact micros_raise _
  · exact .refl _
  · exact micros_updateOnMsg _ _ _ _

/-- What `_kill_cancelled_sims` records. -/
inductive QKill : Ev → Prop
  | kill (to row : Nat) : QKill (.kill to row)
  | mark (kids : List Nat) : QKill (.op (.markKill kids))

theorem micros_killLoop (kids : List Nat) (l : List (Nat × Nat)) (s : St) : Micros sp QKill s (killLoop sp kids l s).1 := by
  induction l generalizing s with
  | nil => exact .refl s
  | cons x l ih =>
    obtain ⟨i, w⟩ := x
    simp only [killLoop]
    split
    · exact .refl s
    · refine micros_andThen ((micros_ev _ _ (by simp) (by simp) (by simp) (.kill _ _)).trans
        (micros_op _ _ (.mark _))) (fun _ => ih _)

theorem micros_killCancelled (s : St) : Micros sp QKill s (killCancelled sp s).1 := by
  simp only [killCancelled]
  split
  · split
    · exact .refl s
    · split
      · exact .refl s
      · exact micros_killLoop _ _ _
  · exact .refl s

/-- What the persistent stop to `w` records. -/
inductive QStop (sp : Specs) (w : Nat) : Ev → Prop
  | stop (h : sp.finalGenSend = false) : QStop sp w (.persisStop w)
  | send (wk : Work) {e} (ht : wk.tag = PERSIS_STOP) (h : QSend wk w e) (hs : sp.finalGenSend = true) : QStop sp w e
  | gen (rows : List Nat) (t : Int) (hs : sp.finalGenSend = true) : QStop sp w (.op (.giveGen rows t))

theorem micros_stopPersis (s : St) (w : Nat) (t : Int) : Micros sp (QStop sp w) s (stopPersis sp s w t).1 := by
  simp only [stopPersis]
  refine micros_andThen ?_ (fun _ => ?_)
  · simp only [stopSend]; split
    · rename_i hf
      split
      · exact .refl s
      · exact micros_andThen ((micros_sendOrder _ _ _ _).mono fun _ h => .send (lastOrder s) rfl h hf)
          (fun _ => micros_op _ _ (.gen _ _ hf))
    · rename_i hf
      exact micros_ev _ _ (by simp) (by simp) (by simp) (.stop (by simpa using hf))
  · exact (micros_mod _ _ _ (fun x => by split <;> exact ⟨rfl, rfl, rfl⟩)).trans (Micro.pending _ _).one

variable {P : St → Reply → Prop} {s0 : St}

theorem Micros.any {a b : St} (h : Micros sp Q a b) : Micros sp (fun _ => True) a b := h.mono fun _ _ => trivial

/-- Every state of a run is reached by elementary changes. -/
theorem Reach.micros {p : Ph} {s : St} (h : Reach sp P s0 p s) : Micros sp (fun _ => True) s0 s := by
  refine Reach.inv (I := fun s => Micros sp (fun _ => True) s0 s) (.refl _) ?_ ?_ ?_ ?_ ?_ ?_ ?_ ?_ ?_ h
  · intro s e hs he
    refine hs.trans (micros_ev _ _ ?_ ?_ ?_ trivial) <;>
      (rcases he with ⟨r, rfl⟩ | rfl <;> simp)
  · exact fun s hs => hs.trans (micros_killCancelled s).any
  · exact fun s w m t hs _ => hs.trans (micros_handleMsg s w m t).any
  · exact fun s b hs => hs.trans (micros_saveK s b)
  · exact fun s cs hs => hs.trans (micros_op s _ trivial)
  · exact fun s p hs => hs.trans (Micro.pinfo s p).one
  · exact fun s w wk t hs _ => hs.trans (micros_handOut s wk w t).any
  · exact fun s w t hs => hs.trans (micros_stopPersis s w t).any
  · exact fun s hs => hs.trans (micros_killWorkers s).any

/-! ### What elementary changes keep -/

/-- The fixed columns of the worker table. -/
def fixedCols (s : St) : List (Nat × Bool × Bool) := s.W.map fun k => (k.id, k.genWorker, k.zrw)

theorem map_modify_same {α β} (g : α → β) (f : α → α) (hf : ∀ x, g (f x) = g x) (l : List α) (k : Nat) :
    (l.modify k f).map g = l.map g := by
  induction l generalizing k with
  | nil => simp
  | cons a l ih => cases k <;> simp [List.modify_cons, hf, ih]

theorem modW_map {β} (g : Wrk → β) (f : Wrk → Wrk) (hf : ∀ x, g (f x) = g x) (s : St) (w : Nat) :
    (modW sp s w f).W.map g = s.W.map g := by
  simp only [modW]
  split
  · rfl
  · exact map_modify_same g f hf _ _

theorem modW_hist (s : St) (w f) : (modW sp s w f).hist = s.hist := by simp only [modW]; split <;> rfl
theorem modW_tr (s : St) (w f) : (modW sp s w f).tr = s.tr := by simp only [modW]; split <;> rfl
theorem modW_rm (s : St) (w f) : (modW sp s w f).rm = s.rm := by simp only [modW]; split <;> rfl
theorem modW_exc (s : St) (w f) : (modW sp s w f).exc = s.exc := by simp only [modW]; split <;> rfl
theorem modW_pending (s : St) (w f) : (modW sp s w f).pending = s.pending := by simp only [modW]; split <;> rfl
theorem modW_length (s : St) (w f) : (modW sp s w f).W.length = s.W.length := by
  simp only [modW]; split <;> simp

theorem Micro.fixed {a b : St} (h : Micro sp Q a b) : fixedCols b = fixedCols a := by
  cases h with
  | mod w f hid => exact modW_map _ _ (fun x => by obtain ⟨h1, h2, h3⟩ := hid x; simp [h1, h2, h3]) _ _
  | _ => rfl

theorem Micros.fixed {a b : St} (h : Micros sp Q a b) : fixedCols b = fixedCols a :=
  Micros.inv (I := fun b => fixedCols b = fixedCols a) (fun _ _ m hI => (m.fixed).trans hI) h rfl

theorem ids_fixed (s : St) : ids s = (fixedCols s).map (·.1) := by simp [ids, fixedCols]

theorem Micros.ids {a b : St} (h : Micros sp Q a b) : ids b = ids a := by rw [ids_fixed, ids_fixed, h.fixed]

theorem Micros.length {a b : St} (h : Micros sp Q a b) : b.W.length = a.W.length := by
  have := congrArg List.length h.fixed
  simpa [fixedCols] using this

theorem Micro.tr {a b : St} (h : Micro sp Q a b) : ∃ l, b.tr = l ++ a.tr ∧ ∀ e ∈ l, Q e := by
  cases h with
  | ev e _ _ _ hq => exact ⟨[e], rfl, by simpa using hq⟩
  | op o hq => exact ⟨[.op o], rfl, by simpa using hq⟩
  | mod w f => exact ⟨[], by rw [modW_tr]; rfl, by simp⟩
  | assign w team _ _ _ _ hq => exact ⟨[.assign w team], rfl, by simpa using hq⟩
  | free w _ _ hq => exact ⟨[.free w], rfl, by simpa using hq⟩
  | _ => exact ⟨[], rfl, by simp⟩

/-- The list of what has happened only grows. -/
theorem Micros.tr {a b : St} (h : Micros sp Q a b) : ∃ l, b.tr = l ++ a.tr ∧ ∀ e ∈ l, Q e :=
  Micros.inv (I := fun b => ∃ l, b.tr = l ++ a.tr ∧ ∀ e ∈ l, Q e)
    (fun _ _ m hI => by
      obtain ⟨l, hl, hq⟩ := hI
      obtain ⟨l', hl', hq'⟩ := m.tr
      refine ⟨l' ++ l, by rw [hl', hl, List.append_assoc], fun e he => ?_⟩
      rcases List.mem_append.mp he with he | he
      · exact hq' e he
      · exact hq e he) h ⟨[], rfl, by simp⟩

/-- The calls of `History` methods, oldest first. -/
def opsOf (tr : List Ev) : List Op := tr.reverse.filterMap fun | .op o => some o | _ => none

/-- The array after a sequence of calls, whether or not some of them raise. -/
def applyAll (h : Hist) (ops : List Op) : Hist := ops.foldl (fun h o => (apply h o).1) h

theorem opsOf_cons (e : Ev) (tr : List Ev) : opsOf (e :: tr) = opsOf tr ++ (match e with | .op o => [o] | _ => []) := by
  cases e <;> simp [opsOf, List.filterMap_append]

theorem Micro.hist {h0 : Hist} {a b : St} (h : Micro sp Q a b) (ha : a.hist = applyAll h0 (opsOf a.tr)) :
    b.hist = applyAll h0 (opsOf b.tr) := by
  cases h with
  | ev e h1 =>
    have : opsOf (emit a e).tr = opsOf a.tr := by
      simp only [emit, opsOf_cons]
      cases e <;> simp at h1 ⊢
    rw [this]; exact ha
  | op o =>
    simp only [doOp, opsOf_cons, applyAll, List.foldl_append, List.foldl_cons, List.foldl_nil]
    rw [show List.foldl (fun h o => (apply h o).1) h0 (opsOf a.tr) = a.hist from ha.symm]
  | mod w f => rw [modW_hist, modW_tr]; exact ha
  | assign => simpa [opsOf_cons] using ha
  | free => simpa [opsOf_cons] using ha
  | _ => exact ha

theorem Micros.hist {h0 : Hist} {a b : St} (h : Micros sp Q a b) (ha : a.hist = applyAll h0 (opsOf a.tr)) :
    b.hist = applyAll h0 (opsOf b.tr) :=
  Micros.inv (I := fun b => b.hist = applyAll h0 (opsOf b.tr)) (fun _ _ m hI => m.hist hI) h ha

end Verif.Manager
