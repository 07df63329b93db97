import Verif.Manager.Start
/-
Worker exceptions in the record of a run.
-/
namespace Verif.Manager
open Verif.History Verif.Res Verif.Sched Verif.Alloc

variable {sp : Specs} {P : St → Reply → Prop} {s0 : St}

/-- A step without exceptions, orders or signals. -/
structure Quiet (a b : St) : Prop where
  exc : b.exc = a.exc
  tr : ∃ l, b.tr = l ++ a.tr ∧ ∀ e ∈ l, QQuiet e

theorem Quiet.refl (a : St) : Quiet a a := ⟨rfl, [], rfl, by simp⟩
theorem Quiet.trans {a b c : St} (h : Quiet a b) (h' : Quiet b c) : Quiet a c := by
  obtain ⟨l, hl, hq⟩ := h.tr
  obtain ⟨l', hl', hq'⟩ := h'.tr
  refine ⟨h'.exc.trans h.exc, l' ++ l, by rw [hl', hl, List.append_assoc], fun e he => ?_⟩
  rcases List.mem_append.mp he with h | h
  · exact hq' e h
  · exact hq e h
theorem Quiet.same {a b : St} (h : b.exc = a.exc) (h' : b.tr = a.tr) : Quiet a b := ⟨h, [], by simpa using h', by simp⟩

theorem quiet_mod (s : St) (w : Nat) (f : Wrk → Wrk) : Quiet s (modW sp s w f) := .same (modW_exc _ _ _) (modW_tr _ _ _)
theorem quiet_op (s : St) (o : Op) : Quiet s (doOp s o).1 := ⟨rfl, [.op o], rfl, by simp [QQuiet]⟩
theorem quiet_freeup (s : St) (w : Nat) : Quiet s (freeup s w) := by
  simp only [freeup]; split
  · exact .refl s
  · exact ⟨rfl, [.free w], rfl, by simp [QQuiet]⟩
theorem quiet_markIdle (s : St) (w : Nat) (d : Data) : Quiet s (markIdle sp s w d) := by
  simp only [markIdle]; split
  · exact quiet_mod _ _ _
  · exact .refl s
theorem quiet_ensure (s : St) (r : Rec) : Quiet s (ensureSimId sp s r) := by
  simp only [ensureSimId]; split
  · exact .same rfl rfl
  · exact .refl s
theorem quiet_final (s : St) (w : Nat) (d : Data) (t : Int) : Quiet s (finalData sp s w d t).1 := by
  simp only [finalData]
  repeat' split
  · exact (quiet_ensure _ _).trans (quiet_op _ _)
  · exact quiet_op _ _
  · exact .refl s
  · exact .refl s
theorem micros_finishPersis_quiet (s : St) (w : Nat) : ∃ l, (finishPersis sp s w).tr = l ++ s.tr ∧ ∀ e ∈ l, QQuiet e := by
  obtain ⟨l, hl, hq⟩ := (quiet_freeup (if w ∈ s.pending then
      modW sp { modW sp s w (fun x => if x.activeRecv then { x with persis := 0, active := 0, activeRecv := false }
        else { x with persis := 0 }) with pending := s.pending.erase w } w (fun x => { x with active := 0 })
    else modW sp s w (fun x => if x.activeRecv then { x with persis := 0, active := 0, activeRecv := false }
        else { x with persis := 0 })) w).tr
  refine ⟨l, ?_, hq⟩
  simp only [finishPersis, modW_pending]
  rw [hl]
  split <;> simp only [modW_tr]
theorem quiet_finishPersis (s : St) (w : Nat) : Quiet s (finishPersis sp s w) := by
  refine ⟨?_, (micros_finishPersis_quiet s w)⟩
  simp only [finishPersis]
  rw [(sameTab_freeup _ w).exc]
  split <;> simp only [modW_exc]
theorem quietGen (s : St) (w : Nat) (d : Data) (t : Int) : Quiet s (genData sp s w d t).1 := by
  simp only [genData]
  cases d.out with
  | arr r =>
    have h := (quiet_ensure (sp := sp) s r).trans (quiet_op (ensureSimId sp s r) (.genReturn w r (genStartedOf sp (ensureSimId sp s r) w) t))
    simp only [andThen]
    generalize doOp (ensureSimId sp s r) _ = y at h
    split
    · exact h
    · split <;> exact h
  | _ => exact .refl s

theorem updateOnMsg_quiet (s : St) (w : Nat) (d : Data) (t : Int) (h : (updateOnMsg sp s w d t).2 ≠ some .worker) :
    Quiet s (updateOnMsg sp s w d t).1 ∧ (s.exc = true ∨ d.isFinished = true ∨ d.broken = false) := by
  simp only [updateOnMsg] at h ⊢
  have h1 := quiet_markIdle (sp := sp) s w d
  have hx := h1.exc
  generalize markIdle sp s w d = s1 at h h1 hx
  split
  · rename_i hf
    refine ⟨h1.trans ?_, .inr (.inl ((isFinished_iff d).mpr hf))⟩
    simp only [andThen]
    split
    · exact quiet_final _ _ _ _
    · exact (quiet_final _ _ _ _).trans (quiet_finishPersis _ _)
  · rename_i hf
    rw [if_neg hf] at h
    simp only [workData] at h ⊢
    have h2 : Quiet s1 (if d.calcType = EVAL_SIM then simData sp s1 d t
        else if d.calcType = EVAL_GEN then genData sp s1 w d t else (s1, none)).1 ∧
        (s.exc = true ∨ d.isFinished = true ∨ d.broken = false) := by
      split
      · rename_i hc
        rw [if_pos hc] at h
        simp only [simData] at h ⊢
        cases ho : d.out with
        | arr r => exact ⟨quiet_op _ _, .inr (.inr (by simp [Data.broken, ho]))⟩
        | none => exact ⟨quiet_op _ _, .inr (.inr (by simp [Data.broken, ho]))⟩
        | other =>
          simp only [ho] at h ⊢
          split
          · rename_i hx'; exact ⟨.refl _, .inl (by rw [← hx]; exact hx')⟩
          · rename_i hx'
            rw [if_neg hx'] at h
            simp [andThen] at h
      · rename_i hc
        have hb : d.broken = false := by simp [Data.broken, hc]
        split
        · exact ⟨quietGen _ _ _ _, .inr (.inr hb)⟩
        · exact ⟨.refl _, .inr (.inr hb)⟩
    refine ⟨?_, h2.2⟩
    refine (h1.trans h2.1).trans ?_
    generalize (if d.calcType = EVAL_SIM then simData sp s1 d t
        else if d.calcType = EVAL_GEN then genData sp s1 w d t else (s1, none)) = x
    simp only [andThen]
    split
    · exact .refl _
    · split
      · exact quiet_mod _ _ _
      · exact quiet_freeup _ _

/-- Handling a message either raises the first worker exception or is quiet. -/
theorem handleMsg_trace (s : St) (w : Nat) (m : Msg) (t : Int) :
    (s.exc = false ∧ m.failure = true ∧ (handleMsg sp s w m t).2 = some .worker ∧ (handleMsg sp s w m t).1.exc = true ∧
      (handleMsg sp s w m t).1.tr = ((ids s).map Ev.stop).reverse ++ .exc :: .recv w m :: s.tr) ∨
    ((s.exc = true ∨ m.failure = false) ∧ (handleMsg sp s w m t).2 ≠ some .worker ∧ (handleMsg sp s w m t).1.exc = s.exc ∧
      ∃ l, (handleMsg sp s w m t).1.tr = l ++ .recv w m :: s.tr ∧ ∀ e ∈ l, QQuiet e) := by
  have hids : ∀ f, ids (modW sp (emit s (.recv w m)) w f) = ids (emit s (.recv w m)) ∨ ¬ ∀ x, (f x).id = x.id := by
    intro f
    by_cases h : ∀ x, (f x).id = x.id
    · left; simp only [ids]; exact modW_map _ _ h _ _
    · exact .inr h
  cases m with
  | finished => exact .inr ⟨.inr rfl, by simp [handleMsg], rfl, [], rfl, by simp⟩
  | log => exact .inr ⟨.inr rfl, by simp [handleMsg], rfl, [], rfl, by simp⟩
  | err =>
    simp only [handleMsg]
    cases hx : s.exc with
    | true =>
      right
      have : (modW sp (emit s (.recv w .err)) w fun x => { x with active := 0 }).exc = true := by rw [modW_exc]; exact hx
      rw [if_pos this]
      exact ⟨.inl rfl, by simp, this, [], by simp only [modW_tr]; rfl, by simp⟩
    | false =>
      left
      have : ¬ (modW sp (emit s (.recv w .err)) w fun x => { x with active := 0 }).exc = true := by rw [modW_exc]; simp [emit, hx]
      rw [if_neg this]
      refine ⟨rfl, rfl, rfl, by rw [killWorkers_eq]; rfl, ?_⟩
      rw [killWorkers_eq]
      simp only [emit, modW_tr]
      rcases hids (fun x => { x with active := 0 }) with h | h
      · simp only [ids] at h ⊢; rw [show (fun (x : Wrk) => x.id) = Wrk.id from rfl] at *; simp only [emit] at h; rw [h]
      · exact absurd (fun x => rfl) h
  | data d =>
    simp only [handleMsg]
    by_cases hw : (updateOnMsg sp (emit s (.recv w (.data d))) w d t).2 = some .worker
    · left
      obtain ⟨h1, h2, h3, h4⟩ := updateOnMsg_worker _ _ _ hw
      have hx : s.exc = false := by
        have := (quiet_markIdle (sp := sp) (emit s (.recv w (.data d))) w d).exc
        rw [h4] at this; exact this.symm
      refine ⟨hx, by simp [Msg.failure, h2, h3], hw, ?_, ?_⟩
      · rw [h1, killWorkers_eq]; rfl
      · rw [h1, killWorkers_eq]
        have e1 : (markIdle sp (emit s (.recv w (.data d))) w d).tr = .recv w (.data d) :: s.tr := by
          simp only [markIdle]; split
          · rw [modW_tr]; rfl
          · rfl
        have e2 : ids (markIdle sp (emit s (.recv w (.data d))) w d) = ids s :=
          (micros_markIdle (sp := sp) (Q := fun _ => True) (emit s (.recv w (.data d))) w d).ids
        simp only [emit] at e1 e2 ⊢
        rw [e1]
        simp only [ids] at e2 ⊢
        rw [e2]
    · right
      obtain ⟨⟨h1, l, hl, hq⟩, h2⟩ := updateOnMsg_quiet _ _ _ _ hw
      refine ⟨?_, hw, h1, l, hl, hq⟩
      rcases h2 with h | h | h
      · exact .inl h
      · exact .inr (by simp [Msg.failure, h])
      · exact .inr (by simp [Msg.failure, h])

/-! ### Along runs -/

/-- Neither a message nor an exception. -/
def plain : Ev → Bool
  | .recv _ _ | .exc => false
  | _ => true

theorem Micros.plain {Q : Ev → Prop} {I : List Ev → Prop} {a b : St} (h : Micros sp Q a b)
    (hq : ∀ e, Q e → Manager.plain e = true) (hI : ∀ l tr, (∀ e ∈ l, Manager.plain e = true) → I tr → I (l ++ tr))
    (ha : I a.tr) : I b.tr := by
  obtain ⟨l, hl, hle⟩ := h.tr
  rw [hl]; exact hI l _ (fun e he => hq e (hle e he)) ha

/-- Induction over runs for statements about messages and exceptions. -/
theorem Reach.traceInv {I : List Ev → Prop} {p : Ph} {s : St} (h : Reach sp P s0 p s) (h0 : I s0.tr)
    (hI : ∀ l tr, (∀ e ∈ l, Manager.plain e = true) → I tr → I (l ++ tr))
    (hmsg : ∀ p s w m t, Reach sp P s0 p s → (p = .recv ∨ ∃ x, p = .drain x) → w ∈ ids s → I s.tr → I (handleMsg sp s w m t).1.tr) :
    I s.tr := by
  have hone : ∀ (e : Ev) tr, Manager.plain e = true → I tr → I (e :: tr) := fun e tr he h =>
    hI [e] tr (by simpa using he) h
  have hsave : ∀ {s : St} {b}, I s.tr → I (saveK sp s b).tr :=
    fun {s b} ih => (micros_saveK (Q := fun _ => False) s b).plain (fun e h => h.elim) hI ih
  have hkill : ∀ {s : St}, I s.tr → I (killCancelled sp s).1.tr :=
    fun {s} ih => (micros_killCancelled s).plain (fun e h => by cases h <;> rfl) hI ih
  have hgive : ∀ {s : St} {wk w t}, I s.tr → I (handOut sp s wk w t).1.tr :=
    fun {s wk w t} ih => (micros_handOut s wk w t).plain (fun e h => by
      cases h with
      | send h => cases h <;> rfl
      | _ => rfl) hI ih
  have hstop : ∀ {s : St} {w t}, I s.tr → I (stopPersis sp s w t).1.tr :=
    fun {s w t} ih => (micros_stopPersis s w t).plain (fun e h => by
      cases h with
      | send wk _ h => cases h <;> rfl
      | _ => rfl) hI ih
  induction h with
  | init => exact h0
  | test e hr h1 ih => exact hone _ _ rfl ih
  | stop e hr _ ih => exact hone _ _ rfl ih
  | kill hr _ ih => exact hkill ih
  | killErr hr _ ih => exact hkill ih
  | mail w m t hr hw _ ih => exact hmsg _ _ _ _ _ hr (.inl rfl) hw ih
  | mailErr w m t hr hw _ ih => exact hmsg _ _ _ _ _ hr (.inl rfl) hw ih
  | save _ ih => exact hsave ih
  | allocErr cs hr _ ih => exact hone _ _ rfl ih
  | allocFlag cs work p hr _ ih => exact hone _ _ rfl ih
  | allocOk cs work p t hr _ ih => exact hone _ _ rfl ih
  | give hr hm _ ih => exact hgive ih
  | giveErr hr hm _ ih => exact hgive ih
  | again _ _ _ ih => exact ih
  | noWork _ _ ih => exact ih
  | final hr ih => exact hone _ _ rfl ih
  | pstop t hr _ ih => exact hstop ih
  | pstopErr t hr _ ih => exact hstop ih
  | drain _ ih => exact ih
  | dmail w m t hr hw _ ih => exact hmsg _ _ _ _ _ hr (.inr ⟨_, rfl⟩) hw ih
  | dmailErr w m t hr hw _ ih => exact hmsg _ _ _ _ _ hr (.inr ⟨_, rfl⟩) hw ih
  | dsave _ ih => exact hsave ih
  | done p hr ih =>
    exact (micros_killWorkers (sp := sp) _).plain (fun e h => by obtain ⟨w, rfl⟩ := h; rfl) hI (hsave ih)

theorem hasExc_plain {l : List Ev} (h : ∀ e ∈ l, Manager.plain e = true) : hasExc l = false :=
  hasExc_false (fun e he => by have := h e he; cases e <;> simp_all [plain, hasExc])

theorem hasExc_quiet {l : List Ev} (h : ∀ e ∈ l, QQuiet e) : hasExc l = false :=
  hasExc_false (fun e he => by rcases h e he with ⟨_, rfl⟩ | ⟨_, rfl⟩ <;> rfl)

theorem Micros.excOk {Q : Ev → Prop} {a b : St} (h : Micros sp Q a b) (hx : b.exc = a.exc)
    (hq : ∀ e, Q e → Manager.plain e = true) (ha : a.exc = hasExc a.tr) : b.exc = hasExc b.tr := by
  obtain ⟨l, hl, hle⟩ := h.tr
  rw [hl, hasExc_append, hasExc_plain (fun e he => hq e (hle e he)), hx, ha, Bool.false_or]

theorem handleMsg_excOk {s : St} (ha : s.exc = hasExc s.tr) (w : Nat) (m : Msg) (t : Int) :
    (handleMsg sp s w m t).1.exc = hasExc (handleMsg sp s w m t).1.tr := by
  rcases handleMsg_trace (sp := sp) s w m t with ⟨_, _, _, h1, h2⟩ | ⟨_, _, h1, l, h2, h3⟩
  · rw [h1, h2, hasExc_append]; simp [hasExc]
  · rw [h1, h2, hasExc_append, hasExc_quiet h3, ha]; simp [hasExc]

theorem handOut_exc (s : St) (wk : Work) (w : Nat) (t : Int) : (handOut sp s wk w t).1.exc = s.exc := by
  rcases handOut_cases (sp := sp) s wk w t with ⟨e, _, he⟩ | ⟨_, h | ⟨k, wk', l0, l, _, h⟩ | ⟨k, wk', l0, l, h, _⟩⟩
  · rw [he]
  · exact h.2.1.exc
  · rcases h with ⟨h, _⟩ | ⟨⟨s1, h, h'⟩, _⟩
    · exact h.exc
    · rw [h']; exact h.exc
  · exact h.exc

theorem stopPersis_exc (s : St) (w : Nat) (t : Int) : (stopPersis sp s w t).1.exc = s.exc := by
  have h1 : (stopSend sp s w t).1.exc = s.exc := by
    simp only [stopSend]
    split
    · split
      · rfl
      · have h2 : (sendOrder sp s (lastOrder s) w t).1.exc = s.exc := by
          rcases sendOrder_cases (sp := sp) s (lastOrder s) w t with h | ⟨k', wk', l0, l, hS, _⟩
          · exact h.2.1.exc
          · exact hS.exc
        simp only [andThen]
        split
        · exact h2
        · exact h2
    · rfl
  simp only [stopPersis, andThen]
  split
  · exact h1
  · simp only [modW_exc]; exact h1

/-- The flag says whether a worker exception has been raised. -/
theorem Reach.excOk {p : Ph} {s : St} (h : Reach sp P s0 p s) (h0 : s0.exc = hasExc s0.tr) : s.exc = hasExc s.tr := by
  have hsave : ∀ {s : St} {b}, s.exc = hasExc s.tr → (saveK sp s b).exc = hasExc (saveK sp s b).tr :=
    fun {s b} ih => (micros_saveK (Q := fun _ => False) s b).excOk (sameTab_saveK s b).exc (fun e h => h.elim) ih
  have hkill : ∀ {s : St}, s.exc = hasExc s.tr → (killCancelled sp s).1.exc = hasExc (killCancelled sp s).1.tr :=
    fun {s} ih => (micros_killCancelled s).excOk (sameTab_killCancelled s).exc (fun e h => by cases h <;> rfl) ih
  have hgive : ∀ {s : St} {wk w t}, s.exc = hasExc s.tr → (handOut sp s wk w t).1.exc = hasExc (handOut sp s wk w t).1.tr :=
    fun {s wk w t} ih => (micros_handOut s wk w t).excOk (handOut_exc _ _ _ _) (fun e h => by
      cases h with
      | send h => cases h <;> rfl
      | _ => rfl) ih
  have hstop : ∀ {s : St} {w t}, s.exc = hasExc s.tr → (stopPersis sp s w t).1.exc = hasExc (stopPersis sp s w t).1.tr :=
    fun {s w t} ih => (micros_stopPersis s w t).excOk (stopPersis_exc _ _ _) (fun e h => by
      cases h with
      | send wk _ h => cases h <;> rfl
      | _ => rfl) ih
  induction h with
  | init => exact h0
  | test e hr h1 ih => exact ih
  | stop e hr _ ih => exact ih
  | kill hr _ ih => exact hkill ih
  | killErr hr _ ih => exact hkill ih
  | mail w m t hr hw _ ih => exact handleMsg_excOk ih w m t
  | mailErr w m t hr hw _ ih => exact handleMsg_excOk ih w m t
  | save _ ih => exact hsave ih
  | allocErr cs hr _ ih => exact ih
  | allocFlag cs work p hr _ ih => exact ih
  | allocOk cs work p t hr _ ih => exact ih
  | give hr hm _ ih => exact hgive ih
  | giveErr hr hm _ ih => exact hgive ih
  | again _ _ _ ih => exact ih
  | noWork _ _ ih => exact ih
  | final hr ih => exact ih
  | pstop t hr _ ih => exact hstop ih
  | pstopErr t hr _ ih => exact hstop ih
  | drain _ ih => exact ih
  | dmail w m t hr hw _ ih => exact handleMsg_excOk ih w m t
  | dmailErr w m t hr hw _ ih => exact handleMsg_excOk ih w m t
  | dsave _ ih => exact hsave ih
  | done p hr ih =>
    have h1 := (micros_killWorkers (sp := sp) (saveK sp _ sp.saveDone)).excOk (sameTab_killWorkers _).exc
      (fun e h => by obtain ⟨w, rfl⟩ := h; rfl) (hsave ih)
    exact h1

/-- While the main loop is going on, and after it has ended for another reason, there has been no worker exception. -/
theorem Reach.noExc {p : Ph} {s : St} (h : Reach sp P s0 p s) (h0 : s0.exc = false)
    (hp : p.main = true) (hw : p ≠ .over (.raised .worker)) : s.exc = false := by
  have hmsg : ∀ {s : St} {w m t}, s.exc = false → (handleMsg sp s w m t).2 ≠ some .worker → (handleMsg sp s w m t).1.exc = false := by
    intro s w m t h hn
    rcases handleMsg_trace (sp := sp) s w m t with ⟨_, _, h2, _⟩ | ⟨_, _, h1, _⟩
    · exact absurd h2 hn
    · rw [h1]; exact h
  induction h with
  | init => exact h0
  | test e _ _ ih => exact ih rfl (by simp)
  | stop e _ _ ih => exact ih rfl (by simp)
  | kill _ _ ih => rw [(sameTab_killCancelled _).exc]; exact ih rfl (by simp)
  | killErr _ _ ih => rw [(sameTab_killCancelled _).exc]; exact ih rfl (by simp)
  | mail w m t _ _ he ih => exact hmsg (ih rfl (by simp)) (by rw [he]; simp)
  | mailErr w m t _ _ he ih => exact hmsg (ih rfl (by simp)) (by rw [he]; intro h; simp only [Option.some.injEq] at h; subst h; exact hw rfl)
  | save _ ih => rw [(sameTab_saveK _ _).exc]; exact ih rfl (by simp)
  | allocErr cs _ _ ih => exact ih rfl (by simp)
  | allocFlag cs work p _ _ ih => exact ih rfl (by simp)
  | allocOk cs work p t _ _ ih => exact ih rfl (by simp)
  | give _ _ _ ih => rw [handOut_exc]; exact ih rfl (by simp)
  | giveErr _ _ _ ih => rw [handOut_exc]; exact ih rfl (by simp)
  | again _ _ _ ih => exact ih rfl (by simp)
  | noWork _ _ ih => exact ih rfl (by simp)
  | _ => simp [Ph.main] at hp

/-- `F post e pre` for every event; `post` is what has happened since. -/
def Later (F : List Ev → Ev → List Ev → Prop) (tr : List Ev) : Prop := ∀ post e pre, tr = post ++ e :: pre → F post e pre

theorem Later.append {F : List Ev → Ev → List Ev → Prop} {l tr : List Ev} (h : Later F tr)
    (hmono : ∀ l post e pre, F post e pre → F (l ++ post) e pre)
    (hl : ∀ l1 e l2, l = l1 ++ e :: l2 → F l1 e (l2 ++ tr)) : Later F (l ++ tr) := by
  intro post e pre he
  rcases List.append_eq_append_iff.mp he with ⟨a, rfl, h2⟩ | ⟨a, h1, h2⟩
  · exact hmono _ _ _ _ (h _ _ _ h2)
  · cases a with
    | nil =>
      simp only [List.nil_append] at h2
      rw [List.append_nil] at h1
      subst h1
      have := hmono l [] _ _ (h [] e pre (by rw [← h2]; rfl))
      simpa using this
    | cons x a =>
      simp only [List.cons_append, List.cons.injEq] at h2
      obtain ⟨rfl, rfl⟩ := h2
      exact hl post e a h1

/-- Exceptions come directly after the failure that caused them, only once, and are followed by stop signals to all
workers; a failure leads to an exception unless there has been one already. -/
def excF (ws : List Nat) (post : List Ev) (e : Ev) (pre : List Ev) : Prop :=
  match e with
  | .exc => hasExc pre = false ∧ (∃ w m pre', pre = .recv w m :: pre' ∧ m.failure = true) ∧
      ∃ post', post = post' ++ (ws.map Ev.stop).reverse
  | .recv _ m => m.failure = true → hasExc pre = true ∨ ∃ post', post = post' ++ [.exc]
  | _ => True

theorem excF_mono (ws : List Nat) (l post : List Ev) (e : Ev) (pre : List Ev) (h : excF ws post e pre) :
    excF ws (l ++ post) e pre := by
  cases e with
  | exc =>
    obtain ⟨h1, h2, p, h3⟩ := h
    exact ⟨h1, h2, l ++ p, by rw [h3, List.append_assoc]⟩
  | recv w m =>
    intro hm
    rcases h hm with h | ⟨p, h⟩
    · exact .inl h
    · exact .inr ⟨l ++ p, by rw [h, List.append_assoc]⟩
  | _ => trivial

theorem Reach.excF {p : Ph} {s : St} (h : Reach sp P s0 p s) (h0 : s0.tr = []) (hx0 : s0.exc = false) :
    Later (Manager.excF (ids s0)) s.tr := by
  refine h.traceInv (I := Later (Manager.excF (ids s0))) (by rw [h0]; intro post e pre h; simp at h) ?_ ?_
  · intro l tr hl ih
    refine ih.append (excF_mono _) (fun l1 e l2 he => ?_)
    have := hl e (by rw [he]; simp)
    cases e <;> simp_all [plain, Manager.excF]
  · intro p s w m t hr _ _ ih
    have hi : ids s = ids s0 := hr.micros.ids
    have hx := hr.excOk (by rw [h0, hx0]; rfl)
    rcases handleMsg_trace (sp := sp) s w m t with ⟨h1, hf, _, _, h2⟩ | ⟨h1, _, _, l, h2, h3⟩
    · rw [h2, hi]
      rw [show ((ids s0).map Ev.stop).reverse ++ .exc :: .recv w m :: s.tr =
        (((ids s0).map Ev.stop).reverse ++ [.exc, .recv w m]) ++ s.tr by simp]
      refine ih.append (excF_mono _) (fun l1 e l2 he => ?_)
      rcases List.append_eq_append_iff.mp he with ⟨a, rfl, h4⟩ | ⟨a, h3, h4⟩
      · cases a with
        | nil =>
          simp only [List.nil_append, List.cons.injEq] at h4
          obtain ⟨rfl, rfl⟩ := h4
          refine ⟨?_, ⟨w, m, s.tr, rfl, hf⟩, [], by simp⟩
          rw [h1] at hx
          simp [hasExc] at hx ⊢; exact hx
        | cons x a =>
          simp only [List.cons_append, List.cons.injEq] at h4
          obtain ⟨rfl, h4⟩ := h4
          cases a with
          | nil =>
            simp only [List.nil_append, List.cons.injEq] at h4
            obtain ⟨rfl, rfl⟩ := h4
            exact fun _ => .inr ⟨_, rfl⟩
          | cons y a => simp at h4
      · cases a with
        | nil =>
          simp only [List.nil_append, List.cons.injEq] at h4
          obtain ⟨rfl, rfl⟩ := h4
          simp only [List.append_nil] at h3
          subst h3
          refine ⟨?_, ⟨w, m, s.tr, rfl, hf⟩, [], by simp⟩
          rw [h1] at hx
          simp [hasExc] at hx ⊢; exact hx
        | cons y a =>
          simp only [List.cons_append, List.cons.injEq] at h4
          obtain ⟨rfl, rfl⟩ := h4
          have : e ∈ ((ids s0).map Ev.stop).reverse := by rw [h3]; simp
          simp only [List.mem_reverse, List.mem_map] at this
          obtain ⟨_, _, rfl⟩ := this
          trivial
    · rw [h2, show l ++ .recv w m :: s.tr = (l ++ [.recv w m]) ++ s.tr by simp]
      refine ih.append (excF_mono _) (fun l1 e l2 he => ?_)
      have hmem : e ∈ l ++ [Ev.recv w m] := by rw [he]; simp
      simp only [List.mem_append, List.mem_singleton] at hmem
      rcases hmem with hmem | rfl
      · rcases h3 e hmem with ⟨_, rfl⟩ | ⟨_, rfl⟩ <;> trivial
      · intro hf
        rcases h1 with h1 | h1
        · left; rw [hasExc_append, ← hx, h1, Bool.or_true]
        · rw [hf] at h1; simp at h1

theorem excCount_zero {l : List Ev} (hl : hasExc l = false) : excCount l = 0 := by
  simp only [excCount, List.countP_eq_zero]
  simp only [hasExc, List.any_eq_false] at hl
  intro e he
  have := hl e he
  cases e <;> simp_all

theorem excCount_eq {tr : List Ev} (h : Always (fun pre e => e = .exc → hasExc pre = false) tr) :
    excCount tr = if hasExc tr then 1 else 0 := by
  induction tr with
  | nil => rfl
  | cons e tr ih =>
    obtain ⟨h1, h2⟩ := always_cons.mp h
    by_cases hx : e = .exc
    · have h0 := excCount_zero (h1 hx)
      subst hx
      simp only [excCount] at h0 ⊢
      simp [hasExc, h0]
    · have e1 : excCount (e :: tr) = excCount tr := by
        simp only [excCount]; rw [List.countP_cons_of_neg]; cases e <;> simp_all
      have e2 : hasExc (e :: tr) = hasExc tr := by
        simp only [hasExc, List.any_cons]; cases e <;> simp_all
      rw [e1, e2, ih h2]

end Verif.Manager
