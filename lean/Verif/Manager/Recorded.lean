import Verif.Manager.Pstop
/-
Results and their recording in the history.
-/
namespace Verif.Manager
open Verif.History Verif.Res Verif.Sched Verif.Alloc

variable {sp : Specs} {P : St → Reply → Prop} {s0 : St}

/-- No result is recorded. -/
def noRec : Ev → Bool
  | .recv _ _ => false
  | .op o => !isResult o
  | _ => true

def NoRec (l : List Ev) : Prop := ∀ e ∈ l, noRec e = true

/-- Points of a generator are recorded with start time `g`. -/
def startIs (g : Int) : Op → Prop
  | .genReturn _ _ ts _ => ts = g
  | _ => True

/-- Events since the message: its recording first, or no recording if there is nothing to record. -/
def RecOk (sp : Specs) (g : Int) (w : Nat) (m : Msg) (l : List Ev) : Prop :=
  (NoRec l ∧ m.results sp = false) ∨ ∃ o l', l = l' ++ [.op o] ∧ NoRec l' ∧ (Records w m o ∧ startIs g o) ∧ m.results sp = true

theorem genStartedOf_ensureSimId (s : St) (r : Rec) (w : Nat) : genStartedOf sp (ensureSimId sp s r) w = genStartedOf sp s w := by
  have : (ensureSimId sp s r).W = s.W := by simp only [ensureSimId]; split <;> rfl
  simp only [genStartedOf, getW, this]

theorem genStartedOf_starts {a b : St} (h : a.W.map (·.genStarted) = b.W.map (·.genStarted)) (w : Nat) :
    genStartedOf sp a w = genStartedOf sp b w := by
  have hl : a.W.length = b.W.length := by have := congrArg List.length h; simpa using this
  simp only [genStartedOf, getW, hl]
  cases wPos sp.gom b.W.length w with
  | none => rfl
  | some k =>
    have := congrArg (·[k]?) h
    simp only [List.getElem?_map] at this
    simp only [Option.bind_some, this]

theorem noRec_freeup (s : St) (w : Nat) : ∃ l, (freeup s w).tr = l ++ s.tr ∧ NoRec l := by
  simp only [freeup]; split
  · exact ⟨[], rfl, by simp [NoRec, noRec]⟩
  · exact ⟨[.free w], rfl, by simp [NoRec, noRec]⟩

theorem ensureSimId_tr (s : St) (r : Rec) : (ensureSimId sp s r).tr = s.tr := by
  simp only [ensureSimId]; split <;> rfl

theorem markIdle_tr (s : St) (w : Nat) (d : Data) : (markIdle sp s w d).tr = s.tr := by
  simp only [markIdle]; split
  · exact modW_tr _ _ _
  · rfl

theorem finishPersis_noRec (s : St) (w : Nat) : ∃ l, (finishPersis sp s w).tr = l ++ s.tr ∧ NoRec l := by
  simp only [finishPersis]
  obtain ⟨l, hl, hn⟩ := noRec_freeup (if w ∈ (modW sp s w fun x => if x.activeRecv then { x with persis := 0, active := 0, activeRecv := false }
    else { x with persis := 0 }).pending then
      modW sp { (modW sp s w fun x => if x.activeRecv then { x with persis := 0, active := 0, activeRecv := false }
    else { x with persis := 0 }) with pending := (modW sp s w fun x => if x.activeRecv then { x with persis := 0, active := 0, activeRecv := false }
    else { x with persis := 0 }).pending.erase w } w (fun x => { x with active := 0 })
    else (modW sp s w fun x => if x.activeRecv then { x with persis := 0, active := 0, activeRecv := false }
    else { x with persis := 0 })) w
  refine ⟨l, ?_, hn⟩
  rw [hl]
  split <;> simp only [modW_tr]

theorem finalData_rec (s : St) (w : Nat) (d : Data) (t : Int) (hf : d.isFinished = true) :
    ∃ l, (finalData sp s w d t).1.tr = l ++ s.tr ∧ RecOk sp (genStartedOf sp s w) w (.data d) l := by
  have hg : d.calcStatus = FINISHED_PERSISTENT_GEN → d.calcStatus ≠ FINISHED_PERSISTENT_SIM := by
    intro h; rw [h]; simp [FINISHED_PERSISTENT_GEN, FINISHED_PERSISTENT_SIM]
  simp only [finalData]
  cases ho : d.out with
  | arr r =>
    simp only
    split
    · rename_i h
      refine ⟨[.op (.genReturn w r (genStartedOf sp (ensureSimId sp s r) w) t)], ?_, .inr ⟨_, [], rfl, by simp [NoRec, noRec], ?_, ?_⟩⟩
      · simp only [doOp, ensureSimId_tr]; rfl
      · exact ⟨by simp [Records, ho, Out.array, Data.isGen, h.1], genStartedOf_ensureSimId ..⟩
      · simp [Msg.results, h.1, h.2, ho, Out.array]
    · split
      · rename_i h1 h
        refine ⟨[.op (.simReturn d.rows (some r) t sp.kill)], rfl, .inr ⟨_, [], rfl, by simp [NoRec, noRec], ?_, ?_⟩⟩
        · exact ⟨by simp [Records, ho, Out.array, Data.isSim, h.1], trivial⟩
        · simp [Msg.results, h.1, h.2, ho, Out.array, FINISHED_PERSISTENT_GEN, FINISHED_PERSISTENT_SIM]
      · rename_i h1 h2
        refine ⟨[], rfl, .inl ⟨by simp [NoRec, noRec], ?_⟩⟩
        simp only [Msg.results]
        rcases (isFinished_iff d).mp hf with h | h
        · rw [if_neg (by rw [h]; simp [FINISHED_PERSISTENT_GEN, FINISHED_PERSISTENT_SIM]), if_pos h]
          have : sp.retSim = false := by simpa using fun hh => h2 ⟨h, hh⟩
          simp [this]
        · rw [if_pos h]
          have : sp.retGen = false := by simpa using fun hh => h1 ⟨h, hh⟩
          simp [this]
  | none =>
    refine ⟨[], rfl, .inl ⟨by simp [NoRec, noRec], ?_⟩⟩
    rcases (isFinished_iff d).mp hf with h | h <;> simp [Msg.results, h, ho, Out.array, FINISHED_PERSISTENT_GEN, FINISHED_PERSISTENT_SIM]
  | other =>
    refine ⟨[], rfl, .inl ⟨by simp [NoRec, noRec], ?_⟩⟩
    rcases (isFinished_iff d).mp hf with h | h <;> simp [Msg.results, h, ho, Out.array, FINISHED_PERSISTENT_GEN, FINISHED_PERSISTENT_SIM]

theorem noRec_stops (ws : List Nat) : NoRec ((ws.map Ev.stop).reverse ++ [.exc]) := by
  intro e he
  simp only [List.mem_append, List.mem_reverse, List.mem_map, List.mem_singleton] at he
  rcases he with ⟨w, _, rfl⟩ | rfl <;> rfl

theorem workData_rec (s : St) (w : Nat) (d : Data) (t : Int) (hf : d.isFinished = false) :
    ∃ l, (workData sp s w d t).1.tr = l ++ s.tr ∧ RecOk sp (genStartedOf sp s w) w (.data d) l := by
  have hns : d.calcStatus ≠ FINISHED_PERSISTENT_SIM ∧ d.calcStatus ≠ FINISHED_PERSISTENT_GEN := by
    constructor <;> (intro h; rw [(isFinished_iff d).mpr (by simp [h])] at hf; simp at hf)
  have hres : (Msg.data d).results sp = ((decide (d.calcType = EVAL_SIM) && !d.broken) || (decide (d.calcType = EVAL_GEN) && d.out.array.isSome)) := by
    simp only [Msg.results]; rw [if_neg hns.2, if_neg hns.1]
  have key : ∃ l, (if d.calcType = EVAL_SIM then simData sp s d t
        else if d.calcType = EVAL_GEN then genData sp s w d t else (s, none)).1.tr = l ++ s.tr ∧ RecOk sp (genStartedOf sp s w) w (.data d) l := by
    split
    · rename_i hc
      simp only [simData]
      cases ho : d.out with
      | none =>
        refine ⟨[.op (.simReturn d.rows none t sp.kill)], rfl, .inr ⟨_, [], rfl, by simp [NoRec, noRec], ?_, ?_⟩⟩
        · exact ⟨by simp [Records, ho, Out.array, Data.isSim, hf, hc], trivial⟩
        · rw [hres]; simp [hc, Data.broken, ho]
      | arr r =>
        refine ⟨[.op (.simReturn d.rows (some r) t sp.kill)], rfl, .inr ⟨_, [], rfl, by simp [NoRec, noRec], ?_, ?_⟩⟩
        · exact ⟨by simp [Records, ho, Out.array, Data.isSim, hf, hc], trivial⟩
        · rw [hres]; simp [hc, Data.broken, ho]
      | other =>
        have hr : (Msg.data d).results sp = false := by rw [hres]; simp [hc, Data.broken, ho, Out.array]
        simp only
        split
        · exact ⟨[], rfl, .inl ⟨by simp [NoRec, noRec], hr⟩⟩
        · refine ⟨_, ?_, .inl ⟨noRec_stops (ids s), hr⟩⟩
          rw [killWorkers_eq]; simp [emit, ids]
    · rename_i hc
      split
      · rename_i hg
        simp only [genData]
        cases ho : d.out with
        | arr r =>
          simp only [andThen]
          have htr : (doOp (ensureSimId sp s r) (.genReturn w r (genStartedOf sp (ensureSimId sp s r) w) t)).1.tr =
              [.op (.genReturn w r (genStartedOf sp (ensureSimId sp s r) w) t)] ++ s.tr := by
            simp only [doOp, ensureSimId_tr]; rfl
          refine ⟨[.op (.genReturn w r (genStartedOf sp (ensureSimId sp s r) w) t)], ?_, .inr ⟨_, [], rfl, by simp [NoRec, noRec], ?_, ?_⟩⟩
          · split
            · exact htr
            · split <;> exact htr
          · exact ⟨by simp [Records, ho, Out.array, Data.isGen, hf, hg], genStartedOf_ensureSimId ..⟩
          · rw [hres]; simp [hg, Data.broken, ho, Out.array]
        | none => exact ⟨[], rfl, .inl ⟨by simp [NoRec, noRec], by rw [hres]; simp [hc, ho, Out.array]⟩⟩
        | other => exact ⟨[], rfl, .inl ⟨by simp [NoRec, noRec], by rw [hres]; simp [hc, ho, Out.array]⟩⟩
      · rename_i hg
        exact ⟨[], rfl, .inl ⟨by simp [NoRec, noRec], by rw [hres]; simp [hc, hg]⟩⟩
  obtain ⟨l, hl, hr⟩ := key
  simp only [workData]
  generalize (if d.calcType = EVAL_SIM then simData sp s d t
        else if d.calcType = EVAL_GEN then genData sp s w d t else (s, none)) = x at hl
  simp only [andThen]
  have happ : ∀ l2, NoRec l2 → RecOk sp (genStartedOf sp s w) w (.data d) (l2 ++ l) := by
    intro l2 h2
    rcases hr with ⟨h1, h3⟩ | ⟨o, l', rfl, h1, h3, h4⟩
    · refine .inl ⟨fun o ho => ?_, h3⟩
      rcases List.mem_append.mp ho with h | h
      · exact h2 o h
      · exact h1 o h
    · refine .inr ⟨o, l2 ++ l', by simp, fun o ho => ?_, h3, h4⟩
      rcases List.mem_append.mp ho with h | h
      · exact h2 o h
      · exact h1 o h
  split
  · exact ⟨l, hl, hr⟩
  · split
    · exact ⟨l, by simp only [modW_tr]; exact hl, hr⟩
    · obtain ⟨l2, hl2, hn⟩ := noRec_freeup x.1 w
      exact ⟨l2 ++ l, by simp only; rw [hl2, hl, List.append_assoc], happ l2 hn⟩

theorem handleMsg_rec (s : St) (w : Nat) (m : Msg) (t : Int) :
    ∃ l, (handleMsg sp s w m t).1.tr = l ++ .recv w m :: s.tr ∧ RecOk sp (genStartedOf sp s w) w m l := by
  cases m with
  | finished => exact ⟨[], rfl, .inl ⟨by simp [NoRec, noRec], rfl⟩⟩
  | log => exact ⟨[], rfl, .inl ⟨by simp [NoRec, noRec], rfl⟩⟩
  | err =>
    simp only [handleMsg]
    split
    · exact ⟨[], by simp only [modW_tr]; rfl, .inl ⟨by simp [NoRec, noRec], rfl⟩⟩
    · refine ⟨_, ?_, .inl ⟨noRec_stops (ids (emit { modW sp (emit s (.recv w .err)) w (fun x => { x with active := 0 }) with exc := true } .exc)), rfl⟩⟩
      rw [killWorkers_eq]
      simp only [emit, modW_tr]; simp
  | data d =>
    simp only [handleMsg, updateOnMsg]
    have h1 := markIdle_tr (sp := sp) (emit s (.recv w (.data d))) w d
    have hst : genStartedOf sp (markIdle sp (emit s (.recv w (.data d))) w d) w = genStartedOf sp s w := by
      refine genStartedOf_starts ?_ w
      simp only [markIdle]
      split
      · exact modW_map (·.genStarted) (fun x => { x with active := 0 }) (fun _ => rfl) _ _
      · rfl
    rw [← hst]
    generalize markIdle sp (emit s (.recv w (.data d))) w d = s1 at h1
    split
    · rename_i hf
      obtain ⟨l, hl, hr⟩ := finalData_rec (sp := sp) s1 w d t ((isFinished_iff d).mpr hf)
      simp only [andThen]
      split
      · exact ⟨l, by rw [hl, h1]; rfl, hr⟩
      · obtain ⟨l2, hl2, hn⟩ := finishPersis_noRec (sp := sp) (finalData sp s1 w d t).1 w
        refine ⟨l2 ++ l, by simp only; rw [hl2, hl, h1, List.append_assoc]; rfl, ?_⟩
        rcases hr with ⟨h1, h3⟩ | ⟨o, l', rfl, h1, h3, h4⟩
        · refine .inl ⟨fun o ho => ?_, h3⟩
          rcases List.mem_append.mp ho with h | h
          · exact hn o h
          · exact h1 o h
        · refine .inr ⟨o, l2 ++ l', by simp, fun o ho => ?_, h3, h4⟩
          rcases List.mem_append.mp ho with h | h
          · exact hn o h
          · exact h1 o h
    · rename_i hf
      obtain ⟨l, hl, hr⟩ := workData_rec (sp := sp) s1 w d t (by
        cases h : d.isFinished
        · rfl
        · exact absurd ((isFinished_iff d).mp h) hf)
      exact ⟨l, by rw [hl, h1]; rfl, hr⟩

/-- Results are recorded directly after the message that carries them, and only then. -/
def recF (sp : Specs) (post : List Ev) (e : Ev) (pre : List Ev) : Prop :=
  match e with
  | .op o => isResult o = true → ∃ w m pre', pre = .recv w m :: pre' ∧ Records w m o ∧ m.results sp = true
  | .recv w m => m.results sp = true → ∃ o post', post = post' ++ [.op o] ∧ Records w m o
  | _ => True

theorem recF_mono (l post : List Ev) (e : Ev) (pre : List Ev) (h : recF sp post e pre) : recF sp (l ++ post) e pre := by
  cases e with
  | recv w m =>
    intro hm
    obtain ⟨o, p, rfl, h2⟩ := h hm
    exact ⟨o, l ++ p, by simp, h2⟩
  | op o => exact h
  | _ => trivial

theorem recF_noRec {l tr : List Ev} (ha : Later (recF sp) tr) (hl : NoRec l) : Later (recF sp) (l ++ tr) := by
  refine ha.append recF_mono (fun l1 e l2 he => ?_)
  have h1 := hl e (by rw [he]; simp)
  cases e with
  | recv w m => simp [noRec] at h1
  | op o => intro hr; simp [noRec, hr] at h1
  | _ => trivial

theorem recF_msg {s : St} (w : Nat) (m : Msg) (t : Int) (ih : Later (recF sp) s.tr) :
    Later (recF sp) (handleMsg sp s w m t).1.tr := by
  obtain ⟨l, hl, hr⟩ := handleMsg_rec (sp := sp) s w m t
  rw [hl]
  rcases hr with ⟨h1, h3⟩ | ⟨o, l', rfl, h1, ⟨h3, _⟩, h4⟩
  · refine recF_noRec ?_ h1
    refine Later.append (l := [.recv w m]) ih recF_mono (fun l1 e l2 he => ?_)
    have hee : e = .recv w m := by
      have : e ∈ [Ev.recv w m] := by rw [he]; simp
      simpa using this
    subst hee
    intro hr; rw [h3] at hr; simp at hr
  · rw [List.append_assoc]
    refine recF_noRec ?_ h1
    refine Later.append (l := [.op o, .recv w m]) ih recF_mono (fun l1 e l2 he => ?_)
    cases l1 with
    | nil =>
      simp only [List.nil_append, List.cons.injEq] at he
      obtain ⟨rfl, rfl⟩ := he
      exact fun _ => ⟨w, m, s.tr, rfl, h3, h4⟩
    | cons a l1 =>
      simp only [List.cons_append, List.cons.injEq] at he
      obtain ⟨rfl, he⟩ := he
      cases l1 with
      | nil =>
        simp only [List.nil_append, List.cons.injEq] at he
        obtain ⟨rfl, rfl⟩ := he
        exact fun _ => ⟨o, [], rfl, h3⟩
      | cons b l1 => simp at he

theorem Reach.recF {p : Ph} {s : St} (h : Reach sp P s0 p s) (h0 : s0.tr = []) : Later (Manager.recF sp) s.tr := by
  have hmic : ∀ {a b : St} {Q : Ev → Prop}, Micros sp Q a b → (∀ e, Q e → noRec e = true) → Later (Manager.recF sp) a.tr →
      Later (Manager.recF sp) b.tr := by
    intro a b Q hm hq ha
    obtain ⟨l, hl, hle⟩ := hm.tr
    rw [hl]
    exact recF_noRec ha (fun e he => hq e (hle e he))
  have hone : ∀ {e : Ev} {tr}, noRec e = true → Later (Manager.recF sp) tr → Later (Manager.recF sp) (e :: tr) :=
    fun {e tr} he ha => recF_noRec (l := [e]) ha (by simpa [NoRec] using he)
  have hsave : ∀ {s : St} {b}, Later (Manager.recF sp) s.tr → Later (Manager.recF sp) (saveK sp s b).tr :=
    fun {s b} ih => hmic (micros_saveK (Q := fun _ => False) s b) (fun e h => h.elim) ih
  have hkill : ∀ {s : St}, Later (Manager.recF sp) s.tr → Later (Manager.recF sp) (killCancelled sp s).1.tr :=
    fun {s} ih => hmic (micros_killCancelled s) (fun e h => by cases h <;> rfl) ih
  have hgive : ∀ {s : St} {wk w t}, Later (Manager.recF sp) s.tr → Later (Manager.recF sp) (handOut sp s wk w t).1.tr :=
    fun {s wk w t} ih => hmic (micros_handOut s wk w t) (fun e h => by
      cases h with
      | send h => cases h <;> rfl
      | _ => rfl) ih
  have hstop : ∀ {s : St} {w t}, Later (Manager.recF sp) s.tr → Later (Manager.recF sp) (stopPersis sp s w t).1.tr :=
    fun {s w t} ih => hmic (micros_stopPersis s w t) (fun e h => by
      cases h with
      | send wk _ h => cases h <;> rfl
      | _ => rfl) ih
  induction h with
  | init => rw [h0]; intro post e pre h; simp at h
  | test e hr h1 ih => exact hone rfl ih
  | stop e hr _ ih => exact hone rfl ih
  | kill hr _ ih => exact hkill ih
  | killErr hr _ ih => exact hkill ih
  | mail w m t hr hw _ ih => exact recF_msg w m t ih
  | mailErr w m t hr hw _ ih => exact recF_msg w m t ih
  | save _ ih => exact hsave ih
  | allocErr cs hr _ ih => exact hone rfl ih
  | allocFlag cs work p hr _ ih => exact hone rfl ih
  | allocOk cs work p t hr _ ih => exact hone rfl ih
  | give hr hm _ ih => exact hgive ih
  | giveErr hr hm _ ih => exact hgive ih
  | again _ _ _ ih => exact ih
  | noWork _ _ ih => exact ih
  | final hr ih => exact hone rfl ih
  | pstop t hr _ ih => exact hstop ih
  | pstopErr t hr _ ih => exact hstop ih
  | drain _ ih => exact ih
  | dmail w m t hr hw _ ih => exact recF_msg w m t ih
  | dmailErr w m t hr hw _ ih => exact recF_msg w m t ih
  | dsave _ ih => exact hsave ih
  | done p hr ih =>
    have h2 := hmic (micros_killWorkers (sp := sp) (saveK sp _ sp.saveDone)) (fun e h => by obtain ⟨w, rfl⟩ := h; rfl) (hsave ih)
    exact h2

end Verif.Manager
