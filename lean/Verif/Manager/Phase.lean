import Verif.Manager.Exact
/-
The agreement of table and messages, along runs.
-/
namespace Verif.Manager
open Verif.History Verif.Res Verif.Sched Verif.Alloc

variable {sp : Specs} {P : St → Reply → Prop} {s0 : St}

/-! ### `persis_pending` and the end of the main loop -/

theorem simData_pending (s : St) (d : Data) (t : Int) : (simData sp s d t).1.pending = s.pending := by
  simp only [simData]
  split
  · split
    · rfl
    · rw [killWorkers_eq]; rfl
  · rfl
  · rfl

theorem finishPersis_pending (s : St) (w : Nat) :
    (finishPersis sp s w).pending = if w ∈ s.pending then s.pending.erase w else s.pending := by
  simp only [finishPersis]
  rw [(sameTab_freeup _ w).pending]
  simp only [modW_pending]
  split
  · rw [modW_pending]
  · rw [modW_pending]

theorem updateOnMsg_pending (s : St) (w : Nat) (d : Data) (t : Int) :
    (updateOnMsg sp s w d t).1.pending = s.pending ∨ (updateOnMsg sp s w d t).1.pending = s.pending.erase w := by
  have hm : (markIdle sp s w d).pending = s.pending := by
    simp only [markIdle]; split
    · rw [modW_pending]
    · rfl
  simp only [updateOnMsg]
  rw [← hm]
  generalize markIdle sp s w d = s1
  split
  · simp only [andThen]
    have h1 := (sameTab_finalData (sp := sp) s1 w d t).pending
    split
    · exact .inl h1
    · simp only
      rw [finishPersis_pending, h1]
      split
      · exact .inr rfl
      · exact .inl rfl
  · left
    have h2 : (if d.calcType = EVAL_SIM then simData sp s1 d t
        else if d.calcType = EVAL_GEN then genData sp s1 w d t else (s1, none)).1.pending = s1.pending := by
      split
      · exact simData_pending _ _ _
      · split
        · exact (sameTab_genData _ _ _ _).pending
        · rfl
    simp only [workData, andThen]
    generalize (if d.calcType = EVAL_SIM then simData sp s1 d t
        else if d.calcType = EVAL_GEN then genData sp s1 w d t else (s1, none)) = r at h2
    split
    · exact h2
    · split
      · simp only [modW_pending]; exact h2
      · simp only; rw [(sameTab_freeup _ w).pending]; exact h2

theorem handleMsg_pending (s : St) (w : Nat) (m : Msg) (t : Int) :
    (handleMsg sp s w m t).1.pending = s.pending ∨ (handleMsg sp s w m t).1.pending = s.pending.erase w := by
  cases m with
  | finished => exact .inl rfl
  | log => exact .inl rfl
  | err =>
    left
    simp only [handleMsg]
    split
    · simp only [modW_pending, emit]
    · rw [killWorkers_eq]; simp only [emit, modW_pending]
  | data d => simpa [handleMsg, emit] using updateOnMsg_pending (sp := sp) (emit s (.recv w (.data d))) w d t

theorem handOut_pending (s : St) (wk : Work) (w : Nat) (t : Int) : (handOut sp s wk w t).1.pending = s.pending := by
  rcases handOut_cases (sp := sp) s wk w t with ⟨e, _, he⟩ | ⟨_, h | ⟨k, wk', l0, l, _, h⟩ | ⟨k, wk', l0, l, h, _⟩⟩
  · rw [he]
  · exact h.2.1.pending
  · rcases h with ⟨h, _⟩ | ⟨⟨s1, h, h'⟩, _⟩
    · exact h.pending
    · rw [h']; exact h.pending
  · exact h.pending

theorem hasFinal_false {l : List Ev} (h : ∀ e ∈ l, e ≠ .final) : hasFinal l = false := by
  rw [hasFinal, List.any_eq_false]
  intro e he
  have := h e he
  cases e <;> simp at this ⊢

theorem Micros.noFinal {Q : Ev → Prop} {a b : St} (h : Micros sp Q a b) (hq : ∀ e, Q e → e ≠ .final) :
    hasFinal b.tr = hasFinal a.tr := by
  obtain ⟨l, hl, hle⟩ := h.tr
  rw [hl, hasFinal_append, hasFinal_false (fun e he => hq e (hle e he)), Bool.false_or]

theorem noFinal_kill (s : St) : hasFinal (killCancelled sp s).1.tr = hasFinal s.tr :=
  (micros_killCancelled s).noFinal (fun e h => by cases h <;> simp)
theorem noFinal_msg (s : St) (w m t) : hasFinal (handleMsg sp s w m t).1.tr = hasFinal s.tr :=
  (micros_handleMsg s w m t).noFinal (fun e h => by cases h <;> simp)
theorem noFinal_save (s : St) (b) : hasFinal (saveK sp s b).tr = hasFinal s.tr :=
  (micros_saveK (Q := fun _ => False) s b).noFinal (fun e h => h.elim)
theorem QSend.ne_final {wk : Work} {w : Nat} {e : Ev} (h : QSend wk w e) : e ≠ .final := by cases h <;> simp
theorem noFinal_give (s : St) (wk w t) : hasFinal (handOut sp s wk w t).1.tr = hasFinal s.tr :=
  (micros_handOut s wk w t).noFinal (fun e h => by
    cases h with
    | send h => exact h.ne_final
    | sim => simp
    | gen => simp)
theorem noFinal_pstop (s : St) (w t) : hasFinal (stopPersis sp s w t).1.tr = hasFinal s.tr :=
  (micros_stopPersis s w t).noFinal (fun e h => by
    cases h with
    | stop => simp
    | send wk _ h => exact h.ne_final
    | gen => simp)
theorem noFinal_finish (s : St) : hasFinal (killWorkers s).tr = hasFinal s.tr :=
  (micros_killWorkers (sp := {}) s).noFinal (fun e h => by obtain ⟨w, rfl⟩ := h; simp)

/-- Place before the shutdown. -/
def Ph.main : Ph → Bool
  | .loop | .kill | .recv | .alloc | .hand _ | .over _ => true
  | _ => false

theorem Reach.hasFinal {p : Ph} {s : St} (h : Reach sp P s0 p s) (h0 : Manager.hasFinal s0.tr = false) : Manager.hasFinal s.tr = !p.main := by
  induction h with
  | init => exact h0
  | test e _ _ ih => exact ih
  | stop e _ _ ih => exact ih
  | kill _ _ ih => rw [noFinal_kill]; exact ih
  | killErr _ _ ih => rw [noFinal_kill]; exact ih
  | mail w m t _ _ _ ih => rw [noFinal_msg]; exact ih
  | mailErr w m t _ _ _ ih => rw [noFinal_msg]; exact ih
  | save _ ih => rw [noFinal_save]; exact ih
  | allocErr cs _ _ ih => exact ih
  | allocFlag cs work p _ _ ih => exact ih
  | allocOk cs work p t _ _ ih => exact ih
  | give _ _ _ ih => rw [noFinal_give]; exact ih
  | giveErr _ _ _ ih => rw [noFinal_give]; exact ih
  | again _ _ _ ih => exact ih
  | noWork _ _ ih => exact ih
  | final _ ih => rfl
  | pstop t _ _ ih => rw [noFinal_pstop]; exact ih
  | pstopErr t _ _ ih => rw [noFinal_pstop]; exact ih
  | drain _ ih => exact ih
  | dmail w m t _ _ _ ih => rw [noFinal_msg]; exact ih
  | dmailErr w m t _ _ _ ih => rw [noFinal_msg]; exact ih
  | dsave _ ih => rw [noFinal_save]; exact ih
  | done p _ ih =>
    show Manager.hasFinal (killWorkers _).tr = _
    rw [noFinal_finish, noFinal_save]; exact ih

theorem Reach.pending {p : Ph} {s : St} (h : Reach sp P s0 p s) (h0 : s0.pending = []) (hp : p.main = true) : s.pending = [] := by
  induction h with
  | init => exact h0
  | test e _ _ ih => exact ih rfl
  | stop e _ _ ih => exact ih rfl
  | kill _ _ ih => rw [(sameTab_killCancelled _).pending]; exact ih rfl
  | killErr _ _ ih => rw [(sameTab_killCancelled _).pending]; exact ih rfl
  | mail w m t _ _ _ ih =>
    rcases handleMsg_pending (sp := sp) _ w m t with h | h <;> rw [h, ih rfl]
    rfl
  | mailErr w m t _ _ _ ih =>
    rcases handleMsg_pending (sp := sp) _ w m t with h | h <;> rw [h, ih rfl]
    rfl
  | save _ ih => rw [(sameTab_saveK _ _).pending]; exact ih rfl
  | allocErr cs _ _ ih => exact ih rfl
  | allocFlag cs work p _ _ ih => exact ih rfl
  | allocOk cs work p t _ _ ih => exact ih rfl
  | give _ _ _ ih => rw [handOut_pending]; exact ih rfl
  | giveErr _ _ _ ih => rw [handOut_pending]; exact ih rfl
  | again _ _ _ ih => exact ih rfl
  | noWork _ _ ih => exact ih rfl
  | _ => simp [Ph.main] at hp

/-! ### The agreement -/

/-- Errors that leave the table in agreement with the messages: those of the checks made before anything is
changed, those of the allocation function, and worker exceptions. -/
def MErr.clean : MErr → Bool
  | .worker | .recvOrder | .busy | .noFields | .badFields | .noWork | .alloc => true
  | _ => false

def MainEnd.clean : MainEnd → Bool
  | .raised e => e.clean
  | _ => true

/-- Places at which table and messages agree. -/
def Ph.clean : Ph → Bool
  | .over e | .fin e _ | .drain e | .done e => e.clean
  | .aborted _ => false
  | _ => true

theorem checkOrder_clean {s : St} {wk : Work} {w : Nat} {t : Int} {e : MErr} (h : (handOut sp s wk w t).2 = some e)
    (hc : e.clean = true) : (handOut sp s wk w t).1 = s := by
  simp only [handOut] at h ⊢
  cases hk : checkOrder sp s wk w false with
  | some e' => rfl
  | none =>
    simp only [hk, andThen] at h
    exfalso
    have hsend : ∀ e', (sendOrder sp s wk w t).2 = some e' → e'.clean = false := by
      intro e' he'
      simp only [sendOrder] at he'
      have hset : ∀ e, (setResources sp s wk w).2.2 = some e → e.clean = false := by
        intro e he
        simp only [setResources] at he
        repeat' split at he
        all_goals first | (simp at he; done) | (simp only [Option.some.injEq] at he; subst he; rfl)
      generalize setResources sp s wk w = x at he' hset
      obtain ⟨s1, wk1, e1⟩ := x
      cases e1 with
      | some e1 => simp only at he'; exact hset _ he'
      | none =>
        simp only at he'
        split at he'
        · simp only [Option.some.injEq] at he'; subst he'; rfl
        · simp only [sendRows] at he'
          repeat' split at he'
          all_goals first | (simp at he'; done) | (simp only [Option.some.injEq] at he'; subst he'; rfl)
    split at h
    · rename_i e' he'
      simp only [Option.some.injEq] at h; subst h
      rw [hsend _ he'] at hc; simp at hc
    · simp only [updateOnAlloc] at h
      have hop : ∀ (s : St) (o : Op) e, (doOp s o).2 = some e → e.clean = false := by
        intro s o e he; simp only [doOp] at he
        cases hx : (apply s.hist o).2 with
        | none => simp [hx] at he
        | some x => simp only [hx, Option.map_some, Option.some.injEq] at he; subst he; rfl
      split at h
      · simp only [Option.some.injEq] at h; subst h; simp [MErr.clean] at hc
      · split at h
        · rw [hop _ _ _ h] at hc; simp at hc
        · split at h
          · rw [hop _ _ _ h] at hc; simp at hc
          · simp at h

theorem killCancelled_err {s : St} {e : MErr} (h : (killCancelled sp s).2 = some e) : e.clean = false := by
  have hloop : ∀ (kids : List Nat) (l : List (Nat × Nat)) (s : St) e, (killLoop sp kids l s).2 = some e → e.clean = false := by
    intro kids l
    induction l with
    | nil => intro s e h; simp [killLoop] at h
    | cons x l ih =>
      intro s e h
      obtain ⟨i, w⟩ := x
      simp only [killLoop] at h
      split at h
      · simp only [Option.some.injEq] at h; subst h; rfl
      · simp only [andThen] at h
        split at h
        · rename_i e' he'
          simp only [Option.some.injEq] at h; subst h
          simp only [doOp] at he'
          generalize apply _ _ = y at he'
          cases hx : y.2 with
          | none => simp [hx] at he'
          | some x => simp only [hx, Option.map_some, Option.some.injEq] at he'; subst he'; rfl
        · exact ih _ _ h
  simp only [killCancelled] at h
  split at h
  · split at h
    · simp only [Option.some.injEq] at h; subst h; rfl
    · split at h
      · simp only [Option.some.injEq] at h; subst h; rfl
      · exact hloop _ _ _ _ h
  · simp at h

theorem updateOnMsg_err {s : St} {w : Nat} {d : Data} {t : Int} {e : MErr} (h : (updateOnMsg sp s w d t).2 = some e) :
    e = .worker ∨ e = .emptyGen ∨ e = .type ∨ ∃ x, e = .hist x := by
  have hop : ∀ (s : St) (o : Op) e, (doOp s o).2 = some e → ∃ x, e = .hist x := by
    intro s o e he; simp only [doOp] at he
    cases hx : (apply s.hist o).2 with
    | none => simp [hx] at he
    | some x => simp only [hx, Option.map_some, Option.some.injEq] at he; exact ⟨x, he.symm⟩
  simp only [updateOnMsg] at h
  generalize markIdle sp s w d = s1 at h
  split at h
  · simp only [andThen] at h
    split at h
    · rename_i e' he
      simp only [Option.some.injEq] at h; subst h
      simp only [finalData] at he
      repeat' split at he
      all_goals first | exact .inr (.inr (.inr (hop _ _ _ he))) | simp at he
    · simp at h
  · simp only [workData, andThen] at h
    split at h
    · rename_i e' he
      simp only [Option.some.injEq] at h; subst h
      split at he
      · simp only [simData] at he
        split at he
        · split at he
          · simp at he
          · simp only [Option.some.injEq] at he; exact .inl he.symm
        · exact .inr (.inr (.inr (hop _ _ _ he)))
        · exact .inr (.inr (.inr (hop _ _ _ he)))
      · split at he
        · simp only [genData] at he
          split at he
          · simp only [andThen] at he
            split at he
            · rename_i e2 he2
              simp only [Option.some.injEq] at he; subst he
              exact .inr (.inr (.inr (hop _ _ _ he2)))
            · split at he
              · simp at he
              · simp only [Option.some.injEq] at he; exact .inr (.inl he.symm)
          · simp only [Option.some.injEq] at he; exact .inr (.inr (.inl he.symm))
        · simp at he
    · split at h <;> simp at h

theorem handleMsg_err {s : St} {w : Nat} {m : Msg} {t : Int} {e : MErr} (h : (handleMsg sp s w m t).2 = some e) :
    e = .worker ∨ e = .emptyGen ∨ e = .type ∨ ∃ x, e = .hist x := by
  cases m with
  | finished => simp [handleMsg] at h
  | log => simp [handleMsg] at h
  | err =>
    simp only [handleMsg] at h
    split at h
    · simp at h
    · simp only [Option.some.injEq] at h; exact .inl h.symm
  | data d => exact updateOnMsg_err h

theorem mem_persisIds {s : St} {w : Nat} (h : w ∈ persisIds s) : ∃ x ∈ s.W, x.persis ≠ 0 ∧ x.id = w := by
  simp only [persisIds, List.mem_map, List.mem_filter, decide_eq_true_eq] at h
  obtain ⟨x, ⟨hx, hp⟩, rfl⟩ := h
  exact ⟨x, hx, hp, rfl⟩

theorem persisIds_nodup {s : St} (ht : Tab sp s) : (persisIds s).Nodup :=
  (ids_nodup ht).sublist (by
    simp only [persisIds, ids]
    exact List.Sublist.map _ List.filter_sublist)

/-- The workers still to be stopped. -/
structure ToStop (sp : Specs) (s : St) (ws : List Nat) : Prop where
  nd : ws.Nodup
  ok : ∀ w ∈ ws, w ∉ s.pending ∧ ∃ k x, idAt sp k = w ∧ s.W[k]? = some x ∧ x.persis ≠ 0

theorem stopPersis_frame {s : St} {k : Nat} {t : Int} (hk : k < s.W.length) (he : (stopPersis sp s (idAt sp k) t).2 = none) :
    (stopPersis sp s (idAt sp k) t).1.pending = s.pending ++ [idAt sp k] ∧
    ∀ j x, s.W[j]? = some x → ∃ x', (stopPersis sp s (idAt sp k) t).1.W[j]? = some x' ∧ x'.persis = x.persis ∧
      x'.activeRecv = x.activeRecv ∧ (j ≠ k → x' = x) := by
  have hpos : wPos sp.gom s.W.length (idAt sp k) = some k := wPos_idAt hk
  simp only [stopPersis] at he ⊢
  obtain ⟨h1, h2⟩ := andThen_none he
  rw [h2]
  clear he h2
  have key : (stopSend sp s (idAt sp k) t).1.pending = s.pending ∧
      ((stopSend sp s (idAt sp k) t).1.W = s.W ∨ ∃ t', (stopSend sp s (idAt sp k) t).1.W = s.W.modify k (fun x => { x with genStarted := t' })) := by
    simp only [stopSend] at h1 ⊢
    split
    · rename_i hf
      rw [if_pos hf] at h1
      cases hc : checkOrder sp s (lastOrder s) (idAt sp k) true with
      | some e => simp [hc] at h1
      | none =>
        simp only [hc] at h1 ⊢
        obtain ⟨h3, h4⟩ := andThen_none h1
        rw [h4]
        rcases sendOrder_cases (sp := sp) s (lastOrder s) (idAt sp k) t with ⟨hb, _⟩ | ⟨k', wk', l0, l, hS, _⟩
        · exact absurd h3 hb
        · obtain rfl : k' = k := by have := hS.pos; rw [hpos] at this; simpa using this.symm
          exact ⟨hS.pending, hS.W⟩
    · exact ⟨rfl, .inl rfl⟩
  obtain ⟨hp, hW⟩ := key
  generalize (stopSend sp s (idAt sp k) t).1 = s1 at hp hW
  have hlen : s1.W.length = s.W.length := by
    rcases hW with h | ⟨t, h⟩ <;> rw [h]
    exact List.length_modify _ _ _
  rw [modW_at (k := k) (by rw [hlen]; exact hpos)]
  refine ⟨by simp only; rw [hp], fun j x hx => ?_⟩
  simp only
  rw [getElem?_modify']
  rcases hW with h | ⟨t', h⟩
  · rw [h]
    by_cases hj : k = j
    · subst hj
      rw [if_pos rfl, hx]
      refine ⟨_, rfl, ?_, ?_, fun h => absurd rfl h⟩ <;> (simp only; split <;> rfl)
    · rw [if_neg hj, hx]
      exact ⟨x, rfl, rfl, rfl, fun _ => rfl⟩
  · rw [h, getElem?_modify']
    by_cases hj : k = j
    · subst hj
      simp only [if_pos rfl, hx, Option.map_some]
      refine ⟨_, rfl, ?_, ?_, fun h => absurd rfl h⟩ <;> (simp only; split <;> rfl)
    · simp only [if_neg hj, hx]
      exact ⟨x, rfl, rfl, rfl, fun _ => rfl⟩

/-- Table and messages agree at every clean place. -/
theorem Reach.vi {p : Ph} {s : St} (h : Reach sp P s0 p s) (h0 : VI sp s0) (hf0 : Manager.hasFinal s0.tr = false)
    (hp0 : s0.pending = []) (hc : p.clean = true) :
    VI sp s ∧ (∀ e ws, p = .fin e ws → ToStop sp s ws) := by
  have nofin : ∀ {p : Ph} {s : St}, Reach sp P s0 p s → Manager.hasFinal s.tr = !p.main := fun h => h.hasFinal hf0
  induction h with
  | init => exact ⟨h0, fun _ _ h => by simp at h⟩
  | test e _ _ ih => exact ⟨(ih rfl).1.emit _ rfl rfl, fun _ _ h => by simp at h⟩
  | stop e _ _ ih => exact ⟨(ih rfl).1.emit _ rfl rfl, fun _ _ h => by simp at h⟩
  | kill _ _ ih => exact ⟨(ih rfl).1.killCancelled, fun _ _ h => by simp at h⟩
  | killErr _ _ ih => exact ⟨(ih rfl).1.killCancelled, fun _ _ h => by simp at h⟩
  | mail w m t _ hw he ih => exact ⟨(ih rfl).1.handleMsg hw m t he, fun _ _ h => by simp at h⟩
  | mailErr w m t _ hw he ih =>
    refine ⟨(ih rfl).1.handleMsg_worker hw m t ?_, fun _ _ h => by simp at h⟩
    rcases handleMsg_err he with rfl | rfl | rfl | ⟨x, rfl⟩
    · exact he
    · simp [Ph.clean, MainEnd.clean, MErr.clean] at hc
    · simp [Ph.clean, MainEnd.clean, MErr.clean] at hc
    · simp [Ph.clean, MainEnd.clean, MErr.clean] at hc
  | save _ ih => exact ⟨(ih rfl).1.saveK _, fun _ _ h => by simp at h⟩
  | allocErr cs _ _ ih => exact ⟨(ih rfl).1.op _, fun _ _ h => by simp at h⟩
  | allocFlag cs work p _ _ ih => exact ⟨((ih rfl).1.op _).pinfo p, fun _ _ h => by simp at h⟩
  | allocOk cs work p t _ _ ih => exact ⟨((ih rfl).1.op _).pinfo p, fun _ _ h => by simp at h⟩
  | give hr hg he ih =>
    obtain ⟨_, k, wk', l0, l, hG, _⟩ := handOut_ok he
    exact ⟨(ih rfl).1.gave (nofin hr) hG, fun _ _ h => by simp at h⟩
  | giveErr hr hg he ih =>
    rw [checkOrder_clean he hc]
    exact ⟨(ih rfl).1, fun _ _ h => by simp at h⟩
  | again _ _ _ ih => exact ⟨(ih rfl).1, fun _ _ h => by simp at h⟩
  | noWork _ _ ih => exact ⟨(ih rfl).1, fun _ _ h => by simp at h⟩
  | final hr ih =>
    have hv := (ih hc).1
    refine ⟨hv.emit _ rfl rfl, fun e ws h => ?_⟩
    simp only [Ph.fin.injEq] at h
    obtain ⟨_, rfl⟩ := h
    refine ⟨persisIds_nodup hv.tab, fun w hw => ?_⟩
    refine ⟨by simp [emit, hr.pending hp0 rfl], ?_⟩
    obtain ⟨x, hx, hp, rfl⟩ := mem_persisIds hw
    obtain ⟨k, hk, hxk⟩ := List.getElem_of_mem hx
    have hxk' : _[k]? = some x := List.getElem?_eq_some_iff.mpr ⟨hk, hxk⟩
    exact ⟨k, x, (id_at hv.tab hxk').symm, hxk', hp⟩
  | pstop t hr he ih =>
    obtain ⟨hv, hts⟩ := ih hc
    have hT := hts _ _ rfl
    obtain ⟨hnp, k, x, rfl, hx, hpers⟩ := hT.ok _ List.mem_cons_self
    refine ⟨stopPersis_ok hv (nofin hr) hx hpers hnp t he, fun e ws h => ?_⟩
    simp only [Ph.fin.injEq] at h
    obtain ⟨_, rfl⟩ := h
    have hnd := List.nodup_cons.mp hT.nd
    obtain ⟨hp, hW⟩ := stopPersis_frame (List.getElem?_eq_some_iff.mp hx).1 he
    refine ⟨hnd.2, fun w hw => ?_⟩
    obtain ⟨h1, j, y, rfl, hy, hyp⟩ := hT.ok w (List.mem_cons_of_mem _ hw)
    refine ⟨?_, j, ?_⟩
    · rw [hp]
      simp only [List.mem_append, List.mem_singleton, not_or]
      exact ⟨h1, fun h => hnd.1 (h ▸ hw)⟩
    · obtain ⟨y', hy', hpe, _⟩ := hW j y hy
      exact ⟨y', rfl, hy', by rw [hpe]; exact hyp⟩
  | pstopErr t _ _ ih => simp [Ph.clean] at hc
  | drain _ ih => exact ⟨(ih hc).1, fun _ _ h => by simp at h⟩
  | dmail w m t _ hw he ih => exact ⟨(ih hc).1.handleMsg hw m t he, fun _ _ h => by simp at h⟩
  | dmailErr w m t _ _ _ ih => simp [Ph.clean] at hc
  | dsave _ ih => exact ⟨(ih hc).1.saveK _, fun _ _ h => by simp at h⟩
  | done p _ ih => exact ⟨((ih hc).1.saveK _).killWorkers.pinfo p, fun _ _ h => by simp at h⟩

end Verif.Manager
