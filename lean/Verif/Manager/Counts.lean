import Verif.Manager.Always
import Verif.History.Counters
/-
The counters of the history against the record of the run.
-/
namespace Verif.Manager
open Verif.History Verif.Res Verif.Sched Verif.Alloc

variable {sp : Specs} {P : St → Reply → Prop} {s0 : St}

theorem simGiven_append (l tr : List Ev) : simGiven (l ++ tr) = simGiven l ++ simGiven tr := List.flatMap_append
theorem simBack_append (l tr : List Ev) : simBack (l ++ tr) = simBack l ++ simBack tr := List.flatMap_append

theorem simGiven_nil {l : List Ev} (h : ∀ e ∈ l, simRowsOf e = []) : simGiven l = [] := by
  simpa [simGiven] using h
theorem simBack_nil {l : List Ev} (h : ∀ e ∈ l, simBackOf e = []) : simBack l = [] := by
  simpa [simBack] using h

/-- A property of the history that all recorded calls keep. -/
theorem Micro.histInv {Q : Ev → Prop} {I : Hist → Prop} {a b : St} (h : Micro sp Q a b)
    (hI : ∀ h o, Q (.op o) → I h → I (apply h o).1) (ha : I a.hist) : I b.hist := by
  cases h with
  | ev e _ _ _ _ => exact ha
  | op o hq => exact hI _ _ hq ha
  | mod w f hid => rw [modW_hist]; exact ha
  | assign w team rm rm' h h' h3 => exact ha
  | free w rm h h2 => exact ha
  | exc => exact ha
  | pending l => exact ha
  | persisIn l => exact ha
  | simFiles l => exact ha
  | genFiles l => exact ha
  | pinfo p => exact ha

theorem Micros.histInv {Q : Ev → Prop} {I : Hist → Prop} {a b : St} (h : Micros sp Q a b)
    (hI : ∀ h o, Q (.op o) → I h → I (apply h o).1) (ha : I a.hist) : I b.hist :=
  Micros.inv (I := fun s => I s.hist) (fun _ _ m => m.histInv hI) h ha

/-- What the counters start from does not change. -/
theorem Reach.offsets {p : Ph} {s : St} (h : Reach sp P s0 p s) :
    s.hist.simStartedOffset = s0.hist.simStartedOffset ∧ s.hist.simEndedOffset = s0.hist.simEndedOffset ∧
    s.hist.genInformedOffset = s0.hist.genInformedOffset :=
  h.micros.histInv (I := fun h => h.simStartedOffset = s0.hist.simStartedOffset ∧ h.simEndedOffset = s0.hist.simEndedOffset ∧
    h.genInformedOffset = s0.hist.genInformedOffset) (fun h o _ ha => by
      obtain ⟨h1, h2, h3⟩ := apply_offsets h o
      exact ⟨h1.trans ha.1, h2.trans ha.2.1, h3.trans ha.2.2⟩) ⟨rfl, rfl, rfl⟩

/-- The main loop is going on. -/
def Ph.going : Ph → Bool
  | .loop | .kill | .recv | .alloc | .hand _ => true
  | _ => false

/-- The counter of given rows agrees with the orders. -/
def StartedOk (n0 : Nat) (s : St) : Prop := s.hist.simStartedCount = n0 + (simGiven s.tr).length

theorem Micros.started {Q : Ev → Prop} {n0 : Nat} {a b : St} (h : Micros sp Q a b) (ha : StartedOk n0 a)
    (hq : ∀ e, Q e → simRowsOf e = [] ∧ ∀ r w t k, e ≠ .op (.giveSim r w t k)) : StartedOk n0 b := by
  obtain ⟨l, hl, hle⟩ := h.tr
  simp only [StartedOk] at *
  rw [hl, simGiven_append, simGiven_nil (fun e he => (hq e (hle e he)).1), List.nil_append, ← ha]
  exact h.histInv (I := fun h => h.simStartedCount = a.hist.simStartedCount) (fun h o ho hh => by
    rw [apply_started_count h o (fun r w t k he => (hq _ ho).2 r w t k (by rw [he]))]; exact hh) rfl

theorem StartedOk.gave {n0 : Nat} {a b : St} (ha : StartedOk n0 a) {w k : Nat} {t : Int} {wk wk' : Work} {l0 l : List Ev}
    (hG : Gave sp a b w k t wk wk' l0 l) : StartedOk n0 b := by
  simp only [StartedOk] at *
  have hl0 : simGiven l0 = [] := by
    rcases hG.before with h | ⟨team, h, _⟩ <;> rw [h] <;> rfl
  have hl : simGiven l = [] := by rw [hG.after]; split <;> rfl
  have ht : wk'.tag = wk.tag := by rw [hG.order]
  have hr : wk'.rows = wk.rows := by rw [hG.order]
  have hord : simRowsOf (.order (idAt sp k) w wk') = if wk.tag = EVAL_SIM then wk.rows else [] := by
    simp only [simRowsOf]; rw [ht, hr]
  have hcons : simGiven (.order (idAt sp k) w wk' :: (l0 ++ a.tr)) =
      (if wk.tag = EVAL_SIM then wk.rows else []) ++ simGiven (l0 ++ a.tr) := by
    rw [← hord]; rfl
  rw [hG.tr, hG.hist, simGiven_append, simGiven_append, hl, hcons, simGiven_append, hl0]
  simp only [orderOp]
  by_cases h1 : wk.tag = EVAL_SIM
  · simp only [h1, if_true]
    rw [apply_giveSim_count _ _ _ _ _ hG.rows, ha]
    simp [simGiven, simRowsOf]; omega
  · rw [if_neg h1, if_neg h1]
    by_cases h2 : wk.tag = EVAL_GEN
    · rw [if_pos h2]
      simp only
      rw [apply_started_count _ _ (by simp), ha]
      simp [simGiven, simRowsOf]
    · rw [if_neg h2]; simp only; rw [ha]; simp [simGiven]

theorem Reach.started {p : Ph} {s : St} {n0 : Nat} (h : Reach sp P s0 p s) (h0 : StartedOk n0 s0) (hp : p.going = true) :
    StartedOk n0 s := by
  induction h with
  | init => exact h0
  | test e _ _ ih => exact ih rfl
  | kill _ _ ih => exact (micros_killCancelled _).started (ih rfl) (fun e h => by cases h <;> exact ⟨rfl, by simp⟩)
  | mail w m t _ _ _ ih =>
    refine (micros_handleMsg _ w m t).started (ih rfl) (fun e h => ?_)
    cases h <;> exact ⟨rfl, by simp⟩
  | save _ ih => exact (micros_saveK (Q := fun _ => False) _ _).started (ih rfl) (fun e h => h.elim)
  | allocOk cs work p t _ _ ih =>
    have : StartedOk n0 (doOp _ (.requestCancel cs)).1 :=
      (micros_op (sp := sp) (Q := fun e => e = .op (.requestCancel cs)) _ _ rfl).started (ih rfl) (fun e h => by subst h; exact ⟨rfl, by simp⟩)
    exact this
  | give _ _ he ih =>
    obtain ⟨_, k, wk', l0, l, hG, _⟩ := handOut_ok he
    exact (ih rfl).gave hG
  | again _ _ _ ih => exact ih rfl
  | _ => simp [Ph.going] at hp

/-! ### Evaluated rows -/

/-- The counter of evaluated rows agrees with the recorded results. -/
def EndedOk (n0 : Nat) (s : St) : Prop := s.hist.simEndedCount = n0 + (simBack s.tr).length

theorem Micros.ended {Q : Ev → Prop} {n0 : Nat} {a b : St} (h : Micros sp Q a b) (ha : EndedOk n0 a)
    (hq : ∀ e, Q e → ∀ r d t k, e ≠ .op (.simReturn r d t k)) : EndedOk n0 b := by
  obtain ⟨l, hl, hle⟩ := h.tr
  simp only [EndedOk] at *
  have hn : ∀ e ∈ l, simBackOf e = [] := by
    intro e he
    have := hq e (hle e he)
    cases e with
    | op o => cases o with
      | simReturn r d t k => exact absurd rfl (this _ _ _ _)
      | _ => rfl
    | _ => rfl
  rw [hl, simBack_append, simBack_nil hn, List.nil_append, ← ha]
  exact h.histInv (I := fun h => h.simEndedCount = a.hist.simEndedCount) (fun h o ho hh => by
    rw [apply_ended_count h o (fun r d t k he => hq _ ho r d t k (by rw [he]))]; exact hh) rfl

theorem EndedOk.op {n0 : Nat} {s : St} (h : EndedOk n0 s) (o : Op) (hok : (doOp s o).2 = none) : EndedOk n0 (doOp s o).1 := by
  by_cases ho : ∃ r d t k, o = .simReturn r d t k
  · obtain ⟨r, d, t, k, rfl⟩ := ho
    simp only [EndedOk, doOp, Option.map_eq_none_iff] at *
    rw [apply_simReturn_count _ _ _ _ _ hok, h]
    simp [simBack, simBackOf]; omega
  · refine (micros_op (sp := {}) (Q := fun e => e = .op o) s o rfl).ended h (fun e he r d t k h' => ?_)
    subst he
    exact ho ⟨r, d, t, k, by simpa using h'⟩

theorem EndedOk.mod {n0 : Nat} {s : St} (h : EndedOk n0 s) (w : Nat) (f : Wrk → Wrk) : EndedOk n0 (modW sp s w f) := by
  simp only [EndedOk, modW_hist, modW_tr] at *; exact h

theorem EndedOk.same {n0 : Nat} {s s' : St} (h : EndedOk n0 s) (h1 : s'.hist = s.hist) (h2 : s'.tr = s.tr) : EndedOk n0 s' := by
  simp only [EndedOk, h1, h2] at *; exact h

theorem EndedOk.freeup {n0 : Nat} {s : St} (h : EndedOk n0 s) (w : Nat) : EndedOk n0 (freeup s w) :=
  (micros_freeup (sp := {}) (m := .log) s w).ended h (fun e h => by
    cases h with
    | sim _ _ _ hm _ => cases hm
    | _ => simp)

theorem EndedOk.updateOnMsg {n0 : Nat} {s : St} (h : EndedOk n0 s) (w : Nat) (d : Data) (t : Int)
    (hok : (updateOnMsg sp s w d t).2 = none) : EndedOk n0 (updateOnMsg sp s w d t).1 := by
  simp only [Manager.updateOnMsg] at hok ⊢
  have h1 : EndedOk n0 (markIdle sp s w d) := (micros_markIdle (Q := fun _ => False) s w d).ended h (fun e h => h.elim)
  generalize markIdle sp s w d = s1 at hok h1
  have hens : ∀ r, EndedOk n0 (ensureSimId sp s1 r) :=
    fun r => (micros_ensureSimId (Q := fun _ => False) s1 r).ended h1 (fun e h => h.elim)
  split
  · rename_i hf
    rw [if_pos hf] at hok
    obtain ⟨h2, h3⟩ := andThen_none hok
    rw [h3]
    have h4 : EndedOk n0 (finalData sp s1 w d t).1 := by
      simp only [finalData] at h2 ⊢
      cases ho : d.out with
      | arr r =>
        simp only [ho] at h2 ⊢
        split
        · rename_i hg; rw [if_pos hg] at h2; exact (hens r).op _ h2
        · rename_i hg
          rw [if_neg hg] at h2
          split
          · rename_i hg'; rw [if_pos hg'] at h2; exact h1.op _ h2
          · exact h1
      | none => exact h1
      | other => exact h1
    exact (micros_finishPersis (m := .log) _ w).ended h4 (fun e h => by
      cases h with
      | sim _ _ _ hm _ => cases hm
      | _ => simp)
  · rename_i hf
    rw [if_neg hf] at hok
    simp only [workData] at hok ⊢
    obtain ⟨h2, h3⟩ := andThen_none hok
    rw [h3]
    have h4 : EndedOk n0 (if d.calcType = EVAL_SIM then simData sp s1 d t
        else if d.calcType = EVAL_GEN then genData sp s1 w d t else (s1, none)).1 := by
      split
      · rename_i hs
        rw [if_pos hs] at h2
        simp only [simData] at h2 ⊢
        cases ho : d.out with
        | arr r => simp only [ho] at h2 ⊢; exact h1.op _ h2
        | none => simp only [ho] at h2 ⊢; exact h1.op _ h2
        | other =>
          simp only [ho] at h2 ⊢
          split
          · exact h1
          · rename_i hx; rw [if_neg hx] at h2; simp at h2
      · split
        · rename_i hs hg
          rw [if_neg hs, if_pos hg] at h2
          simp only [genData] at h2 ⊢
          cases ho : d.out with
          | arr r =>
            simp only [ho] at h2 ⊢
            obtain ⟨h5, h6⟩ := andThen_none h2
            have := (hens r).op _ h5
            rw [h6]
            split <;> exact this
          | none => exact h1
          | other => exact h1
        · exact h1
    generalize (if d.calcType = EVAL_SIM then simData sp s1 d t
        else if d.calcType = EVAL_GEN then genData sp s1 w d t else (s1, none)).1 = s2 at h4
    split
    · exact h4.mod _ _
    · exact h4.freeup w

theorem EndedOk.handleMsg {n0 : Nat} {s : St} (h : EndedOk n0 s) (w : Nat) (m : Msg) (t : Int)
    (hok : (handleMsg sp s w m t).2 = none) : EndedOk n0 (handleMsg sp s w m t).1 := by
  have h1 : EndedOk n0 (emit s (.recv w m)) := h
  simp only [Manager.handleMsg] at hok ⊢
  cases m with
  | finished => exact h1
  | log => exact h1
  | err =>
    simp only at hok ⊢
    split
    · exact h1.mod _ _
    · rename_i hx; rw [if_neg hx] at hok; simp at hok
  | data d => exact h1.updateOnMsg w d t hok

theorem Reach.ended {p : Ph} {s : St} {n0 : Nat} (h : Reach sp P s0 p s) (h0 : EndedOk n0 s0) (hp : p.going = true) :
    EndedOk n0 s := by
  induction h with
  | init => exact h0
  | test e _ _ ih => exact ih rfl
  | kill _ _ ih => exact (micros_killCancelled _).ended (ih rfl) (fun e h => by cases h <;> simp)
  | mail w m t _ _ he ih => exact (ih rfl).handleMsg w m t he
  | save _ ih => exact (micros_saveK (Q := fun _ => False) _ _).ended (ih rfl) (fun e h => h.elim)
  | allocOk cs work p t _ _ ih =>
    have : EndedOk n0 (doOp _ (.requestCancel cs)).1 := (ih rfl).op _ rfl
    exact this
  | give _ _ he ih =>
    refine (micros_handOut _ _ _ _).ended (ih rfl) (fun e h => ?_)
    cases h with
    | send h => cases h <;> simp
    | _ => simp
  | again _ _ _ ih => exact ih rfl
  | _ => simp [Ph.going] at hp

/-- Before every order of rows for evaluation fewer than `N` rows have been sent. -/
theorem Reach.simMax {p : Ph} {s : St} {N : Nat} (h : Reach sp P s0 p s) (hN : sp.simMax = some N) (h0 : s0.tr = [])
    (hs0 : s0.hist.simStartedCount = s0.hist.simStartedOffset) :
    Always (onOrder fun pre _ _ wk => wk.tag = EVAL_SIM → (simGiven pre).length < N) s.tr := by
  have h1 := h.orders (g := fun pre _ _ wk => Manager.hasFinal pre = false → (simGiven pre).length < N)
    (by rw [h0]; exact .nil) (by rw [h0]; rfl) (fun pre to key wk h h' => by rw [h] at h'; simp at h')
    (fun s w wk t rest k wk' l0 hr hm _ _ _ hl0 _ => by
      have hst := hr.started (n0 := s0.hist.simStartedOffset) (by simp [StartedOk, h0, hs0, simGiven]) rfl
      have ho := hr.offsets.1
      have hl : simGiven l0 = [] := by rcases hl0 with h | ⟨_, h⟩ <;> rw [h] <;> rfl
      rw [simGiven_append, hl, List.nil_append]
      simp only [simMaxGiven, hN, decide_eq_false_iff_not, StartedOk] at hm hst
      omega)
  have h2 := h.lateOrders h0
  intro post e pre he
  have a := h1 post e pre he
  have b := h2 post e pre he
  cases e with
  | order to key wk =>
    intro ht
    by_cases hf : Manager.hasFinal pre = true
    · have := b hf; rw [ht] at this; simp [EVAL_SIM, PERSIS_STOP] at this
    · exact a (by simpa using hf)
  | _ => trivial

theorem simGiven_bound {N b : Nat} (tr : List Ev)
    (h : Always (onOrder fun pre _ _ wk => wk.tag = EVAL_SIM → (simGiven pre).length < N) tr)
    (hb : ∀ to key wk, .order to key wk ∈ tr → wk.tag = EVAL_SIM → wk.rows.length ≤ b) :
    (simGiven tr).length ≤ N + (b - 1) := by
  induction tr with
  | nil => simp [simGiven]
  | cons e tr ih =>
    obtain ⟨h1, h2⟩ := always_cons.mp h
    have := ih h2 (fun to key wk he => hb to key wk (List.mem_cons_of_mem _ he))
    have hc : simGiven (e :: tr) = simRowsOf e ++ simGiven tr := rfl
    rw [hc, List.length_append]
    cases e with
    | order to key wk =>
      simp only [simRowsOf]
      split
      · rename_i ht
        have h3 := h1 ht
        have h4 := hb to key wk List.mem_cons_self ht
        omega
      · simpa using this
    | _ => simpa [simRowsOf] using this

/-- In the main loop all tests so far were negative. -/
theorem Reach.tests {p : Ph} {s : St} (h : Reach sp P s0 p s) (h0 : s0.tr = []) (hp : p.going = true) :
    ∀ r, .test r ∈ s.tr → r = 0 := by
  have hmic : ∀ {a b : St} {Q : Ev → Prop}, Micros sp Q a b → (∀ r, .test r ∈ a.tr → r = 0) → (∀ r, ¬ Q (.test r)) →
      ∀ r, .test r ∈ b.tr → r = 0 := by
    intro a b Q hm ha hq r hr
    obtain ⟨l, hl, hle⟩ := hm.tr
    rw [hl, List.mem_append] at hr
    rcases hr with hr | hr
    · exact absurd (hle _ hr) (hq r)
    · exact ha r hr
  induction h with
  | init => rw [h0]; simp
  | test e _ _ ih =>
    intro r hr
    simp only [emit, List.mem_cons, Ev.test.injEq] at hr
    rcases hr with rfl | hr
    · rfl
    · exact ih rfl r hr
  | kill _ _ ih => exact hmic (micros_killCancelled _) (ih rfl) (fun r h => by cases h)
  | mail w m t _ _ _ ih => exact hmic (micros_handleMsg _ w m t) (ih rfl) (fun r h => by cases h)
  | save _ ih => exact hmic (micros_saveK (Q := fun _ => False) _ _) (ih rfl) (fun r h => h)
  | allocOk cs work p t _ _ ih =>
    intro r hr
    simp only [doOp, List.mem_cons, reduceCtorEq, false_or] at hr
    exact ih rfl r hr
  | give _ _ he ih =>
    refine hmic (micros_handOut _ _ _ _) (ih rfl) (fun r h => ?_)
    cases h with
    | send h => cases h
  | again _ _ _ ih => exact ih rfl
  | _ => simp [Ph.going] at hp

end Verif.Manager
