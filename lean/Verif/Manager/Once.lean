import Verif.Manager.Bundled
import Verif.Manager.Trace
/-
With the bundled allocation functions no row is sent for evaluation twice.
-/
namespace Verif.Manager
open Verif.History Verif.Res Verif.Sched Verif.Alloc

variable {sp : Specs} {P : St → Reply → Prop} {s0 : St}

/-! ### Which steps send rows for evaluation -/

theorem Micros.simGiven {Q : Ev → Prop} {a b : St} (h : Micros sp Q a b) (hq : ∀ e, Q e → simRowsOf e = []) :
    Manager.simGiven b.tr = Manager.simGiven a.tr := by
  obtain ⟨l, hl, hle⟩ := h.tr
  rw [hl, simGiven_append, simGiven_nil (fun e he => hq e (hle e he)), List.nil_append]

theorem simGiven_kill (s : St) : simGiven (killCancelled sp s).1.tr = simGiven s.tr :=
  (micros_killCancelled s).simGiven (fun e h => by cases h <;> rfl)

theorem simGiven_msg (s : St) (w : Nat) (m : Msg) (t : Int) : simGiven (handleMsg sp s w m t).1.tr = simGiven s.tr :=
  (micros_handleMsg s w m t).simGiven (fun e h => by cases h <;> rfl)

theorem simGiven_save (s : St) (b : Bool) : simGiven (saveK sp s b).tr = simGiven s.tr :=
  (micros_saveK (Q := fun _ => False) s b).simGiven (fun e h => h.elim)

theorem simGiven_op (s : St) (o : Op) : simGiven (doOp s o).1.tr = simGiven s.tr := rfl

theorem simGiven_pstop (s : St) (w : Nat) (t : Int) : simGiven (stopPersis sp s w t).1.tr = simGiven s.tr :=
  (micros_stopPersis s w t).simGiven (fun e h => by
    cases h with
    | send wk h0 h => cases h with
      | order to wk' hwk =>
        have : wk'.tag = PERSIS_STOP := by rw [hwk]; exact h0
        simp [simRowsOf, this, PERSIS_STOP, EVAL_SIM]
      | _ => rfl
    | _ => rfl)

theorem simGiven_finish (s : St) : simGiven (killWorkers s).tr = simGiven s.tr :=
  (micros_killWorkers (sp := {}) s).simGiven (fun e h => by obtain ⟨w, rfl⟩ := h; rfl)

/-- Rows of one order. -/
def simRows (wk : Work) : List Nat := if wk.tag = EVAL_SIM then wk.rows else []

theorem Gave.simGiven {a b : St} {w k : Nat} {t : Int} {wk wk' : Work} {l0 l : List Ev} (hG : Gave sp a b w k t wk wk' l0 l) :
    Manager.simGiven b.tr = simRows wk ++ Manager.simGiven a.tr := by
  have hl0 : Manager.simGiven l0 = [] := by
    rcases hG.before with h | ⟨team, h, _⟩ <;> rw [h] <;> rfl
  have hl : Manager.simGiven l = [] := by rw [hG.after]; split <;> rfl
  have hord : simRowsOf (.order (idAt sp k) w wk') = simRows wk := by
    have ht : wk'.tag = wk.tag := by rw [hG.order]
    have hr : wk'.rows = wk.rows := by rw [hG.order]
    simp only [simRowsOf, simRows]; rw [ht, hr]
  have hcons : Manager.simGiven (.order (idAt sp k) w wk' :: (l0 ++ a.tr)) = simRows wk ++ Manager.simGiven (l0 ++ a.tr) := by
    rw [← hord]; rfl
  rw [hG.tr, simGiven_append, simGiven_append, hl, hcons, simGiven_append, hl0]
  cases orderOp sp wk w t <;> simp [Manager.simGiven, simRowsOf]

theorem Sent.simGiven {a b : St} {w k : Nat} {wk wk' : Work} {l0 l : List Ev} (hS : Sent sp a b w k wk wk' l0 l) :
    Manager.simGiven b.tr = simRows wk ++ Manager.simGiven a.tr := by
  have hl0 : Manager.simGiven l0 = [] := by
    rcases hS.before with h | ⟨team, h, _⟩ <;> rw [h] <;> rfl
  have hl : Manager.simGiven l = [] := by
    rcases hS.after with h | ⟨_, h, _⟩ <;> rw [h] <;> rfl
  have hord : simRowsOf (.order (idAt sp k) w wk') = simRows wk := by
    have ht : wk'.tag = wk.tag := by rw [hS.order]
    have hr : wk'.rows = wk.rows := by rw [hS.order]
    simp only [simRowsOf, simRows]; rw [ht, hr]
  have hcons : Manager.simGiven (.order (idAt sp k) w wk' :: (l0 ++ a.tr)) = simRows wk ++ Manager.simGiven (l0 ++ a.tr) := by
    rw [← hord]; rfl
  rw [hS.tr, simGiven_append, hl, hcons, simGiven_append, hl0]
  simp

/-- A hand-out sends at most the rows of its order. -/
theorem simGiven_handOut (s : St) (wk : Work) (w : Nat) (t : Int) :
    simGiven (handOut sp s wk w t).1.tr = simGiven s.tr ∨ simGiven (handOut sp s wk w t).1.tr = simRows wk ++ simGiven s.tr := by
  rcases handOut_cases (sp := sp) s wk w t with ⟨e, _, he⟩ | ⟨hc, h | ⟨k, wk', l0, l, _, h⟩ | ⟨k, wk', l0, l, h, _⟩⟩
  · rw [he]; exact .inl rfl
  · rw [h.2.2.2]; exact .inl rfl
  · rcases h with ⟨h, _⟩ | ⟨⟨s1, h, h'⟩, _⟩
    · exact .inr h.simGiven
    · rw [h']; exact .inr (Sent.simGiven (b := s1) h)
  · exact .inr h.simGiven

/-- Rows of the orders that are still to be handed out. -/
def handRows : Ph → List Nat
  | .hand rest => workRows (rest.map fun q => (q.1, q.2.1))
  | _ => []

theorem handRows_cons (w : Nat) (wk : Work) (t : Int) (rest : List (Nat × Work × Int)) :
    handRows (.hand ((w, wk, t) :: rest)) = simRows wk ++ handRows (.hand rest) := rfl

theorem handRows_map (work : List (Nat × Work)) (t : Nat → Int) :
    handRows (.hand (work.map fun q => (q.1, q.2, t q.1))) = workRows work := by
  have h : ((fun q : Nat × Work × Int => (q.1, q.2.1)) ∘ fun q : Nat × Work => (q.1, q.2, t q.1)) = id := rfl
  simp only [handRows, List.map_map, h, List.map_id]

/-- The rows given so far and the rows in the orders at hand are all different. -/
def Distinct (p : Ph) (s : St) : Prop := (simGiven s.tr ++ handRows p).Nodup

theorem Distinct.move {p p' : Ph} {s s' : St} (h : Distinct p s) (h1 : simGiven s'.tr = simGiven s.tr) (h2 : handRows p' = []) :
    Distinct p' s' := by
  simp only [Distinct, h1, h2, List.append_nil]
  exact (List.sublist_append_left _ _).nodup h

theorem Distinct.give {s s' : St} {w : Nat} {wk : Work} {t : Int} {rest : List (Nat × Work × Int)} {p : Ph}
    (h : Distinct (.hand ((w, wk, t) :: rest)) s)
    (h1 : simGiven s'.tr = simGiven s.tr ∨ simGiven s'.tr = simRows wk ++ simGiven s.tr)
    (hp : p = .hand rest ∨ handRows p = []) : Distinct p s' := by
  have key : Distinct (.hand rest) s' := by
    simp only [Distinct, handRows_cons] at h ⊢
    rcases h1 with h1 | h1
    · rw [h1]
      exact ((List.Sublist.refl _).append (List.sublist_append_right _ _)).nodup h
    · rw [h1]
      have : (simRows wk ++ simGiven s.tr ++ handRows (.hand rest)).Perm (simGiven s.tr ++ (simRows wk ++ handRows (.hand rest))) := by
        rw [← List.append_assoc]
        exact List.perm_append_comm.append_right _
      exact this.symm.nodup h
  rcases hp with rfl | hp
  · exact key
  · exact key.move rfl hp

theorem Reach.sends {I : Ph → St → Prop} {p : Ph} {s : St} (h : Reach sp P s0 p s) (h0 : I .loop s0)
    (quiet : ∀ p p' s s', Reach sp P s0 p s → Reach sp P s0 p' s' → I p s → (∃ l, s'.tr = l ++ s.tr) →
      Manager.simGiven s'.tr = Manager.simGiven s.tr → (p'.going = true → p.going = true ∧ s'.pinfo = s.pinfo) → handRows p' = [] → I p' s')
    (alloc : ∀ s cs work p (t : Nat → Int), Reach sp P s0 .alloc s → P s (.ok cs work false p) → I .alloc s →
      Reach sp P s0 (.hand (work.map fun q => (q.1, q.2, t q.1))) { (doOp s (.requestCancel cs)).1 with pinfo := p } →
      I (.hand (work.map fun q => (q.1, q.2, t q.1))) { (doOp s (.requestCancel cs)).1 with pinfo := p })
    (give : ∀ s w wk t rest p', Reach sp P s0 (.hand ((w, wk, t) :: rest)) s →
      ((p' = .hand rest ∧ (handOut sp s wk w t).2 = none) ∨ (p'.going = false ∧ handRows p' = [])) →
      Reach sp P s0 p' (handOut sp s wk w t).1 → I (.hand ((w, wk, t) :: rest)) s → I p' (handOut sp s wk w t).1) : I p s := by
  have mic : ∀ {a b : St} {Q : Ev → Prop}, Micros sp Q a b → ∃ l, b.tr = l ++ a.tr := fun h => by
    obtain ⟨l, hl, _⟩ := h.tr; exact ⟨l, hl⟩
  have hk : ∀ s b, (saveK sp s b).pinfo = s.pinfo := by
    intro s b; simp only [saveK]; split <;> split <;> rfl
  induction h with
  | init => exact h0
  | test e hr h1 ih => exact quiet _ _ _ _ hr (.test e hr h1) ih ⟨[_], rfl⟩ rfl (fun _ => ⟨rfl, rfl⟩) rfl
  | stop e hr h1 ih => exact quiet _ _ _ _ hr (.stop e hr h1) ih ⟨[_], rfl⟩ rfl (fun h => by simp [Ph.going] at h) rfl
  | kill hr h1 ih =>
    exact quiet _ _ _ _ hr (.kill hr h1) ih (mic (micros_killCancelled _)) (simGiven_kill _) (fun _ => ⟨rfl, (kept_killCancelled _).2.2⟩) rfl
  | killErr hr h1 ih =>
    exact quiet _ _ _ _ hr (.killErr hr h1) ih (mic (micros_killCancelled _)) (simGiven_kill _) (fun h => by simp [Ph.going] at h) rfl
  | mail w m t hr hw h1 ih =>
    exact quiet _ _ _ _ hr (.mail w m t hr hw h1) ih (mic (micros_handleMsg _ w m t)) (simGiven_msg _ _ _ _)
      (fun _ => ⟨rfl, (kept_handleMsg _ w m t).2.2⟩) rfl
  | mailErr w m t hr hw h1 ih =>
    exact quiet _ _ _ _ hr (.mailErr w m t hr hw h1) ih (mic (micros_handleMsg _ w m t)) (simGiven_msg _ _ _ _)
      (fun h => by simp [Ph.going] at h) rfl
  | save hr ih =>
    exact quiet _ _ _ _ hr (.save hr) ih (mic (micros_saveK (Q := fun _ => False) _ _)) (simGiven_save _ _) (fun _ => ⟨rfl, hk _ _⟩) rfl
  | allocErr cs hr h1 ih => exact quiet _ _ _ _ hr (.allocErr cs hr h1) ih ⟨[_], rfl⟩ rfl (fun h => by simp [Ph.going] at h) rfl
  | allocFlag cs work p hr h1 ih => exact quiet _ _ _ _ hr (.allocFlag cs work p hr h1) ih ⟨[_], rfl⟩ rfl (fun h => by simp [Ph.going] at h) rfl
  | allocOk cs work p t hr h1 ih => exact alloc _ cs work p t hr h1 ih (.allocOk cs work p t hr h1)
  | give hr hm h1 ih => exact give _ _ _ _ _ _ hr (.inl ⟨rfl, h1⟩) (.give hr hm h1) ih
  | giveErr hr hm h1 ih => exact give _ _ _ _ _ _ hr (.inr ⟨rfl, rfl⟩) (.giveErr hr hm h1) ih
  | again hr h1 h2 ih => exact quiet _ _ _ _ hr (.again hr h1 h2) ih ⟨[], rfl⟩ rfl (fun _ => ⟨rfl, rfl⟩) rfl
  | noWork hr h1 ih => exact quiet _ _ _ _ hr (.noWork hr h1) ih ⟨[], rfl⟩ rfl (fun h => by simp [Ph.going] at h) rfl
  | final hr ih => exact quiet _ _ _ _ hr (.final hr) ih ⟨[_], rfl⟩ rfl (fun h => by simp [Ph.going] at h) rfl
  | pstop t hr h1 ih =>
    exact quiet _ _ _ _ hr (.pstop t hr h1) ih (mic (micros_stopPersis _ _ t)) (simGiven_pstop _ _ _) (fun h => by simp [Ph.going] at h) rfl
  | pstopErr t hr h1 ih =>
    exact quiet _ _ _ _ hr (.pstopErr t hr h1) ih (mic (micros_stopPersis _ _ t)) (simGiven_pstop _ _ _) (fun h => by simp [Ph.going] at h) rfl
  | drain hr ih => exact quiet _ _ _ _ hr (.drain hr) ih ⟨[], rfl⟩ rfl (fun h => by simp [Ph.going] at h) rfl
  | dmail w m t hr hw h1 ih =>
    exact quiet _ _ _ _ hr (.dmail w m t hr hw h1) ih (mic (micros_handleMsg _ w m t)) (simGiven_msg _ _ _ _)
      (fun h => by simp [Ph.going] at h) rfl
  | dmailErr w m t hr hw h1 ih =>
    exact quiet _ _ _ _ hr (.dmailErr w m t hr hw h1) ih (mic (micros_handleMsg _ w m t)) (simGiven_msg _ _ _ _)
      (fun h => by simp [Ph.going] at h) rfl
  | dsave hr ih =>
    exact quiet _ _ _ _ hr (.dsave hr) ih (mic (micros_saveK (Q := fun _ => False) _ _)) (simGiven_save _ _)
      (fun h => by simp [Ph.going] at h) rfl
  | @done s x p hr ih =>
    have h1 : ∃ l, (Manager.killWorkers (saveK sp s sp.saveDone)).tr = l ++ s.tr :=
      mic ((micros_saveK s _).trans (micros_killWorkers (sp := sp) _))
    have h2 : Manager.simGiven (Manager.killWorkers (saveK sp s sp.saveDone)).tr = Manager.simGiven s.tr := by
      rw [simGiven_finish, simGiven_save]
    exact quiet _ _ _ _ hr (.done p hr) ih h1 h2 (fun h => by simp [Ph.going] at h) rfl

theorem start_idsOk {c : Start} {p : Ph} {s : St} (h : Reach c.sp P c.st p s) : IdsOk s.W := by
  have h1 : ids s = ids c.st := h.micros.ids
  have h2 : (ids c.st).Nodup := by
    simp only [ids, Start.st, initSt, initW, List.map_map]
    have : ((fun k : Wrk => k.id) ∘ fun i => ({ id := i, genWorker := decide (i ∈ c.gens) || (c.sp.gom && decide (i = 0)), zrw := decide (i ∈ c.zero) } : Wrk)) = id := rfl
    rw [this, List.map_id]
    split
    · exact List.nodup_range
    · exact List.nodup_range'
  simp only [IdsOk]
  rw [show s.W.map (·.id) = ids s from rfl, h1]
  exact h2

/-- Rows given so far are marked as started. -/
def Marked (s : St) : Prop := ∀ i ∈ simGiven s.tr, cell s.hist.rows i .simStarted = some (.s 1)

theorem marked_more {c : Start} {b : Bundled} {env : AllocEnv} {p p' : Ph} {s s' : St} (hc : c.Std)
    (hr : Reach c.sp (b.P env c.sp) c.st p s) (hr' : Reach c.sp (b.P env c.sp) c.st p' s') (hprot : c.Protected s'.tr)
    {l : List Ev} (hl : s'.tr = l ++ s.tr) (hg : simGiven s'.tr = simGiven s.tr) (h : Marked s) : Marked s' := by
  intro i hi
  rw [hg] at hi
  have h1 := h i hi
  have hk := start_kept hr' hprot
  rw [start_histAt hr] at h1
  rw [start_histAt hr', hl]
  rw [hl] at hk
  exact sticky hc (by simp [stickyFields]) hk h1

/-- Functions that choose among the waiting rows: what has been given is marked, so it is not chosen again. -/
theorem once_prio {c : Start} {b : Bundled} (hb : b.byPriority = true) {env : AllocEnv} (hc : c.Std) {p : Ph} {s : St}
    (h : Reach c.sp (b.P env c.sp) c.st p s) : c.Protected s.tr → Distinct p s ∧ (p.going = true → Marked s) := by
  refine h.sends (I := fun p s => c.Protected s.tr → Distinct p s ∧ (p.going = true → Marked s)) ?_ ?_ ?_ ?_
  · intro _
    exact ⟨by simp [Distinct, start_tr, simGiven, handRows], fun _ i hi => by simp [start_tr, simGiven] at hi⟩
  · intro p p' s s' hr hr' ih ⟨l, hl⟩ hg hgo hh hprot
    have hprot' : c.Protected s.tr := by rw [hl] at hprot; exact hprot.suffix
    obtain ⟨h1, h2⟩ := ih hprot'
    exact ⟨h1.move hg hh, fun h => marked_more hc hr hr' hprot hl hg (h2 (hgo h).1)⟩
  · intro s cs work p t hr hP ih hr' hprot
    have hprot' : c.Protected s.tr := hprot.suffix (l := [.op (.requestCancel cs)])
    obtain ⟨h1, h2⟩ := ih hprot'
    have h3 : Marked { (doOp s (.requestCancel cs)).1 with pinfo := p } :=
      marked_more hc hr hr' hprot (l := [.op (.requestCancel cs)]) rfl rfl (h2 rfl)
    refine ⟨?_, fun _ => h3⟩
    obtain ⟨now, ord, hord, rfl, hcall⟩ := hP.ok
    have hW : IdsOk (ctxOf env c.sp ord (b.marked now s)).W := by have h9 := start_idsOk hr; exact h9
    obtain ⟨g1, g2⟩ := prio_answer hb hW hord hcall
    simp only [Distinct, handRows_map]
    have h4 := h1.move (p' := .loop) (s' := s) rfl rfl
    simp only [Distinct, handRows, List.append_nil] at h4
    refine List.nodup_append.mpr ⟨h4, g1, fun i hi j hj hij => ?_⟩
    subst hij
    obtain ⟨r, hr1, hr2, _⟩ := mem_waiting.mp (g2 i hj)
    have h5 := h3 i hi
    have h6 : (doOp s (.requestCancel (b.cancels (trimH s.hist) now))).1.hist.rows[i]? = some r := by
      have : (trimH (doOp s (.requestCancel (b.cancels (trimH s.hist) now))).1.hist)[i]? = some r := hr1
      simp only [trimH, List.getElem?_take] at this
      split at this
      · exact this
      · simp at this
    simp only [cell] at h5
    rw [show ({ (doOp s (.requestCancel (b.cancels (trimH s.hist) now))).1 with pinfo := p } : St).hist.rows[i]? = some r from h6] at h5
    simp only [Option.map_some, Option.some.injEq] at h5
    simp [Row.flag, h5] at hr2
  · intro s w wk t rest p' hr hcase hr' ih hprot
    obtain ⟨l, hl, _⟩ := (micros_handOut (sp := c.sp) s wk w t).tr
    have hprot' : c.Protected s.tr := by rw [hl] at hprot; exact hprot.suffix
    obtain ⟨h1, h2⟩ := ih hprot'
    refine ⟨h1.give (simGiven_handOut s wk w t) (hcase.imp And.left And.right), fun hgo => ?_⟩
    rcases hcase with ⟨rfl, hok⟩ | ⟨hn, _⟩
    · obtain ⟨_, k, wk', l0, l1, hG, _⟩ := handOut_ok hok
      intro i hi
      rw [hG.simGiven, List.mem_append] at hi
      rcases hi with hi | hi
      · simp only [simRows] at hi
        split at hi
        · rename_i ht
          rw [hG.hist]
          simp only [orderOp, ht, if_true]
          exact (giveSim_cells _ _ _ _ _ hG.rows hi).1
        · simp at hi
      · have h4 := h2 rfl i hi
        have hk := start_kept hr' hprot
        rw [start_histAt hr] at h4
        rw [start_histAt hr', hl]
        rw [hl] at hk
        exact sticky hc (by simp [stickyFields]) hk h4
    · rw [hn] at hgo; simp at hgo

/-- Functions that work through the rows in order: the pointer is behind everything that was given. -/
theorem once_ord {c : Start} {b : Bundled} (hb : b.byPriority = false) {env : AllocEnv} (h0 : b.behind c.pinfo []) {p : Ph} {s : St}
    (h : Reach c.sp (b.P env c.sp) c.st p s) :
    Distinct p s ∧ (p.going = true → b.behind s.pinfo (simGiven s.tr ++ handRows p)) := by
  refine h.sends (I := fun p s => Distinct p s ∧ (p.going = true → b.behind s.pinfo (simGiven s.tr ++ handRows p))) ?_ ?_ ?_ ?_
  · exact ⟨by simp [Distinct, start_tr, simGiven, handRows], fun _ => by rw [start_tr]; exact h0⟩
  · intro p p' s s' hr hr' ⟨h1, h2⟩ ⟨l, hl⟩ hg hgo hh
    refine ⟨h1.move hg hh, fun h => ?_⟩
    obtain ⟨h3, h4⟩ := hgo h
    rw [h4, hg, hh, List.append_nil]
    exact behind_mem (h2 h3) (fun i hi => List.mem_append_left _ hi)
  · intro s cs work p t hr hP ⟨h1, h2⟩ hr'
    obtain ⟨now, ord, hord, rfl, hcall⟩ := hP.ok
    have hW : IdsOk (ctxOf env c.sp ord (b.marked now s)).W := by have h9 := start_idsOk hr; exact h9
    have h4 := h1.move (p' := .loop) (s' := s) rfl rfl
    simp only [Distinct, handRows, List.append_nil] at h4
    have h3 := h2 rfl
    simp only [handRows, List.append_nil] at h3
    obtain ⟨g1, g2, g3⟩ := ord_answer hb hW h3 hcall
    refine ⟨?_, fun _ => ?_⟩
    · simp only [Distinct, handRows_map]
      exact List.nodup_append.mpr ⟨h4, g1, fun i hi j hj hij => (g2 j hj).1 (hij ▸ hi)⟩
    · simp only [handRows_map]; exact g3
  · intro s w wk t rest p' hr hcase hr' ⟨h1, h2⟩
    refine ⟨h1.give (simGiven_handOut s wk w t) (hcase.imp And.left And.right), fun hgo => ?_⟩
    rcases hcase with ⟨rfl, hok⟩ | ⟨hn, _⟩
    · rw [(kept_handOut s wk w t).2.2]
      refine behind_mem (h2 rfl) (fun i hi => ?_)
      rw [handRows_cons]
      rcases simGiven_handOut (sp := c.sp) s wk w t with h3 | h3 <;> rw [h3] at hi <;> simp only [List.mem_append] at hi ⊢
      · rcases hi with hi | hi
        · exact .inl hi
        · exact .inr (.inr hi)
      · rcases hi with (hi | hi) | hi
        · exact .inr (.inl hi)
        · exact .inl hi
        · exact .inr (.inr hi)
    · rw [hn] at hgo; simp at hgo

end Verif.Manager
