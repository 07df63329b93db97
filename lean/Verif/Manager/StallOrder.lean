import Verif.Manager.Stall
/-!
Functions that work through the rows in order pass over a row only if it is cancelled.
-/
namespace Verif.Manager
open Verif.History Verif.Res Verif.Sched Verif.Alloc

/-- At some moment the cancellation of row `i` was requested. -/
def CancelledOnce (c : Start) (tr : List Ev) (i : Nat) : Prop :=
  ∃ post pre, tr = post ++ pre ∧ flagAt (histAt c.hist pre).rows .cancelRequested i = true

theorem CancelledOnce.more {c : Start} {tr : List Ev} {i : Nat} (h : CancelledOnce c tr i) (l : List Ev) : CancelledOnce c (l ++ tr) i := by
  obtain ⟨post, pre, rfl, h⟩ := h
  exact ⟨l ++ post, pre, by rw [List.append_assoc], h⟩

/-- Requests for cancellation are not taken back. -/
def Start.Steady (c : Start) (tr : List Ev) : Prop :=
  ∀ i, CancelledOnce c tr i → flagAt (histAt c.hist tr).rows .cancelRequested i = true

theorem maxGiven_more {c : Start} {P : St → Reply → Prop} {p p' : Ph} {s s' : St} (h : Reach c.sp P c.st p s) (h' : Reach c.sp P c.st p' s')
    (hp : p.going = true) (hp' : p'.going = true) (hl : (simGiven s.tr).length ≤ (simGiven s'.tr).length)
    (hg : simMaxGiven c.sp s.hist = true) : simMaxGiven c.sp s'.hist = true := by
  have h1 := h.started start_started hp
  have h2 := h'.started start_started hp'
  have o : ∀ {p : Ph} {s : St}, Reach c.sp P c.st p s → s.hist.simStartedOffset = c.hist.simStartedOffset := by
    intro p s h
    rw [start_histAt h]
    exact histAt_inv (I := fun h => h.simStartedOffset = c.hist.simStartedOffset) (fun h o hi => by rw [← hi]; exact (apply_offsets h o).1) rfl _
  have o1 := o h
  have o2 := o h'
  simp only [StartedOk] at h1 h2
  simp only [simMaxGiven] at hg ⊢
  cases hm : c.sp.simMax with
  | none => rw [hm] at hg; simp at hg
  | some m =>
    rw [hm] at hg
    simp only [decide_eq_true_eq] at hg ⊢
    omega

/-- The functions with a pointer, but for `persistent_aposmm_alloc`. -/
def Bundled.kind : Bundled → Option (Alloc.Kind × UserOpts)
  | .fast o => some (.fast, o)
  | .oneGen => some (.oneGen, {})
  | .pregen => some (.pregen, {})
  | _ => none

theorem kind_call {b : Bundled} {k : Alloc.Kind} {o : UserOpts} (h : b.kind = some (k, o)) (c : Ctx) (p : PInfo) (s : Sched) :
    b.call c p s = callOrd k c o p s := by
  cases b <;> cases h <;> rfl

/-- What lies between the pointer at the beginning and the pointer now was given, or is about to be, or was cancelled. -/
def Past (c : Start) (p : Ph) (s : St) : Prop :=
  ∀ i, c.pinfo.nextToGive.getD 0 ≤ i → i < s.pinfo.nextToGive.getD 0 →
    i ∈ simGiven s.tr ++ handRows p ∨ CancelledOnce c s.tr i ∨ simMaxGiven c.sp s.hist = true

theorem past {c : Start} {b : Bundled} {k : Alloc.Kind} {o : UserOpts} (hb : b.kind = some (k, o)) {env : AllocEnv} {p : Ph} {s : St}
    (h : Reach c.sp (b.P env c.sp) c.st p s) : p.going = true → Past c p s := by
  have quiet : ∀ {p p' : Ph} {s s' : St}, Reach c.sp (b.P env c.sp) c.st p s → Reach c.sp (b.P env c.sp) c.st p' s' →
      p.going = true → p'.going = true → (∃ l, s'.tr = l ++ s.tr) → simGiven s'.tr = simGiven s.tr → s'.pinfo = s.pinfo →
      handRows p = [] → Past c p s → Past c p' s' := by
    intro p p' s s' hr hr' hg hg' ⟨l, hl⟩ hs hpi hh hP i h1 h2
    rw [hpi] at h2
    rcases hP i h1 h2 with h3 | h3 | h3
    · left; rw [hh, List.append_nil] at h3; rw [hs]; exact List.mem_append_left _ h3
    · right; left; rw [hl]; exact h3.more l
    · right; right; exact maxGiven_more hr hr' hg hg' (by rw [hs]; exact Nat.le_refl _) h3
  have mic : ∀ {a b : St} {Q : Ev → Prop}, Micros c.sp Q a b → ∃ l, b.tr = l ++ a.tr := fun h => by
    obtain ⟨l, hl, _⟩ := h.tr; exact ⟨l, hl⟩
  have hk : ∀ s b, (saveK c.sp s b).pinfo = s.pinfo := by
    intro s b; simp only [saveK]; split <;> split <;> rfl
  induction h with
  | init => intro _ i h1 h2; exact absurd (Nat.lt_of_le_of_lt h1 h2) (Nat.lt_irrefl _)
  | test e hr h1 ih => intro _; exact quiet hr (.test e hr h1) rfl rfl ⟨[_], rfl⟩ rfl rfl rfl (ih rfl)
  | kill hr h1 ih =>
    intro _; exact quiet hr (.kill hr h1) rfl rfl (mic (micros_killCancelled _)) (simGiven_kill _) (kept_killCancelled _).2.2 rfl (ih rfl)
  | mail w m t hr hw h1 ih =>
    intro _
    exact quiet hr (.mail w m t hr hw h1) rfl rfl (mic (micros_handleMsg _ w m t)) (simGiven_msg _ _ _ _) (kept_handleMsg _ w m t).2.2 rfl (ih rfl)
  | save hr ih =>
    intro _
    exact quiet hr (.save hr) rfl rfl (mic (micros_saveK (Q := fun _ => False) _ _)) (simGiven_save _ _) (hk _ _) rfl (ih rfl)
  | @allocOk s cs work p t hr hP ih =>
    intro _ i h1 h2
    have hr' := Reach.allocOk cs work p t hr hP
    obtain ⟨now, ord, hord, rfl, hcall⟩ := hP.ok
    have hW : IdsOk (ctxOf env c.sp ord (b.marked now s)).W := by have h9 := start_idsOk hr; exact h9
    rw [kind_call hb] at hcall
    obtain ⟨_, _, _, _, h5⟩ := (callOrd_inorder hW hcall).facts
    rw [← workRows_eq] at h5
    simp only [handRows_map, List.mem_append]
    by_cases hlt : i < s.pinfo.nextToGive.getD 0
    · rcases ih rfl i h1 hlt with h3 | h3 | h3
      · simp only [handRows, List.append_nil] at h3
        exact .inl (.inl h3)
      · exact .inr (.inl (h3.more [_]))
      · have h4 := maxGiven_more hr hr' rfl rfl (Nat.le_refl _) h3
        exact .inr (.inr h4)
    · by_cases hm : i ∈ workRows work
      · exact .inl (.inr hm)
      · right; left
        obtain ⟨r, hr1, hr2⟩ := h5 i (by omega) h2 hm
        have h6 : (doOp s (.requestCancel (b.cancels (trimH s.hist) now))).1.hist.rows[i]? = some r := by
          have : (trimH (doOp s (.requestCancel (b.cancels (trimH s.hist) now))).1.hist)[i]? = some r := hr1
          simp only [trimH, List.getElem?_take] at this
          split at this
          · exact this
          · simp at this
        refine ⟨[], ({ (doOp s (.requestCancel (b.cancels (trimH s.hist) now))).1 with pinfo := p } : St).tr, rfl, ?_⟩
        have h7 := start_histAt hr'
        rw [← h7]
        simp only [flagAt]
        rw [show ({ (doOp s (.requestCancel (b.cancels (trimH s.hist) now))).1 with pinfo := p } : St).hist.rows[i]? = some r from h6]
        exact hr2
  | @give s w wk t rest hr hm h1 ih =>
    intro _ i g1 g2
    have hr' := Reach.give hr hm h1
    rw [(kept_handOut s wk w t).2.2] at g2
    obtain ⟨_, k', wk', l0, l1, hG, _⟩ := handOut_ok h1
    rcases ih rfl i g1 g2 with h3 | h3 | h3
    · left
      rw [handRows_cons] at h3
      rw [hG.simGiven]
      simp only [List.mem_append] at h3 ⊢
      rcases h3 with h3 | h3 | h3
      · exact .inl (.inr h3)
      · exact .inl (.inl h3)
      · exact .inr h3
    · right; left
      obtain ⟨l, hl⟩ := mic (micros_handOut (sp := c.sp) s wk w t)
      rw [hl]; exact h3.more l
    · rw [hm] at h3; simp at h3
  | @again s rest hr h1 h2 ih =>
    intro _
    intro i g1 g2
    rcases ih rfl i g1 g2 with h3 | h3 | h3
    · rcases h1 with rfl | h1
      · left; exact h3
      · right; right; exact h1
    · exact .inr (.inl h3)
    · exact .inr (.inr h3)
  | _ => intro hg; simp [Ph.going] at hg

end Verif.Manager
