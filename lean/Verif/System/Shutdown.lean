import Verif.System.PropsLive
/-!
The shutdown of manager and workers together (helper for PropsShutdown.lean).
-/
namespace Verif.Manager
open Verif.History Verif.Res Verif.Sched Verif.Alloc Verif.System

variable {sp : Specs}

/-- The receiving loop still waits: somebody is active or persistent, and after a pass no exception has been noted. -/
theorem drain_waits (rs : List Round) (s : St) (h : (drain sp rs s).2 = .ok none) :
    (anyActive (drain sp rs s).1 || anyPersis (drain sp rs s).1) = true ∧ (rs ≠ [] → (drain sp rs s).1.exc = false) := by
  induction rs generalizing s with
  | nil =>
    simp only [drain] at h ⊢
    split at h
    · rename_i ha; rw [if_pos ha]; exact ⟨ha, fun h => absurd rfl h⟩
    · cases h
  | cons r rs ih =>
    simp only [drain] at h ⊢
    split at h
    · rename_i ha
      rw [if_pos ha]
      generalize receive sp s r.mail = z at h
      obtain ⟨s1, e⟩ := z
      cases e with
      | some e => cases h
      | none =>
        dsimp only at h ⊢
        split at h
        · rename_i hf
          rw [if_pos hf]
          refine ⟨(ih s1 h).1, fun _ => ?_⟩
          cases rs with
          | nil =>
            have hx : s1.exc = false := by
              cases hx : s1.exc with
              | false => rfl
              | true => simp [exitFlag, hx] at hf
            simp only [drain]
            split <;> exact hx
          | cons r' rs => exact (ih s1 h).2 nofun
        · cases h
    · cases h

/-- What the receiving loop adds to the record. -/
theorem drain_tr (rs : List Round) (s : St) : ∃ l, (drain sp rs s).1.tr = l ++ s.tr ∧ ∀ w, .persisStop w ∉ l := by
  have hmsg : ∀ (xs : List Mail) (s : St), ∃ l, (handleAll sp xs s).1.tr = l ++ s.tr ∧ ∀ w, .persisStop w ∉ l := by
    intro xs
    induction xs with
    | nil => exact fun s => ⟨[], rfl, by simp⟩
    | cons x xs ih =>
      intro s
      simp only [handleAll]
      split
      · obtain ⟨l1, h1, h2⟩ := (micros_handleMsg (sp := sp) s x.w x.m x.t).tr
        have h2 : ∀ w, .persisStop w ∉ l1 := fun w hm => by cases h2 _ hm
        simp only [andThen]
        split
        · exact ⟨l1, h1, h2⟩
        · obtain ⟨l2, h3, h4⟩ := ih (handleMsg sp s x.w x.m x.t).1
          refine ⟨l2 ++ l1, by rw [h3, h1, List.append_assoc], fun w hm => ?_⟩
          rcases List.mem_append.mp hm with hm | hm
          · exact h4 w hm
          · exact h2 w hm
      · exact ih s
  have hrec : ∀ (xs : List Mail) (s : St), ∃ l, (receive sp s xs).1.tr = l ++ s.tr ∧ ∀ w, .persisStop w ∉ l := by
    intro xs s
    obtain ⟨l, h1, h2⟩ := hmsg xs s
    simp only [receive, andThen]
    split
    · exact ⟨l, h1, h2⟩
    · obtain ⟨l1, h3, h4⟩ := (micros_saveK (sp := sp) (Q := fun _ => False) (handleAll sp xs s).1 false).tr
      refine ⟨l1 ++ l, by rw [h3, h1, List.append_assoc], fun w hm => ?_⟩
      rcases List.mem_append.mp hm with hm | hm
      · exact h4 _ hm
      · exact h2 w hm
  induction rs generalizing s with
  | nil => simp only [drain]; split <;> exact ⟨[], rfl, by simp⟩
  | cons r rs ih =>
    simp only [drain]
    split
    · obtain ⟨l, h1, h2⟩ := hrec r.mail s
      generalize receive sp s r.mail = z at h1
      obtain ⟨s1, e⟩ := z
      cases e with
      | some e => exact ⟨l, h1, h2⟩
      | none =>
        dsimp only at h1 ⊢
        split
        · obtain ⟨l2, h3, h4⟩ := ih s1
          refine ⟨l2 ++ l, by rw [h3, h1, List.append_assoc], fun w hm => ?_⟩
          rcases List.mem_append.mp hm with hm | hm
          · exact h4 w hm
          · exact h2 w hm
        · exact ⟨l, h1, h2⟩
    · exact ⟨[], rfl, by simp⟩

theorem stopAll_tr (t : Nat → Int) (ws : List Nat) (s : St) : s.tr <:+ (stopAllPersis sp t ws s).1.tr := by
  induction ws generalizing s with
  | nil => exact List.suffix_refl _
  | cons w ws ih =>
    have h1 : s.tr <:+ (stopPersis sp s w (t w)).1.tr := by
      obtain ⟨l, h, _⟩ := (micros_stopPersis (sp := sp) s w (t w)).tr
      exact ⟨l, h.symm⟩
    simp only [stopAllPersis, andThen]
    split
    · exact h1
    · exact h1.trans (ih _)

/-- The shutdown waits. -/
theorem finalPhase_waits {s : St} {t : Nat → Int} {rs : List Round} (h : (finalPhase sp s t rs).2 = .waiting) :
    (anyActive (finalPhase sp s t rs).1 || anyPersis (finalPhase sp s t rs).1) = true ∧
    (rs ≠ [] → (finalPhase sp s t rs).1.exc = false) ∧ s.tr <:+ (finalPhase sp s t rs).1.tr := by
  have h0 := stopAll_tr (sp := sp) t (persisIds s) s
  simp only [finalPhase] at h ⊢
  generalize stopAllPersis sp t (persisIds s) s = z at h h0
  obtain ⟨s1, e⟩ := z
  cases e with
  | some e => cases h
  | none =>
    dsimp only at h h0 ⊢
    obtain ⟨l, hl, _⟩ := drain_tr (sp := sp) rs s1
    have hw := drain_waits (sp := sp) rs s1
    generalize drain sp rs s1 = y at h hl hw
    obtain ⟨s2, x⟩ := y
    cases x with
    | error e => cases h
    | ok o =>
      cases o with
      | none => exact ⟨(hw rfl).1, (hw rfl).2, h0.trans ⟨l, hl.symm⟩⟩
      | some f => cases h

/-- The passes of the receiving loop. -/
def rounds (g : Nat → Round) (k : Nat) : List Round := (List.range k).map g

/-- A run that waits in the shutdown. -/
theorem waiting_cases {c : Start} {its : List Iter} {t : Nat → Int} {rs : List Round} (h : (c.run its t rs).2 = .waiting) :
    (c.loop its).2 ≠ .running ∧ (c.run its t rs).1 = (finalPhase c.sp (emit (c.loop its).1 .final) t rs).1 ∧
    (finalPhase c.sp (emit (c.loop its).1 .final) t rs).2 = .waiting := by
  simp only [Start.run, Manager.run, Start.loop] at h ⊢
  generalize mainLoop c.sp its c.st = y at h
  obtain ⟨s, e⟩ := y
  cases e with
  | running => cases h
  | stopped r =>
    simp only at h ⊢
    generalize finalPhase c.sp (emit s .final) t rs = z at h
    obtain ⟨s2, x⟩ := z
    cases x with
    | waiting => exact ⟨nofun, rfl, rfl⟩
    | _ => cases h
  | flagged =>
    simp only at h ⊢
    generalize finalPhase c.sp (emit s .final) t rs = z at h
    obtain ⟨s2, x⟩ := z
    cases x with
    | waiting => exact ⟨nofun, rfl, rfl⟩
    | _ => cases h
  | raised r =>
    simp only at h ⊢
    generalize finalPhase c.sp (emit s .final) t rs = z at h
    obtain ⟨s2, x⟩ := z
    cases x with
    | waiting => exact ⟨nofun, rfl, rfl⟩
    | _ => cases h

theorem running_run {c : Start} {its : List Iter} {t : Nat → Int} {rs : List Round} (h : (c.loop its).2 = .running) :
    c.run its t rs = ((c.loop its).1, .running) := by
  simp only [Start.run, Manager.run, Start.loop] at h ⊢
  generalize mainLoop c.sp its c.st = y at h
  obtain ⟨s, e⟩ := y
  cases h
  rfl

theorem finalPhase_nopers {s : St} {t : Nat → Int} {rs : List Round} (hp : persisIds s = []) (h : (finalPhase sp s t rs).2 = .waiting) :
    (finalPhase sp s t rs).1 = (drain sp rs s).1 ∧ (drain sp rs s).2 = .ok none := by
  simp only [finalPhase, hp, stopAllPersis] at h ⊢
  generalize drain sp rs s = z at h
  obtain ⟨s2, x⟩ := z
  cases x with
  | error e => cases h
  | ok o =>
    cases o with
    | none => exact ⟨rfl, rfl⟩
    | some f => cases h

theorem drain_append (rs rs' : List Round) (s : St) :
    drain sp (rs ++ rs') s = match drain sp rs s with
      | (s', .ok none) => drain sp rs' s'
      | z => z := by
  induction rs generalizing s with
  | nil =>
    simp only [List.nil_append]
    conv => rhs; simp only [drain]
    by_cases ha : (anyActive s || anyPersis s) = true
    · rw [if_pos ha]
    · rw [if_neg ha]
      cases rs' <;> simp only [drain, if_neg ha]
  | cons r rs ih =>
    simp only [List.cons_append, drain]
    by_cases ha : (anyActive s || anyPersis s) = true
    · rw [if_pos ha, if_pos ha]
      generalize receive sp s r.mail = z
      obtain ⟨s1, e⟩ := z
      cases e with
      | some e => rfl
      | none =>
        dsimp only
        by_cases hf : exitFlag sp s1 r.e = 0
        · rw [if_pos hf, if_pos hf]; exact ih s1
        · rw [if_neg hf, if_neg hf]
    · rw [if_neg ha, if_neg ha]

/-- More passes of the receiving loop: if it has ended nothing changes, otherwise the record grows. -/
theorem finalPhase_append (s : St) (t : Nat → Int) (rs rs' : List Round) :
    ((finalPhase sp s t rs).2 ≠ .waiting → finalPhase sp s t (rs ++ rs') = finalPhase sp s t rs) ∧
    (finalPhase sp s t rs).1.tr <:+ (finalPhase sp s t (rs ++ rs')).1.tr := by
  simp only [finalPhase]
  generalize stopAllPersis sp t (persisIds s) s = z
  obtain ⟨s1, e⟩ := z
  cases e with
  | some e => exact ⟨fun _ => rfl, List.suffix_refl _⟩
  | none =>
    dsimp only
    rw [drain_append]
    generalize drain sp rs s1 = y
    obtain ⟨s2, x⟩ := y
    cases x with
    | error e => exact ⟨fun _ => rfl, List.suffix_refl _⟩
    | ok o =>
      cases o with
      | some f => exact ⟨fun _ => rfl, List.suffix_refl _⟩
      | none =>
        refine ⟨fun h => absurd rfl h, ?_⟩
        dsimp only
        obtain ⟨l, hl, _⟩ := drain_tr (sp := sp) rs' s2
        generalize drain sp rs' s2 = y at hl
        obtain ⟨s3, x⟩ := y
        have h3 : s2.tr <:+ s3.tr := ⟨l, hl.symm⟩
        cases x with
        | error e => exact h3
        | ok o =>
          cases o with
          | none => exact h3
          | some f =>
            obtain ⟨l1, h4, _⟩ := (micros_saveK (sp := sp) (Q := fun _ => False) s3 sp.saveDone).tr
            obtain ⟨l2, h5, _⟩ := (micros_killWorkers (sp := sp) (saveK sp s3 sp.saveDone)).tr
            exact h3.trans (List.IsSuffix.trans ⟨l1, h4.symm⟩ ⟨l2, h5.symm⟩)

theorem run_append (c : Start) (its : List Iter) (t : Nat → Int) (rs rs' : List Round) :
    ((c.run its t rs).2 ≠ .waiting → c.run its t (rs ++ rs') = c.run its t rs) ∧ (c.run its t rs).1.tr <:+ (c.run its t (rs ++ rs')).1.tr := by
  simp only [Start.run, Manager.run]
  generalize mainLoop c.sp its c.st = y
  obtain ⟨s, e⟩ := y
  have h := finalPhase_append (sp := c.sp) (emit s .final) t rs rs'
  obtain ⟨h1, h2⟩ := h
  cases e with
  | running => exact ⟨fun _ => rfl, List.suffix_refl _⟩
  | _ =>
    dsimp only
    generalize finalPhase c.sp (emit s .final) t rs = z1 at h1 h2 ⊢
    generalize finalPhase c.sp (emit s .final) t (rs ++ rs') = z2 at h1 h2 ⊢
    obtain ⟨a1, x1⟩ := z1
    cases x1 with
    | waiting =>
      refine ⟨fun h => absurd rfl h, ?_⟩
      obtain ⟨a2, x2⟩ := z2
      cases x2 <;> exact h2
    | _ => rw [h1 nofun]; exact ⟨fun _ => rfl, List.suffix_refl _⟩

end Verif.Manager
