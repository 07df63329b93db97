import Verif.Manager.Exc
/-
The shutdown: errors, exit flag, signals sent.
-/
namespace Verif.Manager
open Verif.History Verif.Res Verif.Sched Verif.Alloc

variable {sp : Specs} {P : St → Reply → Prop} {s0 : St}

theorem doOp_err {s : St} {o : Op} {e : MErr} (h : (doOp s o).2 = some e) : ∃ x, e = .hist x := by
  simp only [doOp] at h
  cases hx : (apply s.hist o).2 with
  | none => simp [hx] at h
  | some x => simp only [hx, Option.map_some, Option.some.injEq] at h; exact ⟨x, h.symm⟩

theorem checkOrder_err {s : St} {wk : Work} {w : Nat} {b : Bool} (h : checkOrder sp s wk w b = some .worker) : False := by
  simp only [checkOrder] at h
  cases hg : getW sp s w with
  | none => simp [hg] at h
  | some k =>
    simp only [hg, checkFields] at h
    repeat' split at h
    all_goals simp at h

theorem sendOrder_err {s : St} {wk : Work} {w : Nat} {t : Int} (h : (sendOrder sp s wk w t).2 = some .worker) : False := by
  simp only [sendOrder] at h
  have hset : (setResources sp s wk w).2.2 ≠ some .worker := by
    intro he
    simp only [setResources] at he
    repeat' split at he
    all_goals simp at he
  generalize setResources sp s wk w = x at h hset
  obtain ⟨s1, wk1, e1⟩ := x
  cases e1 with
  | some e1 => exact hset h
  | none =>
    simp only at h
    split at h
    · simp at h
    · simp only [sendRows] at h
      repeat' split at h
      all_goals simp at h

theorem stopPersis_err {s : St} {w : Nat} {t : Int} (h : (stopPersis sp s w t).2 = some .worker) : False := by
  have hs : (stopSend sp s w t).2 ≠ some .worker := by
    intro h
    simp only [stopSend] at h
    split at h
    · cases hc : checkOrder sp s (lastOrder s) w true with
      | some e => simp only [hc, Option.some.injEq] at h; subst h; exact checkOrder_err hc
      | none =>
        simp only [hc, andThen] at h
        cases hso : (sendOrder sp s (lastOrder s) w t).2 with
        | some e => simp only [hso, Option.some.injEq] at h; subst h; exact sendOrder_err hso
        | none =>
          simp only [hso] at h
          obtain ⟨x, hx⟩ := doOp_err h
          simp at hx
    · simp at h
  simp only [stopPersis, andThen] at h
  cases hx : (stopSend sp s w t).2 with
  | some e => simp only [hx] at h; exact hs (hx.trans h)
  | none => simp [hx] at h

theorem stopAllPersis_exc (t : Nat → Int) (ws : List Nat) (s : St) :
    (stopAllPersis sp t ws s).1.exc = s.exc ∧ (stopAllPersis sp t ws s).2 ≠ some .worker := by
  induction ws generalizing s with
  | nil => exact ⟨rfl, by simp [stopAllPersis]⟩
  | cons w ws ih =>
    simp only [stopAllPersis, andThen]
    split
    · rename_i e he
      exact ⟨stopPersis_exc _ _ _, fun h => by simp only [Option.some.injEq] at h; subst h; exact stopPersis_err he⟩
    · obtain ⟨h1, h2⟩ := ih (stopPersis sp s w (t w)).1
      exact ⟨h1.trans (stopPersis_exc _ _ _), h2⟩

/-- A worker exception is raised if there was none before, and then the flag is set. -/
theorem handleAll_exc (xs : List Mail) (s : St) :
    (s.exc = true → (handleAll sp xs s).1.exc = true ∧ (handleAll sp xs s).2 ≠ some .worker) ∧
    (s.exc = false → ((handleAll sp xs s).1.exc = true ↔ (handleAll sp xs s).2 = some .worker)) := by
  induction xs generalizing s with
  | nil => exact ⟨fun h => ⟨h, by simp [handleAll]⟩, fun h => by simp [handleAll, h]⟩
  | cons x xs ih =>
    simp only [handleAll]
    split
    · rcases handleMsg_trace (sp := sp) s x.w x.m x.t with ⟨h1, _, h2, h3, _⟩ | ⟨_, h2, h3, _⟩
      · refine ⟨fun h => by rw [h1] at h; simp at h, fun _ => ?_⟩
        simp only [andThen, h2, h3]
      · simp only [andThen]
        split
        · rename_i e he
          refine ⟨fun h => ⟨by rw [h3]; exact h, he ▸ h2⟩, fun h => ?_⟩
          have : some e ≠ some MErr.worker := he ▸ h2
          simp only [h3, h]; simp at this ⊢; exact this
        · rw [← h3]; exact ih _
    · exact ih s

theorem receive_exc (xs : List Mail) (s : St) :
    (s.exc = true → (receive sp s xs).1.exc = true ∧ (receive sp s xs).2 ≠ some .worker) ∧
    (s.exc = false → ((receive sp s xs).1.exc = true ↔ (receive sp s xs).2 = some .worker)) := by
  have h := handleAll_exc (sp := sp) xs s
  simp only [receive, andThen]
  generalize handleAll sp xs s = r at h
  split
  · rename_i e he
    rw [he] at h; exact h
  · rename_i he
    rw [he] at h
    simp only [(sameTab_saveK _ _).exc]
    exact h

/-- End of the receiving loop. -/
theorem drain_exc (rs : List Round) (s : St) :
    (s.exc = true → (drain sp rs s).1.exc = true ∧ (drain sp rs s).2 ≠ .error .worker) ∧
    (s.exc = false → ((drain sp rs s).1.exc = true ↔ (drain sp rs s).2 = .error .worker)) ∧
    (∀ f, (drain sp rs s).2 = .ok (some f) → s.exc = false → f = 0 ∨ (f = 2 ∧ ∃ r ∈ rs, wallTest sp r.e = true)) ∧
    ((drain sp rs s).2 = .ok (some 0) → anyActive (drain sp rs s).1 = false ∧ anyPersis (drain sp rs s).1 = false) := by
  induction rs generalizing s with
  | nil =>
    simp only [drain]
    by_cases h : (anyActive s || anyPersis s) = true
    · rw [if_pos h]; refine ⟨fun h => ⟨h, by simp⟩, fun h => by simp [h], by simp, by simp⟩
    · rw [if_neg h]
      refine ⟨fun h => ⟨h, by simp⟩, fun h => by simp [h], fun f hf _ => ?_, fun _ => ?_⟩
      · simp at hf; exact .inl hf.symm
      · simpa using h
  | cons r rs ih =>
    simp only [drain]
    by_cases h : (anyActive s || anyPersis s) = true
    · rw [if_pos h]
      have hr := receive_exc (sp := sp) r.mail s
      generalize receive sp s r.mail = z at hr
      obtain ⟨s1, e⟩ := z
      cases e with
      | some e =>
        simp only at hr ⊢
        refine ⟨fun h => ⟨(hr.1 h).1, fun he => (hr.1 h).2 ?_⟩, fun h => ?_, by simp, by simp⟩
        · simpa using he
        · rw [hr.2 h]; simp
      | none =>
        simp only at hr ⊢
        have hx : s1.exc = s.exc := by
          cases hs : s.exc with
          | true => exact (hr.1 hs).1
          | false =>
            cases h1 : s1.exc with
            | false => rfl
            | true => have := (hr.2 hs).mp h1; simp at this
        split
        · obtain ⟨i1, i2, i3, i4⟩ := ih s1
          rw [hx] at i1 i2 i3
          refine ⟨i1, i2, fun f hf hs => ?_, i4⟩
          rcases i3 f hf hs with h | ⟨h, r', hr', ht⟩
          · exact .inl h
          · exact .inr ⟨h, r', List.mem_cons_of_mem _ hr', ht⟩
        · rename_i hf
          refine ⟨fun h => ⟨by rw [hx]; exact h, by simp⟩, fun h => by simp [hx, h], fun f he hs => ?_, fun h => ?_⟩
          · simp only [Except.ok.injEq, Option.some.injEq] at he
            right
            simp only [exitFlag, hx, hs, Bool.false_eq_true, if_false] at hf he
            split at he
            · rename_i hc
              refine ⟨he.symm, r, List.mem_cons_self, ?_⟩
              have h2 := hc.1
              simp only [termTest] at h2
              by_cases hw : wallTest sp r.e = true
              · exact hw
              · rw [if_neg hw] at h2
                repeat' split at h2
                all_goals simp at h2
            · rename_i hc; exact absurd (by rw [if_neg hc]) hf
          · simp only [Except.ok.injEq, Option.some.injEq] at h; exact absurd h hf
    · rw [if_neg h]
      refine ⟨fun h => ⟨h, by simp⟩, fun h => by simp [h], fun f hf _ => ?_, fun _ => ?_⟩
      · simp at hf; exact .inl hf.symm
      · simpa using h

/-- After an exception the receiving loop makes at most one pass. -/
theorem drain_one (r : Round) (rs : List Round) (s : St) (h : s.exc = true) :
    (drain sp (r :: rs) s).2 ≠ .ok none ∧ drain sp (r :: rs) s = drain sp [r] s := by
  simp only [drain]
  by_cases ha : (anyActive s || anyPersis s) = true
  · rw [if_pos ha, if_pos ha]
    have hr := (receive_exc (sp := sp) r.mail s).1 h
    generalize receive sp s r.mail = z at hr
    obtain ⟨s1, e⟩ := z
    cases e with
    | some e => simp
    | none =>
      have hx : s1.exc = true := hr.1
      simp [exitFlag, hx]
  · rw [if_neg ha, if_neg ha]; simp

theorem finalPhase_one (s : St) (t : Nat → Int) (r : Round) (rs : List Round) (h : s.exc = true) :
    (finalPhase sp s t (r :: rs)).2 ≠ .waiting ∧ finalPhase sp s t (r :: rs) = finalPhase sp s t [r] := by
  have h1 := (stopAllPersis_exc (sp := sp) t (persisIds s) s).1
  rw [h] at h1
  simp only [finalPhase]
  generalize stopAllPersis sp t (persisIds s) s = z at h1
  obtain ⟨s1, e⟩ := z
  cases e with
  | some e => simp
  | none =>
    obtain ⟨d1, d2⟩ := drain_one (sp := sp) r rs s1 h1
    simp only
    rw [← d2]
    refine ⟨?_, rfl⟩
    generalize drain sp (r :: rs) s1 = y at d1
    obtain ⟨s2, q⟩ := y
    cases q with
    | error e => simp
    | ok o => cases o <;> simp_all

/-- End of the shutdown. -/
theorem finalPhase_exc (s : St) (t : Nat → Int) (rounds : List Round) :
    (s.exc = true → (finalPhase sp s t rounds).1.exc = true ∧ (finalPhase sp s t rounds).2 ≠ .raised .worker) ∧
    (s.exc = false → ((finalPhase sp s t rounds).1.exc = true ↔ (finalPhase sp s t rounds).2 = .raised .worker)) ∧
    (∀ f, (finalPhase sp s t rounds).2 = .done f → s.exc = false → f = 0 ∨ (f = 2 ∧ ∃ r ∈ rounds, wallTest sp r.e = true)) ∧
    ((finalPhase sp s t rounds).2 = .done 0 → anyActive (finalPhase sp s t rounds).1 = false ∧ anyPersis (finalPhase sp s t rounds).1 = false) ∧
    (∀ f, (finalPhase sp s t rounds).2 = .done f → ∃ pre, (finalPhase sp s t rounds).1.tr = ((ids s).map Ev.stop).reverse ++ pre) := by
  have h1 := stopAllPersis_exc (sp := sp) t (persisIds s) s
  have hi : ids (stopAllPersis sp t (persisIds s) s).1 = ids s := by
    have : ∀ ws s, ids (stopAllPersis sp t ws s).1 = ids s := by
      intro ws
      induction ws with
      | nil => intro s; rfl
      | cons w ws ih =>
        intro s
        have hp := (micros_stopPersis (sp := sp) s w (t w)).ids
        simp only [stopAllPersis, andThen]
        split
        · exact hp
        · rw [ih]; exact hp
    exact this _ _
  simp only [finalPhase]
  generalize stopAllPersis sp t (persisIds s) s = z at h1 hi
  obtain ⟨s1, e⟩ := z
  simp only at h1 hi
  cases e with
  | some e =>
    simp only
    refine ⟨fun h => ⟨h1.1.trans h, fun he => h1.2 (by simpa using he)⟩, fun h => ?_, by simp, by simp, by simp⟩
    rw [h1.1, h]
    simp only [Bool.false_eq_true, false_iff]
    intro he; exact h1.2 (by simpa using he)
  | none =>
    simp only
    obtain ⟨d1, d2, d3, d4⟩ := drain_exc (sp := sp) rounds s1
    rw [h1.1] at d1 d2 d3
    have hi2 : ids (drain sp rounds s1).1 = ids s := by
      have : ∀ rs s, ids (drain sp rs s).1 = ids s := by
        intro rs
        induction rs with
        | nil => intro s; simp only [drain]; split <;> rfl
        | cons r rs ih =>
          intro s
          simp only [drain]
          split
          · have hp : ids (receive sp s r.mail).1 = ids s := by
              have hall : ∀ xs s, ids (handleAll sp xs s).1 = ids s := by
                intro xs
                induction xs with
                | nil => intro s; rfl
                | cons x xs ih =>
                  intro s
                  have hp := (micros_handleMsg (sp := sp) s x.w x.m x.t).ids
                  simp only [handleAll]
                  split
                  · simp only [andThen]
                    split
                    · exact hp
                    · rw [ih]; exact hp
                  · exact ih s
              simp only [receive, andThen]
              split
              · exact hall _ _
              · simp only [ids, (sameTab_saveK _ _).W]; exact hall _ _
            generalize receive sp s r.mail = z at hp
            obtain ⟨s1, e⟩ := z
            cases e with
            | some e => exact hp
            | none =>
              simp only
              split
              · rw [ih]; exact hp
              · exact hp
          · rfl
      rw [this]; exact hi
    generalize drain sp rounds s1 = y at d1 d2 d3 d4 hi2
    obtain ⟨s2, r⟩ := y
    cases r with
    | error e =>
      simp only at d1 d2 ⊢
      refine ⟨fun h => ⟨(d1 h).1, fun he => (d1 h).2 (by simpa using he)⟩, fun h => ?_, by simp, by simp, by simp⟩
      rw [d2 h]; simp
    | ok o =>
      cases o with
      | none =>
        simp only at d1 d2 ⊢
        refine ⟨fun h => ⟨(d1 h).1, by simp⟩, fun h => ?_, by simp, by simp, by simp⟩
        rw [d2 h]; simp
      | some f =>
        simp only [killWorkers_eq, (sameTab_saveK _ _).exc] at d1 d2 d3 d4 ⊢
        refine ⟨fun h => ⟨(d1 h).1, by simp⟩, fun h => by rw [d2 h]; simp, fun f' hf hs => ?_, fun hf => ?_, fun f' hf => ?_⟩
        · refine d3 f' ?_ hs
          simpa using hf
        · have := d4 (by simpa using hf)
          simp only [anyActive, anyPersis] at this ⊢
          rw [(sameTab_saveK _ _).W]; exact this
        · refine ⟨(saveK sp s2 sp.saveDone).tr, ?_⟩
          have hi3 : ids (saveK sp s2 sp.saveDone) = ids s := by simp only [ids, (sameTab_saveK _ _).W]; exact hi2
          rw [hi3]

end Verif.Manager
