import Verif.Manager.KillWindow
/-
When rows are given in increasing order, every row under evaluation is among those the manager looks at.
-/
namespace Verif.Manager
open Verif.History Verif.Res Verif.Sched Verif.Alloc

variable {sp : Specs} {P : St → Reply → Prop} {s0 : St}

/-- The entry "sent for evaluation" is told whether kill signals are wanted. -/
def killFlag (sp : Specs) : Ev → Prop
  | .op (.giveSim _ _ _ k) => k = sp.kill
  | _ => True

theorem Reach.killFlag {p : Ph} {s : St} (h : Reach sp P s0 p s) (h0 : s0.tr = []) : Always (fun _ e => Manager.killFlag sp e) s.tr := by
  refine h.always (by rw [h0]; exact .nil) (fun _ _ _ => trivial) (fun s _ ih => ?_) (fun p s w m t _ _ _ ih => ?_)
    (fun _ _ _ => trivial) (fun s w wk t rest hr _ ih => ?_) (fun _ _ _ => trivial) (fun s x w ws t _ ih => ?_) (fun s x _ ih => ?_)
  · exact (micros_killCancelled s).always ih (fun e h pre => by cases h <;> trivial)
  · exact (micros_handleMsg s w m t).always ih (fun e h pre => by cases h <;> trivial)
  · refine (micros_handOut s wk w t).always ih (fun e h pre => ?_)
    cases h with
    | send h => cases h <;> trivial
    | sim h => rfl
    | gen h => trivial
  · refine (micros_stopPersis s w t).always ih (fun e h pre => ?_)
    cases h with
    | send _ _ h => cases h <;> trivial
    | _ => trivial
  · exact (micros_killWorkers s (sp := sp)).always ih (fun e h pre => by obtain ⟨w, rfl⟩ := h; trivial)

theorem given_after {c : Start} {p : Ph} {s : St} (h : Reach c.sp P c.st p s) (hk : c.sp.kill = true) : Always GivenAfter s.tr := by
  intro post e pre he
  have h1 := h.givF (h0 := c.hist) start_tr rfl post e pre he
  have h2 := h.killFlag start_tr post e pre he
  cases e with
  | op o =>
    cases o with
    | giveSim rows w t k =>
      obtain ⟨q, wk, l, pre', g1, _, g3, g4, g5, _⟩ := h1
      refine ⟨h2.trans hk, idAt c.sp q, wk, l, pre', g1, ?_, g4, g5⟩
      rw [g3]
      intro e he o
      split at he
      · simp at he
      · simp only [List.mem_singleton] at he; rw [he]; simp
    | _ => trivial
  | _ => trivial

/-- What holds of the events before each search. -/
theorem Reach.searches {R : List Ev → Prop} (hR : ∀ s pre, Reach sp P s0 .kill s → s.tr = .test 0 :: pre → R pre)
    {p : Ph} {s : St} (h : Reach sp P s0 p s) (h0 : s0.tr = []) {post pre : List Ev} (he : s.tr = post ++ .test 0 :: pre) : R pre := by
  have key := h.kills (I := fun b tr => ∀ post pre, tr = post ++ .test 0 :: pre → (b = true ∧ post = []) ∨ R pre) ?_ ?_ ?_ ?_ ?_
  · rcases key post pre he with ⟨h1, h2⟩ | h1
    · have hp : p = .kill := by cases p <;> simp at h1; rfl
      subst hp h2
      exact hR s pre h he
    · exact h1
  · intro post pre he
    rw [h0] at he; simp at he
  · intro l tr ih hl post pre he
    rcases append_split he with ⟨l1, l2, rfl, rfl, rfl⟩ | ⟨post', rfl, rfl⟩
    · have := hl (.test 0) (by simp)
      simp [noKill] at this
    · rcases ih post' pre rfl with h1 | h1
      · simp at h1
      · exact .inr h1
  · intro tr ih post pre he
    cases post with
    | nil => exact .inl ⟨rfl, rfl⟩
    | cons a post =>
      simp only [List.cons_append, List.cons.injEq] at he
      obtain ⟨rfl, rfl⟩ := he
      rcases ih post pre rfl with h1 | h1
      · simp at h1
      · exact .inr h1
  · intro tr r ih hr post pre he
    cases post with
    | nil =>
      simp only [List.nil_append, List.cons.injEq, Ev.test.injEq] at he
      exact absurd he.1 hr
    | cons a post =>
      simp only [List.cons_append, List.cons.injEq] at he
      obtain ⟨rfl, rfl⟩ := he
      rcases ih post pre rfl with h1 | h1
      · simp at h1
      · exact .inr h1
  · intro s hr ih post pre he
    obtain ⟨l, hl, hle⟩ := (micros_killCancelled (sp := sp) s).tr
    rw [hl] at he
    rcases append_split he with ⟨l1, l2, rfl, rfl, rfl⟩ | ⟨post', rfl, he'⟩
    · have := hle (.test 0) (by simp)
      cases this
    · rcases ih post' pre he' with ⟨_, rfl⟩ | h1
      · exact .inr (hR s pre hr he')
      · exact .inr h1

/-- Rows under evaluation at the time of a search are in the window, when rows were given in increasing order. -/
theorem window_covers {c : Start} (hk : c.sp.kill = true) {p : Ph} {s : St} (h : Reach c.sp P c.st p s) (ho : KillOk c s.tr)
    (hr : Rising s.tr) {post pre : List Ev} (he : s.tr = post ++ .test 0 :: pre) {i : Nat} {r : Row}
    (hi : (histAt c.hist pre).rows[i]? = some r) (hs : r.flag .simStarted = true) (hne : r.flag .simEnded = false) :
    InWindow (histAt c.hist pre) i := by
  have hf : OpsFine c.hist pre := h.searches (R := OpsFine c.hist) (fun s pre hr he => by
    have h1 := hr.fine start_tr rfl
    simp only [Fine] at h1
    have h2 : OpsFine c.hist s.tr := fine_ops (by rw [show c.hist = c.st.hist from rfl, h1])
    rw [he] at h2
    exact Always.suffix (l := [.test 0]) h2) start_tr he
  have e1 : s.tr = (post ++ [.test 0]) ++ pre := by simp [he]
  have hops : OpsOk c pre := by have := start_kept h ho.prot; rw [e1] at this; exact this.suffix
  have hrs : Rising pre := by rw [e1] at hr; exact Always.suffix hr
  have hg : Always GivenAfter pre := by have := given_after h hk; rw [e1] at this; exact Always.suffix this
  have hn : ¬ Ended (histAt c.hist pre) i := by
    rintro ⟨r', h1, h2⟩
    rw [hi] at h1
    cases h1
    rw [hne] at h2; simp at h2
  refine ⟨?_, ?_⟩
  · by_cases hl : (i : Int) ≤ (histAt c.hist pre).lastEnded
    · exact absurd (below_ended ho.std hops hl) hn
    · omega
  · obtain ⟨post', pre', o, e2, _, ⟨_, rows, w, t, k, rfl, him⟩ | ⟨h1, _⟩⟩ := flag_set ho.std hops .simStarted (.inl rfl) (clean_start ho.std ho.h0 hops hn).1
      (v := r .simStarted) (by simp [cell, hi]) (by simpa [Row.flag] using hs)
    · exact given_below (rows := rows) (w := w) (t := t) (k := k) hrs hf hg (by rw [e2]; simp) him
    · exact absurd h1 (by simp)

end Verif.Manager
