import Verif.Manager.PropsEnds
import Verif.Manager.StallDemo
/-!
C68: a run that meets the hypotheses, and runs without one of them.
-/
namespace Verif.Manager
open Verif.History Verif.Res Verif.Sched Verif.Alloc

/-- `Answers` as a test. -/
def answersB : List Ev → Bool
  | .recv w (.data d) :: tr => (decide (owes w tr = some d.calcType) && !d.isFinished && !d.keepState && !d.persistent) && answersB tr
  | _ :: tr => answersB tr
  | [] => true

theorem answersB_sound : ∀ {tr : List Ev}, answersB tr = true → Answers tr
  | [], _ => by intro post w d pre he; simp at he
  | e :: tr, h => by
    have h2 : answersB tr = true := by
      unfold answersB at h
      split at h
      · rename_i heq; injection heq with e1 e2; subst e2
        simp only [Bool.and_eq_true] at h; exact h.2
      · rename_i heq; injection heq with e1 e2; subst e2; exact h
      · rename_i heq; cases heq
    intro post w d pre he
    cases post with
    | nil =>
      injection he with e1 e2
      subst e1 e2
      simp only [answersB, Bool.and_eq_true, decide_eq_true_eq, Bool.not_eq_true'] at h
      exact ⟨h.1.1.1.1, h.1.1.1.2, h.1.1.2, h.1.2⟩
    | cons x post =>
      injection he with e1 e2
      exact answersB_sound h2 post w d pre e2

/-- `Productive` as a test. -/
def productiveB (tr : List Ev) : Bool := tr.all fun e =>
  match e with
  | .recv _ (.data d) => decide (d.calcType ≠ EVAL_GEN) || (match d.out with | .arr r => !r.rows.isEmpty | _ => false)
  | _ => true

theorem productiveB_sound {tr : List Ev} (h : productiveB tr = true) : Productive tr := by
  intro w d hm hg
  have := List.all_eq_true.mp h _ hm
  simp only [hg, ne_eq, not_true_eq_false, decide_false, Bool.false_or] at this
  cases ho : d.out with
  | arr r => rw [ho] at this; exact ⟨r, rfl, by simpa using this⟩
  | _ => rw [ho] at this; simp at this

/-- No row was ever cancelled before it was given, as a test for histories with at most `m` rows; rows in `cs` are left out. -/
def firstB (c : Start) (m : Nat) (cs : List Nat) : List Ev → Bool
  | [] => (List.range m).all fun i => !flagAt c.hist.rows .cancelRequested i || decide (i ∈ cs)
  | e :: tr => (decide ((histAt c.hist (e :: tr)).rows.length ≤ m) &&
      (List.range m).all fun i => !flagAt (histAt c.hist (e :: tr)).rows .cancelRequested i || decide (i ∈ simGiven (e :: tr) ∨ i ∈ cs)) && firstB c m cs tr

theorem firstB_sound {c : Start} {m : Nat} {cs : List Nat} (hm : c.hist.rows.length ≤ m) : ∀ {tr : List Ev}, firstB c m cs tr = true →
    ∀ i, CancelledFirst c tr i → i ∈ cs
  | [], h, i, ⟨post, pre, he, hf, hn⟩ => by
    have := List.append_eq_nil_iff.mp he.symm
    rw [this.2] at hf
    have hi := Nat.lt_of_lt_of_le (flagAt_lt hf) hm
    simp only [firstB, List.all_eq_true, List.mem_range, Bool.or_eq_true, Bool.not_eq_true', decide_eq_true_eq] at h
    rcases h i hi with h | h
    · exact absurd (h.symm.trans hf) (by simp)
    · exact h
  | e :: tr, h, i, ⟨post, pre, he, hf, hn⟩ => by
    simp only [firstB, Bool.and_eq_true, decide_eq_true_eq, List.all_eq_true, List.mem_range, Bool.or_eq_true, Bool.not_eq_true'] at h
    cases post with
    | nil =>
      have he : e :: tr = pre := he
      subst he
      rcases h.1.2 i (Nat.lt_of_lt_of_le (flagAt_lt hf) h.1.1) with h | h | h
      · exact absurd (h.symm.trans hf) (by simp)
      · exact absurd h hn
      · exact h
    | cons x post =>
      injection he with e1 e2
      exact firstB_sound hm h.2 i ⟨post, pre, e2, hf, hn⟩

def obligingB (c : Start) (m : Nat) (cs : List Nat) (tr : List Ev) : Bool :=
  answersB tr && productiveB tr && unnumberedB tr && keepsIdsB tr && firstB c m cs tr

theorem obligingB_sound {c : Start} {m : Nat} {cs : List Nat} {tr : List Ev} (hstd : c.Std) (hs : c.safe = true) (h0 : c.H0.rows = [])
    (hm : c.hist.rows.length ≤ m) (h : obligingB c m cs tr = true) : Obliging c cs tr := by
  simp only [obligingB, Bool.and_eq_true] at h
  exact ⟨⟨hstd, .inr h0, fun _ => by rw [h0]; intro k r hk; simp at hk, keepsIdsB_sound h.1.2⟩, .inl hs, answersB_sound h.1.1.1.1,
    productiveB_sound h.1.1.1.2, unnumberedB_sound h.1.1.2, firstB_sound hm h.2⟩

/-- Two evaluations are asked for. -/
def endDemo : Start := { sdemo with sp := { simMax := some 2 } }
theorem endDemo_std : endDemo.Std := ⟨bdemo_std.has, bdemo_std.sc, bdemo_std.sc0⟩
def endIts (b : Bundled) : List Iter :=
  [bpass b demoEnv endDemo.sp [], bpass b demoEnv endDemo.sp [points 1 [10, 20, 30]], bpass b demoEnv endDemo.sp [value 3 [1] [5]],
   bpass b demoEnv endDemo.sp [value 2 [0] [6]], bpass b demoEnv endDemo.sp []]
/-- The passes of the run; after those listed nothing more comes in. -/
def endPass (b : Bundled) (k : Nat) : Iter := (endIts b).getD k (bpass b demoEnv endDemo.sp [])

theorem endPass_uses (b : Bundled) (k : Nat) : (endPass b k).uses b demoEnv endDemo.sp := by
  unfold endPass
  match k with
  | 0 | 1 | 2 | 3 | 4 => exact bpass_uses _ _ _ _ _
  | k + 5 => simp only [endIts, List.getD_cons_succ, List.getD_nil]; exact bpass_uses _ _ _ _ _

theorem endPass_clock (b : Bundled) (k : Nat) : (endPass b k).e2 ≤ (endPass b (k + 1)).e1 := by
  unfold endPass
  match k with
  | 0 | 1 | 2 | 3 | 4 => exact Int.le_refl _
  | k + 5 => simp only [endIts, List.getD_cons_succ, List.getD_nil]; exact Int.le_refl _

/-- Once the main loop has ended, nothing more happens. -/
theorem passes_ended {c : Start} {f : Nat → Iter} {n : Nat} (h : (c.loop (passes f n)).2 ≠ .running) (k : Nat) (hk : n ≤ k) :
    c.loop (passes f k) = c.loop (passes f n) := by
  obtain ⟨j, rfl⟩ : ∃ j, k = n + j := ⟨k - n, by omega⟩
  have : passes f (n + j) = passes f n ++ (List.range' n j).map f := by
    simp only [passes, List.range_eq_range', ← List.map_append]
    rw [show List.range' 0 n ++ List.range' n j = List.range' 0 (n + j) by
      have := List.range'_append_1 (s := 0) (m := n) (n := j); simpa using this]
  rw [this, Start.loop, mainLoop_append, if_neg (by exact h)]
  rfl

theorem fair_ended {c : Start} {f : Nat → Iter} {n : Nat} (h : (c.loop (passes f n)).2 ≠ .running) : Fair c f := by
  intro k w hr _
  refine ⟨k + n, by omega, .inl ?_⟩
  rw [passes_ended h (k + n) (by omega)]
  exact h

/-- The conditions hold in this run. -/
theorem endDemo_obliging (b : Bundled) (hr : (endDemo.loop (passes (endPass b) 5)).2 ≠ .running)
    (h : ((List.range 6).all fun k => obligingB endDemo 4 [] (endDemo.loop (passes (endPass b) k)).1.tr) = true) (k : Nat) :
    Obliging endDemo [] (endDemo.loop (passes (endPass b) k)).1.tr := by
  refine obligingB_sound endDemo_std rfl rfl (m := 4) (by decide +kernel) ?_
  by_cases hk : k < 6
  · exact List.all_eq_true.mp h k (List.mem_range.mpr hk)
  · rw [passes_ended hr k (by omega)]
    exact List.all_eq_true.mp h 5 (by decide)

example : ∃ k, (endDemo.loop (passes (endPass (.simFirst {})) k)).2 ≠ .running :=
  have hr : (endDemo.loop (passes (endPass (.simFirst {})) 5)).2 ≠ .running := by decide +kernel
  C68_ends_partial endDemo (.simFirst {}) rfl demoEnv _ (endPass_uses _) 2 rfl (by decide) []
    (endDemo_obliging _ hr (by decide +kernel)) (endPass_clock _) (fair_ended hr)

example : ∃ k, (endDemo.loop (passes (endPass .oneGen) k)).2 ≠ .running :=
  have hr : (endDemo.loop (passes (endPass .oneGen) 5)).2 ≠ .running := by decide +kernel
  C68_ends_partial endDemo .oneGen rfl demoEnv _ (endPass_uses _) 2 rfl (by decide) []
    (endDemo_obliging _ hr (by decide +kernel)) (endPass_clock _) (fair_ended hr)

/-- The manager waits in this run: after the points came, worker 2 owes an answer. -/
example : (endDemo.loop (passes (endPass (.fast {})) 2)).2 = .running ∧ owes 2 (endDemo.loop (passes (endPass (.fast {})) 2)).1.tr = some EVAL_SIM ∧
    answerCount EVAL_SIM (endDemo.loop (passes (endPass (.fast {})) 5)).1.tr = 2 ∧ answerCount EVAL_GEN (endDemo.loop (passes (endPass (.fast {})) 5)).1.tr = 1 := by
  decide +kernel

/-! ## Runs that go on -/

/-- Two workers for generators. -/
def emptyDemo : Start := { endDemo with gens := [1, 2] }
def emptyIts : List Iter := bpass (.simFirst { numActiveGens := some 2 }) demoEnv emptyDemo.sp [] ::
  (List.range 6).map fun k => bpass (.simFirst { numActiveGens := some 2 }) demoEnv emptyDemo.sp [points (k % 2 + 1) []]

/-- Witness: two generators that send no points are called again and again, as long as one of them runs while the other answers; the
bound (5 answers here) does not hold.  (A run with only one of them is given up, `MErr.emptyGen`.) -/
theorem C68_no_points_witness : (∀ it ∈ emptyIts, it.uses (.simFirst { numActiveGens := some 2 }) demoEnv emptyDemo.sp) ∧
    (emptyDemo.loop emptyIts).2 = .running ∧ Answers (emptyDemo.loop emptyIts).1.tr ∧ Unnumbered (emptyDemo.loop emptyIts).1.tr ∧
    (∀ i, ¬ CancelledFirst emptyDemo (emptyDemo.loop emptyIts).1.tr i) ∧ answerCount EVAL_GEN (emptyDemo.loop emptyIts).1.tr = 6 := by
  refine ⟨bpasses ?_, by decide +kernel, answersB_sound (by decide +kernel), unnumberedB_sound (by decide +kernel), fun i h => ?_, by decide +kernel⟩
  · intro it hit
    simp only [emptyIts, List.mem_cons, List.mem_map] at hit
    rcases hit with rfl | ⟨k, _, rfl⟩ <;> exact ⟨_, _, rfl⟩
  · have := firstB_sound (c := emptyDemo) (m := 4) (cs := []) (by decide +kernel) (tr := (emptyDemo.loop emptyIts).1.tr) (by decide +kernel) i h
    simp at this

/-- A point that is cancelled at once. -/
def cancelledPoint : Rec := ⟨[(.user 1, .vec 2), (.cancelRequested, .scalar)], [mkRow [(.user 1, .v [1, 2]), (.cancelRequested, .s 1)]]⟩
def cancelIts : List Iter :=
  bpass (.simFirst {}) demoEnv endDemo.sp [] :: List.replicate 6 (bpass (.simFirst {}) demoEnv endDemo.sp [genMail cancelledPoint])

/-- Witness: a generator that cancels all its points at once is called again and again. -/
theorem C68_cancelling_witness : (∀ it ∈ cancelIts, it.uses (.simFirst {}) demoEnv endDemo.sp) ∧ (endDemo.loop cancelIts).2 = .running ∧
    Obliging endDemo [0, 1, 2, 3, 4, 5] (endDemo.loop cancelIts).1.tr ∧ simGiven (endDemo.loop cancelIts).1.tr = [] ∧
    answerCount EVAL_GEN (endDemo.loop cancelIts).1.tr = 6 := by
  refine ⟨bpasses ?_, by decide +kernel, obligingB_sound endDemo_std rfl rfl (m := 20) (by decide +kernel) (by decide +kernel), by decide +kernel, by decide +kernel⟩
  intro it hit
  simp only [cancelIts, List.mem_cons, List.mem_replicate] at hit
  rcases hit with rfl | ⟨_, rfl⟩ <;> exact ⟨_, _, rfl⟩

example : ∃ k, (endDemo.loop (passes (endPass (.simFirst {})) k)).2 ≠ .running ∧ (endDemo.loop (passes (endPass (.simFirst {})) k)).2 ≠ .raised .noWork :=
  have hr : (endDemo.loop (passes (endPass (.simFirst {})) 5)).2 ≠ .running := by decide +kernel
  C68_simFirst_partial endDemo {} demoEnv _ (endPass_uses _) 2 rfl (by decide) ⟨2, by decide, by decide, by decide⟩ (by decide) (by simp) []
    (endDemo_obliging _ hr (by decide +kernel))
    (fun k => by
      have h : ((List.range 6).all fun k => completeB (endDemo.loop (passes (endPass (.simFirst {})) k)).1.tr) = true := by decide +kernel
      by_cases hk : k < 6
      · exact completeB_sound (List.all_eq_true.mp h k (List.mem_range.mpr hk))
      · rw [passes_ended hr k (by omega)]; exact completeB_sound (List.all_eq_true.mp h 5 (by decide)))
    (fun _ => .unmanaged rfl) (endPass_clock _) (fair_ended hr)

end Verif.Manager
