import Verif.Manager.PropsStall
import Verif.Manager.PropsSims
import Verif.Manager.PropsRes
/-!
C67: concrete runs that meet the hypotheses, and runs that the manager gives up.
-/
namespace Verif.Manager
open Verif.History Verif.Res Verif.Sched Verif.Alloc

/-- `Complete` as a test. -/
def completeB : List Ev → Bool
  | .recv w (.data d) :: tr => ((view w (.recv w (.data d) :: tr)).busy || (openRows w tr).all fun i => d.simAnswer && decide (i ∈ d.rows)) && completeB tr
  | _ :: tr => completeB tr
  | [] => true

theorem completeB_sound : ∀ {tr : List Ev}, completeB tr = true → Complete tr
  | [], _ => by intro post w d pre he; simp at he
  | e :: tr, h => by
    have h2 : completeB tr = true := by
      unfold completeB at h
      split at h
      · rename_i heq; injection heq with e1 e2; subst e2
        simp only [Bool.and_eq_true] at h; exact h.2
      · rename_i heq; injection heq with e1 e2; subst e2; exact h
      · rename_i heq; cases heq
    intro post w d pre he hb i hi
    cases post with
    | nil =>
      injection he with e1 e2
      subst e1 e2
      simp only [completeB, hb, Bool.false_or, Bool.and_eq_true, List.all_eq_true, decide_eq_true_eq] at h
      exact h.1 i hi
    | cons x post =>
      injection he with e1 e2
      exact completeB_sound h2 post w d pre e2 hb i hi

/-- `Steady` as a test, for histories with at most `m` rows. -/
def steadyB (c : Start) (m : Nat) (last : List Row) : List Ev → Bool
  | [] => (List.range m).all fun i => !flagAt c.hist.rows .cancelRequested i || flagAt last .cancelRequested i
  | e :: tr => (decide ((histAt c.hist (e :: tr)).rows.length ≤ m) &&
      (List.range m).all fun i => !flagAt (histAt c.hist (e :: tr)).rows .cancelRequested i || flagAt last .cancelRequested i) && steadyB c m last tr

theorem flagAt_lt {rows : List Row} {f : Field} {i : Nat} (h : flagAt rows f i = true) : i < rows.length := by
  unfold flagAt at h
  cases hr : rows[i]? with
  | none => rw [hr] at h; simp at h
  | some r => exact (List.getElem?_eq_some_iff.mp hr).1

theorem steadyB_sound {c : Start} {m : Nat} {last : List Row} (hm : c.hist.rows.length ≤ m) : ∀ {tr : List Ev}, steadyB c m last tr = true →
    ∀ post pre i, tr = post ++ pre → flagAt (histAt c.hist pre).rows .cancelRequested i = true → flagAt last .cancelRequested i = true
  | [], h, post, pre, i, he, hf => by
    have := List.append_eq_nil_iff.mp he.symm
    rw [this.2] at hf
    have hi := Nat.lt_of_lt_of_le (flagAt_lt hf) hm
    simp only [steadyB, List.all_eq_true, List.mem_range, Bool.or_eq_true, Bool.not_eq_true'] at h
    rcases h i hi with h | h
    · exact absurd (h.symm.trans hf) (by simp)
    · exact h
  | e :: tr, h, post, pre, i, he, hf => by
    simp only [steadyB, Bool.and_eq_true, decide_eq_true_eq, List.all_eq_true, List.mem_range, Bool.or_eq_true, Bool.not_eq_true'] at h
    cases post with
    | nil =>
      have he : e :: tr = pre := he
      subst he
      rcases h.1.2 i (Nat.lt_of_lt_of_le (flagAt_lt hf) h.1.1) with h | h
      · exact absurd (h.symm.trans hf) (by simp)
      · exact h
    | cons x post =>
      injection he with e1 e2
      exact steadyB_sound hm h.2 post pre i e2 hf

/-- `Tidy` as a test. -/
theorem tidy_of {c : Start} (h : (c.hist.rows.all fun r => !r.flag .simStarted || r.flag .simEnded) = true) : c.Tidy := by
  intro r hr hs
  have := List.all_eq_true.mp h r hr
  simpa [hs] using this

theorem bpasses {b : Bundled} {env : AllocEnv} {sp : Specs} {its : List Iter} (h : ∀ it ∈ its, ∃ mail e, it = bpass b env sp mail e) :
    ∀ it ∈ its, it.uses b env sp := by
  intro it hit
  obtain ⟨mail, e, rfl⟩ := h it hit
  exact bpass_uses _ _ _ _ _

theorem onceIts_uses (b : Bundled) : ∀ it ∈ onceIts b, it.uses b demoEnv sdemo.sp := by
  intro it hit
  simp only [onceIts, List.mem_cons, List.not_mem_nil, or_false] at hit
  rcases hit with rfl | rfl | rfl | rfl <;> exact bpass_uses _ _ _ _ _

theorem sdemo_sim : sdemo.SimWorker := ⟨2, by decide, by decide, by decide⟩

/-- The hypotheses hold in a run in which points are made and evaluated. -/
example : (sdemo.loop (onceIts (.simFirst { batchMode := true }))).2 ≠ .raised .noWork :=
  C67_simFirst_partial sdemo sdemo_std { batchMode := true } demoEnv _ (onceIts_uses _) sdemo_sim (by decide) (fun _ => tidy_of (by decide +kernel))
    (.inl rfl) (completeB_sound (by decide +kernel)) (.unmanaged rfl)

example : (sdemo.loop (onceIts (.fast {}))).2 ≠ .raised .noWork :=
  C67_fast_partial sdemo sdemo_std {} demoEnv _ (onceIts_uses _) sdemo_sim (by decide)
    (.inl rfl) (completeB_sound (by decide +kernel)) (.unmanaged rfl)

example : (sdemo.loop (onceIts .oneGen)).2 ≠ .raised .noWork :=
  C67_oneGen_partial sdemo sdemo_std demoEnv _ (onceIts_uses _) sdemo_sim (tidy_of (by decide +kernel)) (by intro i hi; simp [sdemo, bdemo] at hi)
    (by
      rintro i ⟨post, pre, he, hf⟩
      exact steadyB_sound (m := 4) (by decide +kernel) (tr := (sdemo.loop (onceIts .oneGen)).1.tr) (by decide +kernel) post pre i he hf)
    (.inl rfl) (completeB_sound (by decide +kernel)) (.unmanaged rfl)

/-- All points are given with the history. -/
def preDemo : Start := { sdemo with L := 0, H0 := { cols := demoCols, rows := [mkRow [(.simId, .s 0)], mkRow [(.simId, .s 1)], mkRow [(.simId, .s 2)]] } }
def preIts : List Iter :=
  [bpass .pregen demoEnv preDemo.sp [], bpass .pregen demoEnv preDemo.sp [value 2 [0] [5]], bpass .pregen demoEnv preDemo.sp [value 3 [1] [6]],
   bpass .pregen demoEnv preDemo.sp [value 2 [2] [6]]]

theorem preDemo_std : preDemo.Std := ⟨bdemo_std.has, bdemo_std.sc, by unfold LibScalar; decide⟩

example : (preDemo.loop preIts).2 ≠ .raised .noWork :=
  C67_pregen_partial preDemo preDemo_std demoEnv _ (bpasses (by
      intro it hit
      simp only [preIts, List.mem_cons, List.not_mem_nil, or_false] at hit
      rcases hit with rfl | rfl | rfl | rfl <;> exact ⟨_, _, rfl⟩)) ⟨2, by decide, by decide, by decide⟩
    (.inl rfl) (completeB_sound (by decide +kernel)) (.unmanaged rfl)
example : simGiven (preDemo.loop preIts).1.tr = [2, 1, 0] := by decide +kernel

/-- With resource sets: the hypotheses hold at the end of a run with evaluations. -/
def sresDemo : Start := { sdemo with rm := some resRM }
def sresIts : List Iter :=
  [bpass (.simFirst {}) resEnv sresDemo.sp [], bpass (.simFirst {}) resEnv sresDemo.sp [points 1 [10, 20, 30]],
   bpass (.simFirst {}) resEnv sresDemo.sp [value 2 [0] [5]]]
example : (sresDemo.loop sresIts).2 ≠ .raised .noWork :=
  C67_simFirst_partial sresDemo ⟨bdemo_std.has, bdemo_std.sc, bdemo_std.sc0⟩ {} resEnv _ (bpasses (by
      intro it hit
      simp only [sresIts, List.mem_cons, List.not_mem_nil, or_false] at hit
      rcases hit with rfl | rfl | rfl <;> exact ⟨_, _, rfl⟩)) ⟨2, by decide, by decide, by decide⟩ (by decide) (by simp)
    (.inl rfl) (completeB_sound (by decide +kernel))
    (.even 4 ["a", "b"] 0 resRM (by decide) (by decide) (by decide) rfl rfl rfl (sane_of (by decide +kernel)) (by decide +kernel))

/-! ## Runs that the manager gives up -/

def rowH0 (l : List (Field × Val)) : Rec := { cols := demoCols, rows := [mkRow l] }

/-- Witness: a history whose only row had been started but has no result.  In batch mode nobody evaluates it and no generator is called. -/
theorem C67_left_over_witness : ∃ (c : Start) (its : List Iter), c.Std ∧ c.safe = true ∧ c.SimWorker ∧
    (∀ it ∈ its, it.uses (.simFirst { batchMode := true }) demoEnv c.sp) ∧ Complete (c.loop its).1.tr ∧
    (c.loop its).2 = .raised .noWork := by
  refine ⟨{ sdemo with H0 := rowH0 [(.simStarted, .s 1)] }, [bpass (.simFirst { batchMode := true }) demoEnv {} []],
    ⟨bdemo_std.has, bdemo_std.sc, by unfold LibScalar; decide⟩, rfl, ⟨2, by decide, by decide, by decide⟩, bpasses (by intro it hit; simp only [List.mem_cons, List.not_mem_nil, or_false] at hit; rcases hit with rfl <;> exact ⟨_, _, rfl⟩),
    completeB_sound (by decide +kernel), by decide +kernel⟩

/-- Witness: `num_active_gens` is 0. -/
theorem C67_no_gens_witness : ∃ (c : Start) (its : List Iter), c.Std ∧ c.safe = true ∧ c.SimWorker ∧
    (∀ it ∈ its, it.uses (.simFirst { numActiveGens := some 0 }) demoEnv c.sp) ∧ Complete (c.loop its).1.tr ∧
    (c.loop its).2 = .raised .noWork := by
  refine ⟨sdemo, [bpass (.simFirst { numActiveGens := some 0 }) demoEnv {} []], sdemo_std, rfl, sdemo_sim, bpasses (by intro it hit; simp only [List.mem_cons, List.not_mem_nil, or_false] at hit; rcases hit with rfl <;> exact ⟨_, _, rfl⟩),
    completeB_sound (by decide +kernel), by decide +kernel⟩

/-- Witness: all workers are reserved for generators. -/
theorem C67_only_gens_witness : ∃ (c : Start) (its : List Iter), c.Std ∧ c.safe = true ∧
    (∀ it ∈ its, it.uses (.simFirst {}) demoEnv c.sp) ∧ Complete (c.loop its).1.tr ∧
    (c.loop its).2 = .raised .noWork := by
  refine ⟨{ sdemo with n := 1 }, [bpass (.simFirst {}) demoEnv {} [], bpass (.simFirst {}) demoEnv {} [points 1 [10]]], ⟨bdemo_std.has, bdemo_std.sc, bdemo_std.sc0⟩, rfl, bpasses (by intro it hit; simp only [List.mem_cons, List.not_mem_nil, or_false] at hit; rcases hit with rfl | rfl <;> exact ⟨_, _, rfl⟩),
    completeB_sound (by decide +kernel), by decide +kernel⟩

/-- Witness: the generator asks for all of the 5 resource sets for one evaluation; all are free, but lie unevenly on the nodes. -/
theorem C67_uneven_witness : ∃ (c : Start) (rm : RM) (its : List Iter), c.Std ∧ c.safe = true ∧ c.SimWorker ∧
    mkRM 5 ["a", "b"] 0 none = some rm ∧ c.rm = some rm ∧
    (∀ it ∈ its, it.uses (.simFirst {}) { resEnv with split2fit := false } c.sp) ∧ Complete (c.loop its).1.tr ∧
    (c.loop its).2 = .raised .noWork := by
  refine ⟨{ sdemo with rm := some unevenRM, cols := (.resourceSets, .scalar) :: demoCols, H0 := rowH0 [(.resourceSets, .s 5)] |> fun r => { r with cols := (.resourceSets, .scalar) :: demoCols } },
    unevenRM, [bpass (.simFirst {}) { resEnv with split2fit := false } {} []],
    ⟨by unfold HasLibCols; decide, by unfold LibScalar; decide, by unfold LibScalar; decide⟩, rfl, ⟨2, by decide, by decide, by decide⟩, C23_uneven_witness.1, rfl, bpasses (by intro it hit; simp only [List.mem_cons, List.not_mem_nil, or_false] at hit; rcases hit with rfl <;> exact ⟨_, _, rfl⟩),
    completeB_sound (by decide +kernel), by decide +kernel⟩

/-- Witness: the only worker runs a persistent generator, its points wait. -/
theorem C67_one_worker_witness : ∃ (c : Start) (its : List Iter), c.Std ∧ c.safe = true ∧ c.SimWorker ∧
    (∀ it ∈ its, it.uses (.persGens {}) demoEnv c.sp) ∧ Complete (c.loop its).1.tr ∧
    (c.loop its).2 = .raised .noWork := by
  refine ⟨{ sdemo with n := 1, gens := [] }, [bpass (.persGens {}) demoEnv {} [], bpass (.persGens {}) demoEnv {} [genPoints 1 [10]]],
    ⟨bdemo_std.has, bdemo_std.sc, bdemo_std.sc0⟩, rfl, ⟨1, by decide, by decide, by decide⟩, bpasses (by intro it hit; simp only [List.mem_cons, List.not_mem_nil, or_false] at hit; rcases hit with rfl | rfl <;> exact ⟨_, _, rfl⟩),
    completeB_sound (by decide +kernel), by decide +kernel⟩

/-- Witness: a persistent generator that knows all results sends no points. -/
theorem C67_silent_gen_witness : ∃ (c : Start) (its : List Iter), c.Std ∧ c.safe = true ∧ c.SimWorker ∧ c.Tidy ∧
    (∀ it ∈ its, it.uses (.persGens {}) demoEnv c.sp) ∧ Complete (c.loop its).1.tr ∧ simGiven (c.loop its).1.tr = [0] ∧
    (c.loop its).2 = .raised .noWork := by
  refine ⟨{ sdemo with persisIn := [.user 0] }, [bpass (.persGens {}) demoEnv {} [], bpass (.persGens {}) demoEnv {} [genPoints 1 [10]],
      bpass (.persGens {}) demoEnv {} [value 2 [0] [7]], bpass (.persGens {}) demoEnv {} [genPoints 1 []]],
    ⟨bdemo_std.has, bdemo_std.sc, bdemo_std.sc0⟩, rfl, ⟨2, by decide, by decide, by decide⟩, tidy_of (by decide +kernel), bpasses (by intro it hit; simp only [List.mem_cons, List.not_mem_nil, or_false] at hit; rcases hit with rfl | rfl | rfl | rfl <;> exact ⟨_, _, rfl⟩),
    completeB_sound (by decide +kernel), by decide +kernel, by decide +kernel⟩

/-- Points of which the first is cancelled at once. -/
def cancelPoints : Rec :=
  ⟨[(.user 1, .vec 2), (.cancelRequested, .scalar)], [mkRow [(.user 1, .v [1, 2]), (.cancelRequested, .s 1)], mkRow [(.user 1, .v [3, 4])]]⟩
/-- The cancellation of row 0 is taken back. -/
def uncancel : Rec := ⟨[(.simId, .scalar), (.cancelRequested, .scalar)], [mkRow []]⟩
def genMail (r : Rec) : Mail := { w := 1, t := 5, m := .data { calcType := EVAL_GEN, calcStatus := 0, rows := [], out := .arr r } }

/-- Witness: a cancellation is taken back after `ensure_one_active_gen` has passed over the row; nobody evaluates it and no generator is called. -/
theorem C67_taken_back_witness : ∃ (c : Start) (its : List Iter), c.Std ∧ c.safe = true ∧ c.SimWorker ∧ c.Tidy ∧ c.pinfo.nextToGive = some 0 ∧
    (∀ it ∈ its, it.uses .oneGen demoEnv c.sp) ∧ Complete (c.loop its).1.tr ∧ simGiven (c.loop its).1.tr = [1] ∧
    (c.loop its).2 = .raised .noWork := by
  refine ⟨sdemo, [bpass .oneGen demoEnv {} [], bpass .oneGen demoEnv {} [genMail cancelPoints],
      bpass .oneGen demoEnv {} [value 2 [1] [7]], bpass .oneGen demoEnv {} [genMail uncancel]],
    sdemo_std, rfl, sdemo_sim, tidy_of (by decide +kernel), rfl,
    bpasses (by intro it hit; simp only [List.mem_cons, List.not_mem_nil, or_false] at hit; rcases hit with rfl | rfl | rfl | rfl <;> exact ⟨_, _, rfl⟩),
    completeB_sound (by decide +kernel), by decide +kernel, by decide +kernel⟩

end Verif.Manager
