import Verif.Manager.Idle
import Verif.Manager.BundledSims
import Verif.Alloc.Idle
/-!
What holds when the manager finds that all workers are idle after the allocation function was called.
-/
namespace Verif.Manager
open Verif.History Verif.Res Verif.Sched Verif.Alloc

variable {sp : Specs} {P : St → Reply → Prop} {s0 : St}

/-- A worker that was given work is busy. -/
theorem handOut_active {s : St} {wk : Work} {w : Nat} {t : Int} (h : (handOut sp s wk w t).2 = none) :
    anyActive (handOut sp s wk w t).1 = true := by
  obtain ⟨_, k, wk', l0, l, hG, _⟩ := handOut_ok h
  obtain ⟨g, _, hW⟩ := hG.W
  have hk : k < s.W.length := wPos_lt hG.pos
  have hne : wk.tag ≠ 0 := by rcases hG.tag with h | h | h <;> rw [h] <;> decide
  simp only [anyActive, List.any_eq_true, decide_eq_true_eq]
  refine ⟨giveEntry wk (g s.W[k]), ?_, ?_⟩
  · rw [hW]
    refine List.mem_of_getElem? (i := k) ?_
    rw [List.getElem?_modify, List.getElem?_eq_getElem hk]
    simp
  · simp only [giveEntry]; split <;> exact hne

theorem handOutAll_active (l : List (Nat × Work × Int)) (s : St) (h : (handOutAll sp l s).2 = none) (ha : anyActive s = true) :
    anyActive (handOutAll sp l s).1 = true := by
  induction l generalizing s with
  | nil => exact ha
  | cons x l ih =>
    obtain ⟨w, wk, t⟩ := x
    simp only [handOutAll] at h ⊢
    split
    · exact ha
    · rename_i hg
      rw [if_neg hg] at h
      simp only [andThen] at h ⊢
      split
      · rename_i e he; rw [he] at h; simp at h
      · rename_i he
        rw [he] at h
        exact ih _ h (handOut_active he)

/-- If all workers are idle after the orders of an answer have been handed out, nothing was handed out. -/
theorem handOutAll_idle (l : List (Nat × Work × Int)) (s : St) (h : (handOutAll sp l s).2 = none)
    (ha : anyActive (handOutAll sp l s).1 = false) : (handOutAll sp l s).1 = s ∧ (l = [] ∨ simMaxGiven sp s.hist = true) := by
  cases l with
  | nil => exact ⟨rfl, .inl rfl⟩
  | cons x l =>
    obtain ⟨w, wk, t⟩ := x
    simp only [handOutAll] at h ha ⊢
    split
    · rename_i hg; exact ⟨rfl, .inr hg⟩
    · rename_i hg
      exfalso
      rw [if_neg hg] at h ha
      simp only [andThen] at h ha
      split at h
      · rename_i e he; simp at h
      · rename_i he
        rw [he] at ha
        rw [handOutAll_active _ _ h (handOut_active he)] at ha
        simp at ha

theorem handOut_notNoWork {s : St} {wk : Work} {w : Nat} {t : Int} : (handOut sp s wk w t).2 ≠ some .noWork := by
  intro h
  simp only [handOut] at h
  cases hk : checkOrder sp s wk w false with
  | some e' =>
    rw [hk] at h
    simp only [checkOrder, checkFields] at hk
    simp only [Option.some.injEq] at h
    subst h
    repeat' split at hk
    all_goals cases hk
  | none =>
    simp only [hk, andThen] at h
    have hset : (setResources sp s wk w).2.2 ≠ some .noWork := by
      intro he
      simp only [setResources] at he
      repeat' split at he
      all_goals cases he
    have hsend : (sendOrder sp s wk w t).2 ≠ some .noWork := by
      intro he'
      simp only [sendOrder] at he'
      generalize setResources sp s wk w = x at he' hset
      obtain ⟨s1, wk1, e1⟩ := x
      cases e1 with
      | some e1 => exact hset he'
      | none =>
        simp only at he'
        split at he'
        · cases he'
        · simp only [sendRows] at he'
          repeat' split at he'
          all_goals cases he'
    split at h
    · rename_i e' he'
      simp only [Option.some.injEq] at h; subst h
      exact hsend he'
    · simp only [updateOnAlloc] at h
      have hop : ∀ (s : St) (o : Op), (doOp s o).2 ≠ some .noWork := by
        intro s o he
        obtain ⟨x, hx⟩ := doOp_err he
        cases hx
      split at h
      · cases h
      · split at h
        · exact hop _ _ h
        · split at h
          · exact hop _ _ h
          · cases h

theorem handOutAll_notNoWork (l : List (Nat × Work × Int)) (s : St) : (handOutAll sp l s).2 ≠ some .noWork := by
  induction l generalizing s with
  | nil => simp [handOutAll]
  | cons x l ih =>
    obtain ⟨w, wk, t⟩ := x
    simp only [handOutAll]
    split
    · simp
    · simp only [andThen]
      split
      · rename_i e he
        intro hx
        simp only [Option.some.injEq] at hx; subst hx
        exact handOut_notNoWork he
      · exact ih _

theorem handleAll_notNoWork (l : List Mail) (s : St) : (handleAll sp l s).2 ≠ some .noWork := by
  induction l generalizing s with
  | nil => simp [handleAll]
  | cons x l ih =>
    simp only [handleAll]
    split
    · simp only [andThen]
      split
      · rename_i e he
        intro hx
        simp only [Option.some.injEq] at hx; subst hx
        rcases handleMsg_err he with h | h | h | ⟨_, h⟩ <;> cases h
      · exact ih _
    · exact ih _

/-- A pass that ends with "no work". -/
theorem iter_noWork {s : St} {it : Iter} (hr : Reach sp P s0 .kill s) (hn : (iter sp s it).2 = .raised .noWork) :
    ∃ s1 cs work p, Reach sp P s0 .alloc s1 ∧ it.alloc s1 = .ok cs work false p ∧
      (iter sp s it).1 = { (doOp s1 (.requestCancel cs)).1 with pinfo := p } ∧ anyActive (iter sp s it).1 = false ∧
      termTest sp (iter sp s it).1.hist it.e2 = 0 ∧ (work = [] ∨ simMaxGiven sp (iter sp s it).1.hist = true) := by
  have key : (andThen (killCancelled sp s) (fun s => receive sp s it.mail)).2 ≠ some .noWork ∧
      ((andThen (killCancelled sp s) (fun s => receive sp s it.mail)).2 = none →
        Reach sp P s0 .alloc (andThen (killCancelled sp s) (fun s => receive sp s it.mail)).1) := by
    simp only [andThen]
    split
    · rename_i e he
      exact ⟨fun h => by simp only [Option.some.injEq] at h; rw [h] at he; exact absurd (killCancelled_err he) (by simp [MErr.clean]), nofun⟩
    · rename_i he
      have h1 := handleAll_reach it.mail _ (.kill hr he)
      simp only [receive, andThen]
      split
      · rename_i e he'
        exact ⟨fun h => by simp only [Option.some.injEq] at h; rw [h] at he'; exact handleAll_notNoWork _ _ he', nofun⟩
      · rename_i he'
        exact ⟨nofun, fun _ => .save (h1.1 he')⟩
  simp only [iter] at hn ⊢
  generalize andThen (killCancelled sp s) (fun s => receive sp s it.mail) = x at key hn
  obtain ⟨s1, e1⟩ := x
  cases e1 with
  | some e => exfalso; simp only [Flow.raised.injEq] at hn; exact key.1 (by rw [hn])
  | none =>
    have h1 := key.2 rfl
    simp only at hn h1 ⊢
    cases ha : it.alloc s1 with
    | raised cs => rw [ha] at hn; simp at hn
    | ok cs work flag p =>
      rw [ha] at hn
      cases flag with
      | true => simp at hn
      | false =>
        simp only [Bool.false_eq_true, if_false, afterAlloc] at hn ⊢
        have h2 := handOutAll_notNoWork (sp := sp) (work.map fun q => (q.1, q.2, it.t q.1)) { (doOp s1 (.requestCancel cs)).1 with pinfo := p }
        have h3 := handOutAll_idle (sp := sp) (work.map fun q => (q.1, q.2, it.t q.1)) { (doOp s1 (.requestCancel cs)).1 with pinfo := p }
        generalize handOutAll sp _ _ = y at h2 h3 hn
        obtain ⟨s2, e2⟩ := y
        cases e2 with
        | some e => exfalso; simp only [Flow.raised.injEq] at hn; exact h2 (by rw [hn])
        | none =>
          simp only at hn h3 ⊢
          split at hn
          · simp at hn
          · rename_i hc
            rw [if_neg hc]
            simp only [ne_eq, Bool.or_eq_true, decide_eq_true_eq, not_or, Bool.not_eq_true, Decidable.not_not] at hc
            obtain ⟨h4, h5⟩ := h3 trivial hc.2
            refine ⟨s1, cs, work, p, h1, ha, h4, hc.2, hc.1, ?_⟩
            rw [h4]
            simpa using h5

/-- A main loop that ends with "no work". -/
theorem mainLoop_noWork (its : List Iter) {s : St} (hP : ∀ it ∈ its, ∀ s, P s (it.alloc s)) (hr : Reach sp P s0 .loop s)
    (hn : (mainLoop sp its s).2 = .raised .noWork) :
    ∃ it ∈ its, ∃ s1 cs work p, Reach sp P s0 .alloc s1 ∧ it.alloc s1 = .ok cs work false p ∧
      (mainLoop sp its s).1 = { (doOp s1 (.requestCancel cs)).1 with pinfo := p } ∧ anyActive (mainLoop sp its s).1 = false ∧
      termTest sp (mainLoop sp its s).1.hist it.e2 = 0 ∧ (work = [] ∨ simMaxGiven sp (mainLoop sp its s).1.hist = true) := by
  induction its generalizing s with
  | nil => simp [mainLoop] at hn
  | cons it its ih =>
    simp only [mainLoop] at hn ⊢
    by_cases ht : termTest sp s.hist it.e1 = 0
    · rw [if_neg (by simp [ht])] at hn ⊢
      rw [ht] at hn ⊢
      have hi := iter_reach it _ (hP it List.mem_cons_self) (.test it.e1 hr ht)
      have hw := iter_noWork (it := it) (.test it.e1 hr ht)
      generalize iter sp _ it = x at hi hn hw
      obtain ⟨s1, f⟩ := x
      cases f with
      | next =>
        obtain ⟨it', hm, h⟩ := ih (fun it hm => hP it (List.mem_cons_of_mem _ hm)) (hi.1 rfl) hn
        exact ⟨it', List.mem_cons_of_mem _ hm, h⟩
      | flagged => simp at hn
      | raised e =>
        simp only [MainEnd.raised.injEq] at hn
        subst hn
        exact ⟨it, List.mem_cons_self, hw rfl⟩
    · rw [if_pos ht] at hn
      simp at hn

/-! ### Runs with a bundled function -/

/-- The number of the first worker of the table. -/
def Start.first (c : Start) : Nat := if c.sp.gom then 0 else 1

/-- Some worker is not reserved for generators. -/
def Start.SimWorker (c : Start) : Prop := ∃ i, 1 ≤ i ∧ i ≤ c.n ∧ i ∉ c.gens

/-- No row is given twice in the bundled runs. -/
theorem given_nodup {c : Start} {b : Bundled} {env : AllocEnv} (hstd : c.Std)
    (h0 : ∀ lp n, b = .aposmm lp n → c.pinfo.firstCall = false → c.pinfo.nextToGive ≠ none) {p : Ph} {s : St}
    (h : Reach c.sp (b.P env c.sp) c.st p s) (hprot : c.Protected s.tr) : (simGiven s.tr).Nodup := by
  have hd : Distinct p s := by
    cases hb : b.byPriority with
    | true => exact (once_prio hb hstd h hprot).1
    | false => exact (once_ord hb (start_behind h0) h).1
  exact (List.sublist_append_left _ _).nodup hd

/-- With a bundled function, "no work" means that the function gave no work and not that all rows have been given. -/
theorem stalled {c : Start} {b : Bundled} {env : AllocEnv} (hstd : c.Std)
    (h0 : ∀ lp n, b = .aposmm lp n → c.pinfo.firstCall = false → c.pinfo.nextToGive ≠ none)
    {its : List Iter} (hits : ∀ it ∈ its, it.uses b env c.sp) (hprot : c.Protected (c.loop its).1.tr) (hcomp : Complete (c.loop its).1.tr)
    (hn : (c.loop its).2 = .raised .noWork) :
    ∃ now ord s p, (∀ l : List Nat, (ord l).Perm l) ∧ Reach c.sp (b.P env c.sp) c.st (.hand []) (c.loop its).1 ∧
      (c.loop its).1 = { b.marked now s with pinfo := p } ∧ anyActive (c.loop its).1 = false ∧
      b.call (ctxOf env c.sp ord (b.marked now s)) s.pinfo (schedOf env s) = .ok ⟨[], p, false⟩ ∧
      simMaxGiven c.sp (c.loop its).1.hist = false := by
  have hP : ∀ it ∈ its, ∀ s, b.P env c.sp s (it.alloc s) := fun it hm s => uses_P (hits it hm) s
  obtain ⟨it, hm, s, cs, work, p, hr, ha, he, hact, ht, hw⟩ := mainLoop_noWork its (P := b.P env c.sp) (s0 := c.st) hP .init hn
  have hPs := hP it hm s
  rw [ha] at hPs
  have hr2 := Reach.allocOk cs work p it.t hr hPs
  obtain ⟨now, ord, hord, hcs, hcall⟩ := hPs.ok
  have he' : (c.loop its).1 = { (doOp s (.requestCancel cs)).1 with pinfo := p } := he
  have hmax : simMaxGiven c.sp (c.loop its).1.hist = false := by
    refine Bool.eq_false_iff.mpr (fun hg => ?_)
    have hr3 : Reach c.sp (b.P env c.sp) c.st (.hand (work.map fun q => (q.1, q.2, it.t q.1))) (c.loop its).1 := by rw [he']; exact hr2
    have h1 := idle_simMax hr3 rfl hcomp (given_nodup hstd h0 hr3 hprot) hact hg
    have h2 : termTest c.sp (c.loop its).1.hist it.e2 = 0 := ht
    simp only [termTest] at h2
    rw [if_pos h1] at h2
    split at h2 <;> cases h2
  rcases hw with rfl | hw
  · refine ⟨now, ord, s, p, hord, ?_, ?_, hact, hcall, hmax⟩
    · rw [he']; exact hr2
    · rw [he', hcs]; rfl
  · have : simMaxGiven c.sp (c.loop its).1.hist = true := hw
    rw [hmax] at this; simp at this

theorem allIdle_of {s : St} (h : anyActive s = false) : AllIdle s.W := by
  intro k hk
  simp only [anyActive, List.any_eq_false, decide_eq_true_eq] at h
  simpa using h k hk

theorem start_fixed (c : Start) (i : Nat) (h1 : 1 ≤ i) (h2 : i ≤ c.n) :
    (i, decide (i ∈ c.gens) || (c.sp.gom && decide (i = 0)), decide (i ∈ c.zero)) ∈ fixedCols c.st := by
  simp only [fixedCols, Start.st, initSt, initW, List.map_map, List.mem_map]
  refine ⟨i, ?_, rfl⟩
  split
  · simp [List.mem_range]; omega
  · rw [List.mem_range']; exact ⟨i - 1, by omega, by omega⟩

theorem hasSim_of {c : Start} {p : Ph} {s : St} (h : Reach c.sp P c.st p s) (hw : c.SimWorker) : HasSimWorker s.W := by
  obtain ⟨i, h1, h2, h3⟩ := hw
  have := start_fixed c i h1 h2
  rw [← h.micros.fixed] at this
  simp only [fixedCols, List.mem_map, Prod.mk.injEq] at this
  obtain ⟨k, hk, _, hg, _⟩ := this
  refine ⟨k, hk, ?_⟩
  rw [hg]
  have : i ≠ 0 := by omega
  simp [h3, this]

theorem anyIdle_of {c : Start} {s : St} {env : AllocEnv} {ord : List Nat → List Nat} (ha : anyActive s = false) (hw : HasSimWorker s.W) :
    (ctxOf env c.sp ord s).anyIdle = true := by
  obtain ⟨k, hk, _⟩ := hw
  simp only [ctxOf, List.any_eq_true, decide_eq_true_eq]
  exact ⟨k, hk, allIdle_of ha k hk⟩

/-- If no worker is busy and no row waits, all rows are evaluated, but for those cancelled before. -/
theorem idle_allEnded {c : Start} (hstd : c.Std) {p : Ph} {s : St} (h : Reach c.sp P c.st p s) (hp : p.going = true) (hc : Complete s.tr)
    (hprot : c.Protected s.tr) (h0 : ∀ r ∈ c.hist.rows, r.flag .simStarted = true → r.flag .simEnded = true)
    (ha : anyActive s = false) (hw : waiting (trimH s.hist) = []) (q : Row → Bool) : allSimEnded (trimH s.hist) q = true := by
  simp only [allSimEnded, List.all_eq_true]
  intro r hr
  obtain ⟨i, hi, rfl⟩ := List.getElem_of_mem hr
  have hrow : (trimH s.hist)[i]? = some (trimH s.hist)[i] := List.getElem?_eq_getElem hi
  have hrow2 : s.hist.rows[i]? = some (trimH s.hist)[i] := by
    rw [← hrow]; simp only [trimH, List.getElem?_take]
    have : i < s.hist.index := by simp only [trimH, List.length_take] at hi; omega
    rw [if_pos this]
  generalize (trimH s.hist)[i] = r at hrow hrow2
  cases hst : r.flag .simStarted with
  | true =>
    have h1 : flagAt s.hist.rows .simStarted i = true := by simp [flagAt, hrow2, hst]
    have h2 := idle_ended hstd h hp hc hprot h0 ha h1
    simp only [flagAt, hrow2, Option.any_some] at h2
    simp [h2]
  | false =>
    cases hcn : r.flag .cancelRequested with
    | true => simp
    | false =>
      exfalso
      have : i ∈ waiting (trimH s.hist) := by
        simp only [waiting, rowsWhere, List.mem_filter, List.mem_range]
        exact ⟨hi, by simp [hrow, hst, hcn]⟩
      rw [hw] at this; simp at this

end Verif.Manager
