import Verif.Alloc.Props

/-!
# One persistent generator with an initial sample (C54)

`persistent_aposmm_alloc` keeps its state in `persis_info`, which is handed from call to call.  The properties here are about
single answers and about any sequence of calls, with arbitrary worker tables and histories in between.
-/

namespace Verif.Alloc
open Verif.History Verif.Sched

/-- An evaluated row that no generator was told about yet. -/
def Fresh (H : List Row) (i : Nat) : Prop := ∃ r, H[i]? = some r ∧ r.flag .simEnded = true ∧ r.flag .genInformed = false

/-- An order that returns results to the running, idle generator `w`: all rows not returned yet. -/
structure GivesBack (c : Ctx) (w : Nat) (wk : Work) : Prop where
  running : ∃ k ∈ c.W, k.id = w ∧ k.persis = EVAL_GEN ∧ k.active = 0
  rows : ∀ i, i ∈ wk.rows ↔ Fresh c.H i
  some : wk.rows ≠ []
  sorted : wk.rows.Pairwise (· < ·)
  pers : wk.persistent = true

/-- An order that gives one existing, not cancelled row to an idle worker. -/
structure GivesRow (c : Ctx) (w : Nat) (wk : Work) : Prop where
  idle : ∃ k ∈ c.W, k.id = w ∧ k.active = 0 ∧ k.persis = 0
  row : ∃ i r, wk.rows = [i] ∧ c.H[i]? = some r ∧ r.flag .cancelRequested = false

/-- Number of orders of an answer that start a generator. -/
def startCount (c : Ctx) (work : WorkD) : Nat :=
  work.countP fun e => decide (e.2.tag = EVAL_GEN) && c.W.all fun k => decide (k.id = e.1 → k.persis ≠ EVAL_GEN)

/-- Evaluated rows of a history. -/
def endedRows (H : List Row) : Nat := H.countP (·.flag .simEnded)

theorem availIds_gen {W : List Wrk} {g : Option Bool} {l : List Nat} (h : availIds W (some EVAL_GEN) false none g = .ok l)
    {w : Nat} (hw : w ∈ l) : ∃ k ∈ W, k.id = w ∧ k.persis = EVAL_GEN ∧ k.active = 0 := by
  obtain ⟨k, h1, h2, h3, h4⟩ := availIds_idle h hw
  exact ⟨k, h1, h2, h4 _ rfl, h3⟩

theorem apo_parts_start {c : Ctx} {i : Nat} {p : PInfo} {s : Sched} {a : Answer} {rets sims gens : WorkD} {wr wsim wg : List Nat}
    {n n' : Nat} (hW : IdsOk c.W) (hp : ApoParts c i p s a rets sims gens wr wsim wg n n') : startCount c a.work = gens.length := by
  unfold startCount
  rw [hp.perm.countP_eq, List.countP_append, List.countP_append]
  have c1 : rets.countP (fun e => decide (e.2.tag = EVAL_GEN) && c.W.all fun k => decide (k.id = e.1 → k.persis ≠ EVAL_GEN)) = 0 := by
    rw [List.countP_eq_zero]
    intro e he hc
    rw [Bool.and_eq_true, List.all_eq_true] at hc
    obtain ⟨k, k1, k2, k3, _⟩ := availIds_persis hp.retw (hp.retk.subset (List.mem_map.mpr ⟨_, he, rfl⟩))
    exact of_decide_eq_true (hc.2 k k1) k2 k3
  have c2 : (sims.filter (fun x => decide (x.1 ∉ keys gens))).countP (fun e => decide (e.2.tag = EVAL_GEN) && c.W.all fun k => decide (k.id = e.1 → k.persis ≠ EVAL_GEN)) = 0 := by
    rw [List.countP_eq_zero]
    intro e he hc
    rw [Bool.and_eq_true] at hc
    have := of_decide_eq_true hc.1
    rw [(hp.sim.shape _ (List.mem_filter.mp he).1).tag] at this
    exact absurd this (by decide)
  have c3 : gens.countP (fun e => decide (e.2.tag = EVAL_GEN) && c.W.all fun k => decide (k.id = e.1 → k.persis ≠ EVAL_GEN)) = gens.length := by
    rw [List.countP_eq_length]
    intro e he
    rw [Bool.and_eq_true, List.all_eq_true]
    refine ⟨decide_eq_true (hp.gen e he).tag, ?_⟩
    intro k hk
    apply decide_eq_true
    intro hid
    obtain ⟨k', k1, k2, k3, k4⟩ := availIds_idle hp.genw (hp.genk.subset (List.mem_map.mpr ⟨_, he, rfl⟩))
    have := same_wrk hW hk k1 (hid.trans k2.symm)
    subst this
    rw [k4 0 rfl]; decide
  rw [c1, c2, c3]; omega

/-- Every order of an answer. -/
theorem apo_parts_order {c : Ctx} {i : Nat} {p : PInfo} {s : Sched} {a : Answer} {rets sims gens : WorkD} {wr wsim wg : List Nat}
    {n n' : Nat} (hp : ApoParts c i p s a rets sims gens wr wsim wg n n') (w : Nat) (wk : Work)
    (hm : (w, wk) ∈ a.work) :
    (wk.tag = EVAL_SIM ∧ (w, wk) ∈ sims ∧ GivesRow c w wk) ∨
    (wk.tag = EVAL_GEN ∧ ((w, wk) ∈ rets ∧ GivesBack c w wk ∨ (w, wk) ∈ gens ∧ Starts c w wk)) := by
  rw [hp.perm.mem_iff, List.mem_append, List.mem_append] at hm
  rcases hm with (hm | hm) | hm
  · right
    obtain ⟨hsh, hne, _⟩ := hp.ret _ hm
    refine ⟨hsh.tag, Or.inl ⟨hm, availIds_gen hp.retw (hp.retk.subset (List.mem_map.mpr ⟨_, hm, rfl⟩)), ?_, hne, ?_, hsh.pers⟩⟩
    · intro i
      rw [hsh.rows, mem_rowsWhere]
      unfold Fresh
      constructor
      · rintro ⟨r, h1, h2⟩
        simp only [Bool.and_eq_true, Bool.not_eq_true'] at h2
        exact ⟨r, h1, h2⟩
      · rintro ⟨r, h1, h2⟩; exact ⟨r, h1, by simp [h2]⟩
    · rw [hsh.rows]; exact rowsWhere_sorted _ _
  · left
    have hm' := (List.mem_filter.mp hm).1
    refine ⟨(hp.sim.shape _ hm').tag, hm', ?_⟩
    obtain ⟨k, k1, k2, k3, k4⟩ := availIds_idle hp.simw (hp.sim.keys.subset (List.mem_map.mpr ⟨_, hm', rfl⟩))
    obtain ⟨_, _, f3, f4, _⟩ := hp.sim.inorder.facts
    have hr : wk.rows ∈ rowsOf sims := List.mem_map.mpr ⟨_, hm', rfl⟩
    obtain ⟨m, hm2⟩ := f3 _ hr
    have hlt := hp.exist _ hr m (by rw [hm2]; exact List.mem_singleton.mpr rfl)
    have hnc := (f4 m (List.mem_flatten.mpr ⟨_, hr, by rw [hm2]; exact List.mem_singleton.mpr rfl⟩)).2.2
    refine ⟨⟨k, k1, k2, k3, k4 0 rfl⟩, m, c.H[m], hm2, List.getElem?_eq_getElem hlt, ?_⟩
    rw [Bool.eq_false_iff]
    intro hc
    exact hnc ⟨c.H[m], List.getElem?_eq_getElem hlt, hc⟩
  · right
    obtain ⟨k, k1, k2, k3, k4⟩ := availIds_idle hp.genw (hp.genk.subset (List.mem_map.mpr ⟨_, hm, rfl⟩))
    exact ⟨(hp.gen _ hm).tag, Or.inr ⟨hm, ⟨k, k1, k2, k3, k4 0 rfl⟩, (hp.gen _ hm).rows, (hp.gen _ hm).pers⟩⟩

/-- When the function asks for shutdown. -/
theorem apo_flag {c : Ctx} (hW : IdsOk c.W) {lp : Field} {initSample : Nat} {p : PInfo}
    (hn : p.firstCall = false → p.nextToGive ≠ none) {s : Sched} {a : Answer} (h : aposmmAlloc c lp initSample p s = .ok a) :
    a.flag = true ↔ c.simMaxGiven = false ∧ c.anyIdle = true ∧ p.firstCall = false ∧ ∀ k ∈ c.W, k.persis ≠ EVAL_GEN := by
  have hc : countPersisGens c.W = 0 ↔ ∀ k ∈ c.W, k.persis ≠ EVAL_GEN := by
    unfold countPersisGens
    rw [List.countP_eq_zero]
    simp
  rw [← hc]
  by_cases hg : (c.simMaxGiven || !c.anyIdle) = true
  · have : a = ⟨[], p, false⟩ := by
      unfold aposmmAlloc at h
      rw [if_pos hg] at h
      injection h with h; exact h.symm
    rw [this]
    constructor
    · intro h; cases h
    · rintro ⟨h1, h2, _⟩; simp [h1, h2] at hg
  · have hg' : c.simMaxGiven = false ∧ c.anyIdle = true := by
      revert hg; cases c.simMaxGiven <;> cases c.anyIdle <;> simp
    by_cases hl : p.firstCall = false ∧ countPersisGens c.W = 0
    · have : a = ⟨[], p, true⟩ := by
        unfold aposmmAlloc at h
        rw [if_neg hg, if_neg (by simp [hl.1]), if_pos hl.2] at h
        injection h with h; exact h.symm
      rw [this]
      exact ⟨fun _ => ⟨hg'.1, hg'.2, hl⟩, fun _ => rfl⟩
    · constructor
      · intro hf
        rcases apo_spec hW hn h with ⟨h1, _⟩ | ⟨h1, h2⟩ | ⟨_, _, _, _, _, _, _, _, _, _, _, _, _, hp⟩
        · rw [h1] at hf; cases hf
        · exact absurd h2 hl
        · rw [hp.flag] at hf; cases hf
      · rintro ⟨_, _, h3⟩; exact absurd h3 hl

/-! ## One answer -/

/-- Every order of an answer gives out one existing row that is not cancelled, returns all fresh results to the running
generator (once the sample is complete), or starts the generator with the whole history on an idle worker; at most one start and none when the
generator was started before; shutdown is asked for exactly when, after the first call, no generator runs. -/
theorem C54_answer (c : Ctx) (hW : (c.W.map (·.id)).Nodup) (lp : Field) (initSample : Nat) (p : PInfo)
    (hn : p.firstCall = false → p.nextToGive ≠ none) (s : Sched) (a : Answer) (h : aposmmAlloc c lp initSample p s = .ok a) :
    (∀ w wk, (w, wk) ∈ a.work →
      wk.tag = EVAL_SIM ∧ GivesRow c w wk ∨
      wk.tag = EVAL_GEN ∧ (GivesBack c w wk ∧ (p.sampleDone = true ∨ endedRows c.H ≥ initSample +
          (if p.firstCall = true then c.H.countP (fun r => !r.flag lp) else p.samplesInH0)) ∨ Starts c w wk)) ∧
    (c.simMaxGiven = false → (p.sampleDone = true ∨ endedRows c.H ≥ initSample +
        (if p.firstCall = true then c.H.countP (fun r => !r.flag lp) else p.samplesInH0)) → (∃ i, Fresh c.H i) →
      ∀ k ∈ c.W, k.persis = EVAL_GEN → k.active = 0 → c.anyIdle = true → ∃ wk, (k.id, wk) ∈ a.work ∧ GivesBack c k.id wk) ∧
    startCount c a.work ≤ 1 ∧ (p.genStarted = true → startCount c a.work = 0) ∧
    (a.flag = true ↔ c.simMaxGiven = false ∧ c.anyIdle = true ∧ p.firstCall = false ∧ ∀ k ∈ c.W, k.persis ≠ EVAL_GEN) := by
  have hfl := apo_flag hW hn h
  rcases apo_spec hW hn h with ⟨h1, hg⟩ | ⟨h1, _, hg⟩ | ⟨p1, rets, sims, gens, wr, wsim, wg, n, n', h1, h2, h3, h4, hp⟩
  · rw [h1] at hfl ⊢
    refine ⟨by simp, ?_, by simp [startCount], by simp [startCount], hfl⟩
    intro hsm _ _ k _ _ _ hid
    rcases hg with hg | hg
    · rw [hsm] at hg; cases hg
    · rw [hid] at hg; cases hg
  · rw [h1] at hfl ⊢
    refine ⟨by simp, ?_, by simp [startCount], by simp [startCount], hfl⟩
    intro _ _ _ k hk hp _ _
    unfold countPersisGens at hg
    rw [List.countP_eq_zero] at hg
    exact absurd (decide_eq_true hp) (hg k hk)
  · have hgs : p1.genStarted = p.genStarted := by
      cases hf : p.firstCall with
      | true => exact (h4 hf).2.1
      | false => rw [h3 hf]
    have hcond : (p.sampleDone = true ∨ endedRows c.H ≥ initSample +
        (if p.firstCall = true then c.H.countP (fun r => !r.flag lp) else p.samplesInH0)) ↔
        (p1.sampleDone = true ∨ c.H.countP (·.flag .simEnded) ≥ initSample + p1.samplesInH0) := by
      cases hf : p.firstCall with
      | true =>
        obtain ⟨_, _, e1, e2, _⟩ := h4 hf
        rw [e1, e2]
        simp [endedRows]
      | false => rw [h3 hf]; simp [endedRows]
    refine ⟨?_, ?_, ?_, ?_, hfl⟩
    · intro w wk hm
      rcases apo_parts_order hp w wk hm with ⟨t, _, g⟩ | ⟨t, ⟨hm, g⟩ | ⟨_, g⟩⟩
      · exact Or.inl ⟨t, g⟩
      · refine Or.inr ⟨t, Or.inl ⟨g, ?_⟩⟩
        exact hcond.mpr (hp.ret _ hm).2.2
      · exact Or.inr ⟨t, Or.inr g⟩
    · intro _ hs ⟨i, r, r1, r2, r3⟩ k hk hkp hka _
      have hne : (rowsWhere c.H fun r => r.flag .simEnded && !r.flag .genInformed) ≠ [] :=
        List.ne_nil_of_mem (mem_rowsWhere.mpr ⟨r, r1, by simp [r2, r3]⟩)
      have hwr : k.id ∈ wr := by
        have h0 := hp.retw
        unfold availIds at h0
        simp at h0
        rw [← h0]
        exact List.mem_map.mpr ⟨k, List.mem_filter.mpr ⟨hk, by simp [hkp, hka]⟩, rfl⟩
      rw [← hp.retall (hcond.mp hs) hne] at hwr
      obtain ⟨⟨w, wk⟩, hm, e⟩ := List.mem_map.mp hwr
      simp only at e
      subst e
      have hma : (k.id, wk) ∈ a.work := hp.perm.mem_iff.mpr (List.mem_append_left _ (List.mem_append_left _ hm))
      refine ⟨wk, hma, ?_⟩
      rcases apo_parts_order hp _ _ hma with ⟨t, _⟩ | ⟨_, ⟨_, g⟩ | ⟨_, g⟩⟩
      · rw [(hp.ret _ hm).1.tag] at t; exact absurd t (by decide)
      · exact g
      · obtain ⟨k', q1, q2, _, q4⟩ := g.idle
        have := same_wrk hW q1 hk q2
        subst this
        rw [hkp] at q4; exact absurd q4 (by decide)
    · rw [apo_parts_start hW hp]; exact hp.genone
    · intro hg
      rw [apo_parts_start hW hp, List.length_eq_zero_iff]
      cases gens with
      | nil => rfl
      | cons e es =>
        have := (hp.genfirst (List.cons_ne_nil _ _)).1
        rw [hgs, hg] at this; cases this

/-! ## Any sequence of calls -/

/-- Successive calls: `persis_info` is handed on, worker table, history and scheduler are arbitrary in every call.  Contexts
and answers, call by call; an exception ends the sequence. -/
def apoRun (lp : Field) (initSample : Nat) : PInfo → List (Ctx × Sched) → List (Ctx × Answer)
  | _, [] => []
  | p, (c, s) :: cs =>
    match aposmmAlloc c lp initSample p s with
    | .error _ => []
    | .ok a => (c, a) :: apoRun lp initSample a.pinfo cs

/-- The generator orders of an answer that go to a running generator. -/
def BackIn (x : Ctx × Answer) : Prop := ∃ w wk, (w, wk) ∈ x.2.work ∧ wk.tag = EVAL_GEN ∧ ∃ k ∈ x.1.W, k.id = w ∧ k.persis = EVAL_GEN

/-- Row `i` is given out in the call `x`. -/
def GivenIn (x : Ctx × Answer) (i : Nat) : Prop := ∃ w wk, (w, wk) ∈ x.2.work ∧ wk.tag = EVAL_SIM ∧ i ∈ wk.rows

/-- The call is not turned away at once (no idle worker, or `sim_max` given out). -/
def works (x : Ctx × Answer) : Bool := !x.1.simMaxGiven && x.1.anyIdle

theorem apoRun_ids {lp : Field} {i : Nat} : ∀ {cs : List (Ctx × Sched)} {p : PInfo}, (∀ x ∈ cs, IdsOk x.1.W) →
    ∀ x ∈ apoRun lp i p cs, IdsOk x.1.W := by
  intro cs
  induction cs with
  | nil => intro p _ x hx; cases hx
  | cons y cs ih =>
    intro p h x hx
    obtain ⟨c, s⟩ := y
    unfold apoRun at hx
    split at hx
    · cases hx
    · rcases List.mem_cons.mp hx with e | hx
      · subst e; exact h (c, s) List.mem_cons_self
      · exact ih (fun y hy => h y (List.mem_cons_of_mem _ hy)) x hx

/-- What one call does to `persis_info`. -/
theorem apo_pinfo {c : Ctx} (hW : IdsOk c.W) {lp : Field} {i : Nat} {p : PInfo} (hn : p.firstCall = false → p.nextToGive ≠ none)
    {s : Sched} {a : Answer} (h : aposmmAlloc c lp i p s = .ok a) :
    (a.pinfo.firstCall = false → a.pinfo.nextToGive ≠ none) ∧
    (p.genStarted = true → a.pinfo.genStarted = true) ∧ (startCount c a.work ≠ 0 → a.pinfo.genStarted = true) := by
  rcases apo_spec hW hn h with ⟨h1, _⟩ | ⟨h1, _⟩ | ⟨p1, rets, sims, gens, wr, wsim, wg, n, n', h1, h2, h3, h4, hp⟩
  · rw [h1]; exact ⟨hn, id, by simp [startCount]⟩
  · rw [h1]; exact ⟨hn, id, by simp [startCount]⟩
  · have hgs : p1.genStarted = p.genStarted := by
      cases hf : p.firstCall with
      | true => exact (h4 hf).2.1
      | false => rw [h3 hf]
    refine ⟨fun _ => by rw [hp.next]; simp, fun hg => hp.genkeep (hgs.trans hg), ?_⟩
    rw [apo_parts_start hW hp]
    intro hl
    exact (hp.genfirst (by intro e; subst e; exact hl rfl)).2

theorem apo_starts (lp : Field) (i : Nat) : ∀ (cs : List (Ctx × Sched)) (p : PInfo), (∀ x ∈ cs, IdsOk x.1.W) →
    (p.firstCall = false → p.nextToGive ≠ none) →
    ((apoRun lp i p cs).map fun x => startCount x.1 x.2.work).sum ≤ if p.genStarted = true then 0 else 1 := by
  intro cs
  induction cs with
  | nil => intro p _ _; simp [apoRun]
  | cons x cs ih =>
    intro p hW hn
    obtain ⟨c, s⟩ := x
    unfold apoRun
    cases h : aposmmAlloc c lp i p s with
    | error e => simp
    | ok a =>
      have hc := hW (c, s) List.mem_cons_self
      obtain ⟨_, _, q1, q2, _⟩ := C54_answer c hc lp i p hn s a h
      obtain ⟨r1, r2, r3⟩ := apo_pinfo hc hn h
      have := ih a.pinfo (fun x hx => hW x (List.mem_cons_of_mem _ hx)) r1
      simp only [List.map_cons, List.sum_cons]
      by_cases hg : p.genStarted = true
      · rw [if_pos (r2 hg)] at this
        rw [if_pos hg, q2 hg]; omega
      · rw [if_neg hg]
        by_cases h0 : startCount c a.work = 0
        · split at this <;> omega
        · rw [if_pos (r3 h0)] at this; omega

/-- Over any sequence of calls at most one generator is started. -/
theorem C54_one_generator (lp : Field) (initSample : Nat) (cs : List (Ctx × Sched)) (hW : ∀ x ∈ cs, (x.1.W.map (·.id)).Nodup) :
    ((apoRun lp initSample {} cs).map fun x => startCount x.1 x.2.work).sum ≤ 1 :=
  apo_starts lp initSample cs {} hW (by intro h; cases h)

theorem apo_sample {c : Ctx} (hW : IdsOk c.W) {lp : Field} {i : Nat} {p : PInfo} (hn : p.firstCall = false → p.nextToGive ≠ none)
    {s : Sched} {a : Answer} (h : aposmmAlloc c lp i p s = .ok a) :
    (p.firstCall = false → (BackIn (c, a) → p.sampleDone = true ∨ endedRows c.H ≥ i + p.samplesInH0) ∧
      a.pinfo.firstCall = false ∧ a.pinfo.samplesInH0 = p.samplesInH0 ∧
      (a.pinfo.sampleDone = true → p.sampleDone = true ∨ endedRows c.H ≥ i + p.samplesInH0)) ∧
    (p.firstCall = true → works (c, a) = true →
      (BackIn (c, a) → p.sampleDone = true ∨ endedRows c.H ≥ i + c.H.countP (fun r => !r.flag lp)) ∧
      a.pinfo.firstCall = false ∧ a.pinfo.samplesInH0 = c.H.countP (fun r => !r.flag lp) ∧
      (a.pinfo.sampleDone = true → p.sampleDone = true ∨ endedRows c.H ≥ i + c.H.countP (fun r => !r.flag lp))) ∧
    (works (c, a) = false → a.work = [] ∧ a.pinfo = p) := by
  have hnb : ∀ p' f, ¬ BackIn (c, (⟨[], p', f⟩ : Answer)) := by
    rintro p' f ⟨w, wk, hm, _⟩; cases hm
  have hidle : works (c, a) = false → a.work = [] ∧ a.pinfo = p := by
    intro hw
    unfold aposmmAlloc at h
    rw [if_pos (by revert hw; unfold works; cases c.simMaxGiven <;> cases c.anyIdle <;> simp)] at h
    cases h; exact ⟨rfl, rfl⟩
  rcases apo_spec hW hn h with ⟨h1, hg⟩ | ⟨h1, hf, _⟩ | ⟨p1, rets, sims, gens, wr, wsim, wg, n, n', h1, h2, h3, h4, hp⟩
  · subst h1
    refine ⟨fun hf => ⟨fun hb => absurd hb (hnb _ _), hf, rfl, Or.inl⟩, fun _ hw => ?_, hidle⟩
    unfold works at hw
    rcases hg with hg | hg <;> simp [hg] at hw
  · subst h1
    refine ⟨fun hf => ⟨fun hb => absurd hb (hnb _ _), hf, rfl, Or.inl⟩, fun hf2 => ?_, hidle⟩
    rw [hf] at hf2; cases hf2
  · have hb : BackIn (c, a) → p1.sampleDone = true ∨ endedRows c.H ≥ i + p1.samplesInH0 := by
      rintro ⟨w, wk, hm, ht, k, k1, k2, k3⟩
      rcases apo_parts_order hp w wk hm with ⟨t, _⟩ | ⟨_, ⟨hm, _⟩ | ⟨_, g⟩⟩
      · rw [ht] at t; exact absurd t (by decide)
      · exact (hp.ret _ hm).2.2
      · obtain ⟨k', q1, q2, _, q4⟩ := g.idle
        have := same_wrk hW q1 k1 (q2.trans k2.symm)
        subst this
        rw [k3] at q4; exact absurd q4 (by decide)
    refine ⟨fun hf => ?_, fun hf _ => ?_, hidle⟩
    · rw [h3 hf] at hb hp
      exact ⟨hb, hp.first.trans hf, hp.inH0, hp.sample⟩
    · obtain ⟨_, _, e1, e2, _⟩ := h4 hf
      rw [e1, e2] at hb
      refine ⟨hb, hp.first.trans h2, hp.inH0.trans e2, ?_⟩
      have := hp.sample
      rw [e1, e2] at this
      exact this

theorem apo_after (lp : Field) (i : Nat) : ∀ (cs : List (Ctx × Sched)) (p : PInfo), (∀ x ∈ cs, IdsOk x.1.W) →
    p.firstCall = false → p.nextToGive ≠ none → ∀ pre x post, apoRun lp i p cs = pre ++ x :: post → BackIn x →
    p.sampleDone = true ∨ ∃ y ∈ pre ++ [x], endedRows y.1.H ≥ i + p.samplesInH0 := by
  intro cs
  induction cs with
  | nil => intro p _ _ _ pre x post h; simp [apoRun] at h
  | cons z cs ih =>
    intro p hW hf hn pre x post h hb
    obtain ⟨c, s⟩ := z
    unfold apoRun at h
    cases hh : aposmmAlloc c lp i p s with
    | error e => rw [hh] at h; simp at h
    | ok a =>
      rw [hh] at h
      simp only at h
      have hc := hW (c, s) List.mem_cons_self
      obtain ⟨q1, q2, q3, q4⟩ := (apo_sample hc (fun _ => hn) hh).1 hf
      cases pre with
      | nil =>
        obtain ⟨e, _⟩ := List.cons.inj h
        subst e
        rcases q1 hb with h1 | h1
        · exact Or.inl h1
        · exact Or.inr ⟨_, List.mem_cons_self, h1⟩
      | cons y pre =>
        obtain ⟨e, ht⟩ := List.cons.inj h
        subst e
        rcases ih a.pinfo (fun x hx => hW x (List.mem_cons_of_mem _ hx)) q2 ((apo_pinfo hc (fun _ => hn) hh).1 q2) pre x post ht hb with h1 | ⟨y, hy, h1⟩
        · rcases q4 h1 with h1 | h1
          · exact Or.inl h1
          · exact Or.inr ⟨(c, a), List.mem_cons_self, h1⟩
        · exact Or.inr ⟨y, List.mem_cons_of_mem _ hy, by rw [← q3]; exact h1⟩

theorem apo_after_first (lp : Field) (i : Nat) : ∀ (cs : List (Ctx × Sched)) (p : PInfo), (∀ x ∈ cs, IdsOk x.1.W) →
    p.firstCall = true → p.sampleDone = false → ∀ pre x post, apoRun lp i p cs = pre ++ x :: post → BackIn x →
    ∃ f ∈ (apoRun lp i p cs).find? works, ∃ y ∈ pre ++ [x], endedRows y.1.H ≥ i + f.1.H.countP (fun r => !r.flag lp) := by
  intro cs
  induction cs with
  | nil => intro p _ _ _ pre x post h; simp [apoRun] at h
  | cons z cs ih =>
    intro p hW hf hs pre x post h hb
    obtain ⟨c, s⟩ := z
    cases hh : aposmmAlloc c lp i p s with
    | error e => unfold apoRun at h; rw [hh] at h; simp at h
    | ok a =>
      have hrun : apoRun lp i p ((c, s) :: cs) = (c, a) :: apoRun lp i a.pinfo cs := by
        rw [apoRun]; rw [hh]
      rw [hrun] at h ⊢
      have hc := hW (c, s) List.mem_cons_self
      have hn : p.firstCall = false → p.nextToGive ≠ none := by intro h2; rw [hf] at h2; cases h2
      obtain ⟨_, q, r⟩ := apo_sample hc hn hh
      cases hw : works (c, a) with
      | false =>
        obtain ⟨r1, r2⟩ := r hw
        rw [List.find?_cons, hw, r2]
        rw [r2] at h
        cases pre with
        | nil =>
          obtain ⟨e, _⟩ := List.cons.inj h
          subst e
          obtain ⟨w, wk, hm, _⟩ := hb
          simp only at hm
          rw [r1] at hm; cases hm
        | cons y pre =>
          obtain ⟨e, ht⟩ := List.cons.inj h
          obtain ⟨f, hf1, y', hy, h1⟩ := ih p (fun x hx => hW x (List.mem_cons_of_mem _ hx)) hf hs pre x post ht hb
          exact ⟨f, hf1, y', List.mem_cons_of_mem _ hy, h1⟩
      | true =>
        obtain ⟨q1, q2, q3, q4⟩ := q hf hw
        rw [List.find?_cons, hw]
        refine ⟨(c, a), rfl, ?_⟩
        cases pre with
        | nil =>
          obtain ⟨e, _⟩ := List.cons.inj h
          subst e
          rcases q1 hb with h1 | h1
          · rw [hs] at h1; cases h1
          · exact ⟨_, List.mem_cons_self, h1⟩
        | cons y pre =>
          obtain ⟨e, ht⟩ := List.cons.inj h
          subst e
          rcases apo_after lp i cs a.pinfo (fun x hx => hW x (List.mem_cons_of_mem _ hx)) q2 ((apo_pinfo hc hn hh).1 q2) pre x post ht hb with h1 | ⟨y, hy, h1⟩
          · rcases q4 h1 with h1 | h1
            · rw [hs] at h1; cases h1
            · exact ⟨(c, a), List.mem_cons_self, h1⟩
          · exact ⟨y, List.mem_cons_of_mem _ hy, by rw [← q3]; exact h1⟩

/-- Results go back to the generator only after a call that saw `initial_sample_size` evaluated rows more than the points of
the initial history (its rows without `local_pt`, counted in the first call that is not turned away). -/
theorem C54_after_sample (lp : Field) (initSample : Nat) (cs : List (Ctx × Sched)) (hW : ∀ x ∈ cs, (x.1.W.map (·.id)).Nodup)
    (pre : List (Ctx × Answer)) (x : Ctx × Answer) (post : List (Ctx × Answer))
    (h : apoRun lp initSample {} cs = pre ++ x :: post)
    (hb : ∃ w wk, (w, wk) ∈ x.2.work ∧ wk.tag = EVAL_GEN ∧ ∃ k ∈ x.1.W, k.id = w ∧ k.persis = EVAL_GEN) :
    ∃ f ∈ (apoRun lp initSample {} cs).find? works, ∃ y ∈ pre ++ [x],
      endedRows y.1.H ≥ initSample + f.1.H.countP (fun r => !r.flag lp) :=
  apo_after_first lp initSample cs {} hW rfl rfl pre x post h hb

theorem flat_unique {sims : WorkD} (h : (rowsOf sims).flatten.Pairwise (· < ·)) {e e' : Nat × Work} {j : Nat}
    (he : e ∈ sims) (he' : e' ∈ sims) (hj : j ∈ e.2.rows) (hj' : j ∈ e'.2.rows) : e = e' := by
  induction sims with
  | nil => cases he
  | cons x xs ih =>
    rw [show (rowsOf (x :: xs)).flatten = x.2.rows ++ (rowsOf xs).flatten from rfl, List.pairwise_append] at h
    have hin : ∀ y ∈ xs, j ∈ y.2.rows → j ∈ (rowsOf xs).flatten := fun y hy hjy =>
      List.mem_flatten.mpr ⟨_, List.mem_map.mpr ⟨y, hy, rfl⟩, hjy⟩
    rcases List.mem_cons.mp he with e1 | he1 <;> rcases List.mem_cons.mp he' with e2 | he2
    · rw [e1, e2]
    · subst e1; exact absurd (h.2.2 j hj j (hin _ he2 hj')) (Nat.lt_irrefl j)
    · subst e2; exact absurd (h.2.2 j hj' j (hin _ he1 hj)) (Nat.lt_irrefl j)
    · exact ih h.2.1 he1 he2

theorem apo_rows {c : Ctx} (hW : IdsOk c.W) {lp : Field} {i : Nat} {p : PInfo} (hn : p.firstCall = false → p.nextToGive ≠ none)
    {s : Sched} {a : Answer} (h : aposmmAlloc c lp i p s = .ok a) :
    ∃ n n' : Nat, (p.firstCall = false → p.nextToGive = some n) ∧ (p.firstCall = true → works (c, a) = true → n = c.H.length) ∧
      (a.pinfo.firstCall = false → a.pinfo.nextToGive = some n') ∧ n ≤ n' ∧
      (∀ j, GivenIn (c, a) j → n ≤ j ∧ j < n') ∧
      (∀ w wk, (w, wk) ∈ a.work → wk.tag = EVAL_SIM → ∃ j, wk.rows = [j]) ∧
      (∀ w wk w' wk' j, (w, wk) ∈ a.work → (w', wk') ∈ a.work → wk.tag = EVAL_SIM → wk'.tag = EVAL_SIM → j ∈ wk.rows → j ∈ wk'.rows → w = w') ∧
      (startCount c a.work = 0 → ∀ j, n ≤ j → j < n' → GivenIn (c, a) j ∨ ∃ r, c.H[j]? = some r ∧ r.flag .cancelRequested = true) ∧
      (p.firstCall = true → n' = n ∨ works (c, a) = false) := by
  have triv : ∀ f, a = ⟨[], p, f⟩ → (p.firstCall = true → works (c, a) = false) → ∃ n n' : Nat, (p.firstCall = false → p.nextToGive = some n) ∧ (p.firstCall = true → works (c, a) = true → n = c.H.length) ∧
      (a.pinfo.firstCall = false → a.pinfo.nextToGive = some n') ∧ n ≤ n' ∧
      (∀ j, GivenIn (c, a) j → n ≤ j ∧ j < n') ∧
      (∀ w wk, (w, wk) ∈ a.work → wk.tag = EVAL_SIM → ∃ j, wk.rows = [j]) ∧
      (∀ w wk w' wk' j, (w, wk) ∈ a.work → (w', wk') ∈ a.work → wk.tag = EVAL_SIM → wk'.tag = EVAL_SIM → j ∈ wk.rows → j ∈ wk'.rows → w = w') ∧
      (startCount c a.work = 0 → ∀ j, n ≤ j → j < n' → GivenIn (c, a) j ∨ ∃ r, c.H[j]? = some r ∧ r.flag .cancelRequested = true) ∧
      (p.firstCall = true → n' = n ∨ works (c, a) = false) := by
    intro f e hw
    subst e
    refine ⟨p.nextToGive.getD 0, p.nextToGive.getD 0, ?_, ?_, ?_, Nat.le_refl _, ?_, by simp, by simp, ?_, fun _ => Or.inl rfl⟩
    · intro hf
      cases hx : p.nextToGive with
      | none => exact absurd hx (hn hf)
      | some n => rfl
    · intro hf h2; rw [hw hf] at h2; cases h2
    · intro hf
      simp only at hf
      cases hx : p.nextToGive with
      | none => exact absurd hx (hn hf)
      | some n => rfl
    · rintro j ⟨w, wk, hm, _⟩; cases hm
    · intro _ j h1 h2; omega
  rcases apo_spec hW hn h with ⟨h1, hg⟩ | ⟨h1, hf, _⟩ | ⟨p1, rets, sims, gens, wr, wsim, wg, n, n', h1, h2, h3, h4, hp⟩
  · refine triv false h1 (fun _ => ?_)
    unfold works
    rcases hg with hg | hg <;> simp [hg]
  · exact triv true h1 (fun hf2 => by rw [hf] at hf2; cases hf2)
  · obtain ⟨f1, f2, f3, f4, f5⟩ := hp.sim.inorder.facts
    have hsim : ∀ w wk, (w, wk) ∈ a.work → wk.tag = EVAL_SIM → (w, wk) ∈ sims := by
      intro w wk hm ht
      rcases apo_parts_order hp w wk hm with ⟨_, g, _⟩ | ⟨t, _⟩
      · exact g
      · rw [t] at ht; exact absurd ht (by decide)
    have hflat : ∀ {w wk j}, (w, wk) ∈ sims → j ∈ wk.rows → j ∈ (rowsOf sims).flatten := by
      intro w wk j hm hj
      exact List.mem_flatten.mpr ⟨wk.rows, List.mem_map.mpr ⟨_, hm, rfl⟩, hj⟩
    refine ⟨n, n', ?_, ?_, fun _ => hp.next, f1, ?_, ?_, ?_, ?_, ?_⟩
    · intro hf; rw [← h3 hf]; exact h1
    · intro hf _; exact (h4 hf).1
    · rintro j ⟨w, wk, hm, ht, hj⟩
      have := f4 j (hflat (hsim w wk hm ht) hj)
      exact ⟨this.1, this.2.1⟩
    · intro w wk hm ht
      exact f3 _ (List.mem_map.mpr ⟨_, hsim w wk hm ht, rfl⟩)
    · intro w wk w' wk' j hm hm' ht ht' hj hj'
      have g := hsim w wk hm ht
      have g' := hsim w' wk' hm' ht'
      exact congrArg Prod.fst (flat_unique f2 g g' hj hj')
    · intro h0 j hj1 hj2
      rw [apo_parts_start hW hp, List.length_eq_zero_iff] at h0
      subst h0
      by_cases hj : j ∈ (rowsOf sims).flatten
      · left
        obtain ⟨ids, hids, hji⟩ := List.mem_flatten.mp hj
        obtain ⟨⟨w, wk⟩, hm, e⟩ := List.mem_map.mp hids
        simp only at e
        subst e
        refine ⟨w, wk, ?_, (hp.sim.shape _ hm).tag, hji⟩
        show (w, wk) ∈ a.work
        rw [hp.perm.mem_iff]
        exact List.mem_append_left _ (List.mem_append_right _ (List.mem_filter.mpr ⟨hm, by simp [keys]⟩))
      · exact Or.inr (f5 j hj1 hj2 hj)
    · intro hf
      left
      obtain ⟨hl, _⟩ := h4 hf
      rcases Nat.lt_or_ge n n' with hlt | hge
      · exfalso
        by_cases hj : n ∈ (rowsOf sims).flatten
        · obtain ⟨ids, hids, hji⟩ := List.mem_flatten.mp hj
          have := hp.exist ids hids n hji
          omega
        · obtain ⟨r, hr, _⟩ := f5 n (Nat.le_refl n) hlt hj
          rw [List.getElem?_eq_some_iff] at hr
          obtain ⟨hr, _⟩ := hr
          omega
      · omega

theorem apo_seq (lp : Field) (i : Nat) : ∀ (cs : List (Ctx × Sched)) (p : PInfo) (n : Nat), (∀ x ∈ cs, IdsOk x.1.W) →
    p.firstCall = false → p.nextToGive = some n →
    (∀ x ∈ apoRun lp i p cs, ∀ j, GivenIn x j → n ≤ j) ∧
    (apoRun lp i p cs).Pairwise (fun x y => ∀ j j', GivenIn x j → GivenIn y j' → j < j') := by
  intro cs
  induction cs with
  | nil => intro p n _ _ _; exact ⟨by simp [apoRun], by simp [apoRun]⟩
  | cons z cs ih =>
    intro p n hW hf hn
    obtain ⟨c, s⟩ := z
    unfold apoRun
    cases hh : aposmmAlloc c lp i p s with
    | error e => exact ⟨by simp, List.Pairwise.nil⟩
    | ok a =>
      have hc := hW (c, s) List.mem_cons_self
      have hn' : p.firstCall = false → p.nextToGive ≠ none := by intro _; rw [hn]; simp
      obtain ⟨m, m', q1, _, q3, q4, q5, _⟩ := apo_rows hc hn' hh
      have hm : m = n := by have := q1 hf; rw [hn] at this; exact (Option.some.inj this).symm
      subst hm
      have hf' := ((apo_sample hc hn' hh).1 hf).2.1
      obtain ⟨i1, i2⟩ := ih a.pinfo m' (fun x hx => hW x (List.mem_cons_of_mem _ hx)) hf' (q3 hf')
      simp only
      refine ⟨?_, List.pairwise_cons.mpr ⟨?_, i2⟩⟩
      · intro x hx j hj
        rcases List.mem_cons.mp hx with e | hx
        · subst e; exact (q5 j hj).1
        · have := i1 x hx j hj; omega
      · intro y hy j j' hj hj'
        have := (q5 j hj).2
        have := i1 y hy j' hj'
        omega

theorem apo_seq_first (lp : Field) (i : Nat) : ∀ (cs : List (Ctx × Sched)) (p : PInfo), (∀ x ∈ cs, IdsOk x.1.W) →
    p.firstCall = true →
    (∀ f ∈ (apoRun lp i p cs).find? works, ∀ x ∈ apoRun lp i p cs, ∀ j, GivenIn x j → f.1.H.length ≤ j) ∧
    (apoRun lp i p cs).Pairwise (fun x y => ∀ j j', GivenIn x j → GivenIn y j' → j < j') := by
  intro cs
  induction cs with
  | nil => intro p _ _; exact ⟨by simp [apoRun], by simp [apoRun]⟩
  | cons z cs ih =>
    intro p hW hf
    obtain ⟨c, s⟩ := z
    unfold apoRun
    cases hh : aposmmAlloc c lp i p s with
    | error e => exact ⟨by simp, List.Pairwise.nil⟩
    | ok a =>
      have hc := hW (c, s) List.mem_cons_self
      have hn' : p.firstCall = false → p.nextToGive ≠ none := by intro h2; rw [hf] at h2; cases h2
      obtain ⟨m, m', _, q2, q3, _, q5, _, _, _, q9⟩ := apo_rows hc hn' hh
      obtain ⟨_, b2, b3⟩ := apo_sample hc hn' hh
      simp only
      have hnone : ∀ j, ¬ GivenIn (c, a) j := by
        intro j hj
        cases hw : works (c, a) with
        | false =>
          obtain ⟨w, wk, hm, _⟩ := hj
          simp only at hm
          rw [(b3 hw).1] at hm; cases hm
        | true =>
          have := q5 j hj
          rcases q9 hf with h | h
          · omega
          · rw [hw] at h; cases h
      have htl := fun x (hx : x ∈ cs) => hW x (List.mem_cons_of_mem _ hx)
      cases hw : works (c, a) with
      | false =>
        rw [List.find?_cons, hw, (b3 hw).2]
        obtain ⟨i1, i2⟩ := ih p htl hf
        refine ⟨?_, List.pairwise_cons.mpr ⟨fun y _ j j' hj => absurd hj (hnone j), i2⟩⟩
        intro f hfi x hx j hj
        rcases List.mem_cons.mp hx with e | hx
        · subst e; exact absurd hj (hnone j)
        · exact i1 f hfi x hx j hj
      | true =>
        rw [List.find?_cons, hw]
        have hf' := (b2 hf hw).2.1
        obtain ⟨i1, i2⟩ := apo_seq lp i cs a.pinfo m' htl hf' (q3 hf')
        refine ⟨?_, List.pairwise_cons.mpr ⟨fun y _ j j' hj => absurd hj (hnone j), i2⟩⟩
        intro f hfi x hx j hj
        cases hfi
        rcases List.mem_cons.mp hx with e | hx
        · subst e; exact absurd hj (hnone j)
        · have h1 := i1 x hx j hj
          rcases q9 hf with h | h
          · rw [h, q2 hf hw] at h1; exact h1
          · rw [hw] at h; cases h

/-- Over any sequence of calls the rows go out in the order of their numbers, one per order, none twice and none of the
initial history. -/
theorem C54_in_order (lp : Field) (initSample : Nat) (cs : List (Ctx × Sched)) (hW : ∀ x ∈ cs, (x.1.W.map (·.id)).Nodup) :
    (apoRun lp initSample {} cs).Pairwise (fun x y => ∀ j j', GivenIn x j → GivenIn y j' → j < j') ∧
    (∀ x ∈ apoRun lp initSample {} cs, ∀ w wk w' wk', (w, wk) ∈ x.2.work → (w', wk') ∈ x.2.work → wk.tag = EVAL_SIM →
      wk'.tag = EVAL_SIM → (∃ j, wk.rows = [j]) ∧ ∀ j, j ∈ wk.rows → j ∈ wk'.rows → w = w') ∧
    (∀ f ∈ (apoRun lp initSample {} cs).find? works, ∀ x ∈ apoRun lp initSample {} cs, ∀ j, GivenIn x j → f.1.H.length ≤ j) := by
  have hf := apo_seq_first lp initSample cs {} hW rfl
  refine ⟨hf.2, ?_, hf.1⟩
  have gen : ∀ (cs : List (Ctx × Sched)) (p : PInfo), (∀ x ∈ cs, IdsOk x.1.W) → (p.firstCall = false → p.nextToGive ≠ none) →
      ∀ x ∈ apoRun lp initSample p cs, ∀ w wk w' wk', (w, wk) ∈ x.2.work → (w', wk') ∈ x.2.work → wk.tag = EVAL_SIM →
      wk'.tag = EVAL_SIM → (∃ j, wk.rows = [j]) ∧ ∀ j, j ∈ wk.rows → j ∈ wk'.rows → w = w' := by
    intro cs
    induction cs with
    | nil => intro p _ _ x hx; cases hx
    | cons z cs ih =>
      intro p hW hn x hx
      obtain ⟨c, s⟩ := z
      unfold apoRun at hx
      cases hh : aposmmAlloc c lp initSample p s with
      | error e => rw [hh] at hx; cases hx
      | ok a =>
        rw [hh] at hx
        have hc := hW (c, s) List.mem_cons_self
        rcases List.mem_cons.mp hx with e | hx
        · subst e
          obtain ⟨_, _, _, _, _, _, _, q6, q7, _⟩ := apo_rows hc hn hh
          intro w wk w' wk' h1 h2 t1 t2
          exact ⟨q6 w wk h1 t1, fun j j1 j2 => q7 w wk w' wk' j h1 h2 t1 t2 j1 j2⟩
        · exact ih a.pinfo (fun x hx => hW x (List.mem_cons_of_mem _ hx)) (apo_pinfo hc hn hh).1 x hx
  exact gen cs {} hW (by intro h; cases h)

theorem apo_skip (lp : Field) (i : Nat) : ∀ (cs : List (Ctx × Sched)) (p : PInfo) (n : Nat), (∀ x ∈ cs, IdsOk x.1.W) →
    p.firstCall = false → p.nextToGive = some n →
    (∀ pre x post, apoRun lp i p cs = pre ++ x :: post → (∃ k ∈ x.1.W, k.persis = EVAL_GEN) →
      p.genStarted = true ∨ ∃ y ∈ pre, startCount y.1 y.2.work ≠ 0) →
    ∀ pre x post, apoRun lp i p cs = pre ++ x :: post → ∀ j, GivenIn x j → ∀ j', n ≤ j' → j' < j →
      ∃ y ∈ pre ++ [x], GivenIn y j' ∨ ∃ r, y.1.H[j']? = some r ∧ r.flag .cancelRequested = true := by
  intro cs
  induction cs with
  | nil => intro p n _ _ _ _ pre x post h; simp [apoRun] at h
  | cons z cs ih =>
    intro p n hW hf hn ht pre x post h j hj j' hj1 hj2
    obtain ⟨c, s⟩ := z
    cases hh : aposmmAlloc c lp i p s with
    | error e => unfold apoRun at h; rw [hh] at h; simp at h
    | ok a =>
      have hrun : apoRun lp i p ((c, s) :: cs) = (c, a) :: apoRun lp i a.pinfo cs := by
        rw [apoRun]; rw [hh]
      rw [hrun] at h ht
      have hc := hW (c, s) List.mem_cons_self
      have hn' : p.firstCall = false → p.nextToGive ≠ none := by intro _; rw [hn]; simp
      obtain ⟨m, m', q1, _, q3, q4, q5, _, _, q8, _⟩ := apo_rows hc hn' hh
      have hm : m = n := by have := q1 hf; rw [hn] at this; exact (Option.some.inj this).symm
      subst hm
      have hf' := ((apo_sample hc hn' hh).1 hf).2.1
      have hno : startCount c a.work = 0 := by
        by_cases hg : ∃ k ∈ c.W, k.persis = EVAL_GEN
        · rcases ht [] (c, a) _ rfl hg with h1 | ⟨y, hy, _⟩
          · exact (C54_answer c hc lp i p hn' s a hh).2.2.2.1 h1
          · cases hy
        · have hk : countPersisGens c.W = 0 := by
            unfold countPersisGens
            rw [List.countP_eq_zero]
            intro k hk hd
            exact hg ⟨k, hk, of_decide_eq_true hd⟩
          have : a.work = [] := by
            unfold aposmmAlloc at hh
            split at hh
            · cases hh; rfl
            · rw [if_neg (by simp [hf])] at hh
              cases hh; rfl
          rw [this]; rfl
      cases pre with
      | nil =>
        obtain ⟨e, _⟩ := List.cons.inj h
        subst e
        have := (q5 j hj).2
        exact ⟨_, List.mem_cons_self, q8 hno j' hj1 (by omega)⟩
      | cons y pre =>
        obtain ⟨e, h2⟩ := List.cons.inj h
        subst e
        rcases Nat.lt_or_ge j' m' with hlt | hge
        · exact ⟨_, List.mem_cons_self, q8 hno j' hj1 hlt⟩
        · obtain ⟨y, hy, g⟩ := ih a.pinfo m' (fun x hx => hW x (List.mem_cons_of_mem _ hx)) hf' (q3 hf') (by
            intro pre x post hp hg
            rcases ht ((c, a) :: pre) x post (by rw [hp]; rfl) hg with h1 | ⟨y, hy, h1⟩
            · exact Or.inl ((apo_pinfo hc hn' hh).2.1 h1)
            · rcases List.mem_cons.mp hy with e | hy
              · subst e; exact absurd hno h1
              · exact Or.inr ⟨y, hy, h1⟩) pre x post h2 j hj j' hge hj2
          exact ⟨y, List.mem_cons_of_mem _ hy, g⟩

theorem apo_skip_first (lp : Field) (i : Nat) : ∀ (cs : List (Ctx × Sched)) (p : PInfo), (∀ x ∈ cs, IdsOk x.1.W) →
    p.firstCall = true →
    (∀ pre x post, apoRun lp i p cs = pre ++ x :: post → (∃ k ∈ x.1.W, k.persis = EVAL_GEN) →
      ∃ y ∈ pre, startCount y.1 y.2.work ≠ 0) →
    ∀ f ∈ (apoRun lp i p cs).find? works,
    ∀ pre x post, apoRun lp i p cs = pre ++ x :: post → ∀ j, GivenIn x j → ∀ j', f.1.H.length ≤ j' → j' < j →
      ∃ y ∈ pre ++ [x], GivenIn y j' ∨ ∃ r, y.1.H[j']? = some r ∧ r.flag .cancelRequested = true := by
  intro cs
  induction cs with
  | nil => intro p _ _ _ f _ pre x post h; simp [apoRun] at h
  | cons z cs ih =>
    intro p hW hf ht f hfi pre x post h j hj j' hj1 hj2
    obtain ⟨c, s⟩ := z
    cases hh : aposmmAlloc c lp i p s with
    | error e => unfold apoRun at h; rw [hh] at h; simp at h
    | ok a =>
      have hrun : apoRun lp i p ((c, s) :: cs) = (c, a) :: apoRun lp i a.pinfo cs := by
        rw [apoRun]; rw [hh]
      rw [hrun] at h ht hfi
      have hc := hW (c, s) List.mem_cons_self
      have hn' : p.firstCall = false → p.nextToGive ≠ none := by intro h2; rw [hf] at h2; cases h2
      obtain ⟨m, m', _, q2, q3, _, q5, _, _, _, q9⟩ := apo_rows hc hn' hh
      obtain ⟨_, b2, b3⟩ := apo_sample hc hn' hh
      have htl := fun x (hx : x ∈ cs) => hW x (List.mem_cons_of_mem _ hx)
      cases hw : works (c, a) with
      | false =>
        obtain ⟨b4, b5⟩ := b3 hw
        rw [List.find?_cons, hw, b5] at hfi
        rw [b5] at h ht
        have h0 : startCount c a.work = 0 := by rw [b4]; rfl
        cases pre with
        | nil =>
          obtain ⟨e, _⟩ := List.cons.inj h
          subst e
          obtain ⟨w, wk, hm, _⟩ := hj
          simp only at hm
          rw [b4] at hm; cases hm
        | cons y pre =>
          obtain ⟨e, h2⟩ := List.cons.inj h
          subst e
          obtain ⟨y, hy, g⟩ := ih p htl hf (by
            intro pre x post hp hg
            obtain ⟨y, hy, h1⟩ := ht ((c, a) :: pre) x post (by rw [hp]; rfl) hg
            rcases List.mem_cons.mp hy with e | hy
            · subst e; exact absurd h0 h1
            · exact ⟨y, hy, h1⟩) f hfi pre x post h2 j hj j' hj1 hj2
          exact ⟨y, List.mem_cons_of_mem _ hy, g⟩
      | true =>
        rw [List.find?_cons, hw] at hfi
        cases hfi
        have hf' := (b2 hf hw).2.1
        have hmm : m' = c.H.length := by
          rcases q9 hf with h | h
          · rw [h, q2 hf hw]
          · rw [hw] at h; cases h
        cases pre with
        | nil =>
          obtain ⟨e, _⟩ := List.cons.inj h
          subst e
          have h3 : c.H.length ≤ j' := hj1
          have h4 := (q5 j hj).2
          rw [hmm] at h4
          have h5 : j < c.H.length := h4
          omega
        | cons y pre =>
          obtain ⟨e, h2⟩ := List.cons.inj h
          subst e
          obtain ⟨y, hy, g⟩ := apo_skip lp i cs a.pinfo m' htl hf' (q3 hf') (by
            intro pre x post hp hg
            obtain ⟨y, hy, h1⟩ := ht ((c, a) :: pre) x post (by rw [hp]; rfl) hg
            rcases List.mem_cons.mp hy with e | hy
            · subst e; exact Or.inl ((apo_pinfo hc hn' hh).2.2 h1)
            · exact Or.inr ⟨y, hy, h1⟩) pre x post h2 j hj j' (by rw [hmm]; exact hj1) hj2
          exact ⟨y, List.mem_cons_of_mem _ hy, g⟩

/-- No row is left out: when a row is given out, every earlier row (after the initial history) was given out in this call or before, or was cancelled.
The worker table shows a running generator only after this function started one. -/
theorem C54_none_skipped (lp : Field) (initSample : Nat) (cs : List (Ctx × Sched)) (hW : ∀ x ∈ cs, (x.1.W.map (·.id)).Nodup)
    (ht : ∀ pre x post, apoRun lp initSample {} cs = pre ++ x :: post → (∃ k ∈ x.1.W, k.persis = EVAL_GEN) →
      ∃ y ∈ pre, startCount y.1 y.2.work ≠ 0)
    (f : Ctx × Answer) (hf : f ∈ (apoRun lp initSample {} cs).find? works)
    (pre : List (Ctx × Answer)) (x : Ctx × Answer) (post : List (Ctx × Answer)) (h : apoRun lp initSample {} cs = pre ++ x :: post)
    (j : Nat) (hj : GivenIn x j) (j' : Nat) (h1 : f.1.H.length ≤ j') (h2 : j' < j) :
    ∃ y ∈ pre ++ [x], GivenIn y j' ∨ ∃ r, y.1.H[j']? = some r ∧ r.flag .cancelRequested = true :=
  apo_skip_first lp initSample cs {} hW rfl ht f hf pre x post h j hj j' h1 h2

/-! ## A run -/

/-- Four calls with two workers and an initial sample of two: the generator starts on worker 1, its two rows go out one
after the other, then both come back to it. -/
def apoDemo : List (Ctx × Sched) :=
  let c : Ctx := { exCtx with manage := false, genIn := [.user 0], persisIn := [.user 0], H := [], W := [{ id := 1 }, { id := 2 }] }
  let c1 := { c with W := [{ id := 1, active := 2, persis := 2 }, { id := 2 }], H := [mkRow [], mkRow []] }
  let c2 := { c1 with W := [{ id := 1, persis := 2 }, { id := 2 }], H := [mkRow [(.simStarted, .s 1), (.simEnded, .s 1)], mkRow []] }
  let c3 := { c2 with H := [mkRow [(.simStarted, .s 1), (.simEnded, .s 1)], mkRow [(.simStarted, .s 1), (.simEnded, .s 1)]] }
  [(c, noSched), (c1, noSched), (c2, noSched), (c3, noSched), ({ c3 with W := [{ id := 1 }, { id := 2 }] }, noSched)]

example : ((apoRun (.user 5) 2 {} apoDemo).map fun x => (x.2.work.map fun e => (e.1, e.2.tag, e.2.rows), x.2.flag)) =
    [([(1, 2, [])], false), ([(2, 1, [0])], false), ([(2, 1, [1])], false), ([(1, 2, [0, 1])], false), ([], true)] := by
  decide +kernel
example : ((apoRun (.user 5) 2 {} apoDemo).map fun x => startCount x.1 x.2.work) = [1, 0, 0, 0, 0] := by decide +kernel
/-- The hypothesis of `C54_none_skipped` in this run. -/
example : ∀ n < 5, ((apoRun (.user 5) 2 {} apoDemo)[n]?).any (fun x => x.1.W.any fun k => decide (k.persis = EVAL_GEN)) = true →
    ((apoRun (.user 5) 2 {} apoDemo).take n).any (fun y => decide (startCount y.1 y.2.work ≠ 0)) = true := by decide +kernel

end Verif.Alloc
