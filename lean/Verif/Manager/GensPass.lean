import Verif.Manager.GensRun
import Verif.Manager.Given
/-
Runs with `only_persistent_gens`: what holds when an order is sent.
-/
namespace Verif.Manager
open Verif.History Verif.Res Verif.Sched Verif.Alloc

/-! ### What the orders are -/

/-- Number of workers that run a persistent generator after the events `tr`. -/
def runningGens (c : Start) (tr : List Ev) : Nat := c.workers.countP fun w => decide ((view w tr).persis = EVAL_GEN)

/-- The order returns results to the running generator of worker `w`; `pre`: what has happened before. -/
structure ReturnsNow (c : Start) (o : UserOpts) (pre : List Ev) (w : Nat) (wk : Work) : Prop where
  running : (view w pre).persis = EVAL_GEN
  nonempty : wk.rows ≠ []
  sorted : wk.rows.Pairwise (· < ·)
  own : ∀ i ∈ wk.rows, ∃ r, (trimH (histAt c.hist pre))[i]? = some r ∧ r.flag .simEnded = true ∧ r .genWorker = .s w
  all : ∀ i, Owed (trimH (histAt c.hist pre)) w i → i ∈ wk.rows
  batch : ¬(o.asyncReturn = true ∧ o.initSample ≤ (trimH (histAt c.hist pre)).countP (·.flag .simEnded)) →
    ∀ r ∈ trimH (histAt c.hist pre), r .genWorker = .s w →
      r.flag .simEnded = true ∨ (r.flag .cancelRequested = true ∧ r.flag .simStarted = false)

/-- The order starts a generator on the idle worker `w`; fewer than `num_active_gens` generators run. -/
structure StartsNow (c : Start) (o : UserOpts) (pre : List Ev) (w : Nat) (wk : Work) : Prop where
  idle : (view w pre).busy = false ∧ (view w pre).persis = 0
  rows : wk.rows = List.range (trimH (histAt c.hist pre)).length
  room : runningGens c pre < o.numActiveGens.getD 1

/-! ### From the table to the messages -/

variable {c : Start} {o : UserOpts} {env : AllocEnv}

theorem runningGens_table {s : St} (hv : VI c.sp s) (hi : ids s = c.workers) : runningGens c s.tr = gensIn s.W := by
  simp only [runningGens, gensIn, ← hi, ids, List.countP_map]
  refine List.countP_congr (fun x hx => ?_)
  obtain ⟨k, hk, hx⟩ := List.mem_iff_getElem.mp hx
  have hg : s.W[k]? = some x := by rw [List.getElem?_eq_getElem hk, hx]
  have hid : x.id = idAt c.sp k := by
    have h1 : (ids s)[k]? = ((List.range s.W.length).map (idAt c.sp))[k]? := by rw [hv.tab]
    simp only [ids, List.getElem?_map, hg, Option.map_some, List.getElem?_range hk, Option.some.injEq] at h1
    exact h1
  have := (hv.agree k x hg).persis
  simp only [Function.comp_apply, hid, this]

theorem trim_get {h : Hist} {i : Nat} {r : Row} : (trimH h)[i]? = some r ↔ i < h.index ∧ h.rows[i]? = some r := by
  simp only [trimH, List.getElem?_take]
  by_cases hi : i < h.index <;> simp [hi]

theorem Handed.row {sp : Specs} {sA s : St} {done : List (Nat × Work)} (h : Handed sp sA s done) {i : Nat} {r : Row} (hr : (trimH sA.hist)[i]? = some r) :
    ∃ r', (trimH s.hist)[i]? = some r' ∧ ∀ f, f ∉ giveFields → r' f = r f := by
  obtain ⟨h1, h2⟩ := trim_get.mp hr
  have hl : i < s.hist.rows.length := by
    rw [h.len]; exact (List.getElem?_eq_some_iff.mp h2).1
  refine ⟨_, trim_get.mpr ⟨by rw [h.index]; exact h1, List.getElem?_eq_getElem hl⟩, fun f hf => ?_⟩
  have := h.cells f hf i
  simpa [cell, h2, List.getElem?_eq_getElem hl] using this

theorem Handed.row' {sp : Specs} {sA s : St} {done : List (Nat × Work)} (h : Handed sp sA s done) {i : Nat} {r : Row} (hr : (trimH s.hist)[i]? = some r) :
    ∃ r', (trimH sA.hist)[i]? = some r' ∧ (∀ f, f ∉ giveFields → r f = r' f) ∧ (i ∉ workRows done → r .simStarted = r' .simStarted) ∧
      (r .genInformed = r' .genInformed ∨ r .genInformed = .s 1) := by
  obtain ⟨h1, h2⟩ := trim_get.mp hr
  have hl : i < sA.hist.rows.length := by
    rw [← h.len]; exact (List.getElem?_eq_some_iff.mp h2).1
  refine ⟨_, trim_get.mpr ⟨by rw [← h.index]; exact h1, List.getElem?_eq_getElem hl⟩, fun f hf => ?_, fun hi => ?_, ?_⟩
  · have := h.cells f hf i
    simpa [cell, h2, List.getElem?_eq_getElem hl] using this
  · have := h.started i hi
    simpa [cell, h2, List.getElem?_eq_getElem hl] using this
  · have := h.informed i
    simpa [cell, h2, List.getElem?_eq_getElem hl] using this

theorem Handed.ended {sp : Specs} {sA s : St} {done : List (Nat × Work)} (h : Handed sp sA s done) :
    (trimH s.hist).countP (·.flag .simEnded) = (trimH sA.hist).countP (·.flag .simEnded) := by
  have hm : (trimH s.hist).map (·.flag .simEnded) = (trimH sA.hist).map (·.flag .simEnded) := by
    refine List.ext_getElem? (fun i => ?_)
    simp only [List.getElem?_map]
    cases hi : (trimH sA.hist)[i]? with
    | some r =>
      obtain ⟨r', h1, h2⟩ := h.row hi
      rw [h1]
      simp only [Option.map_some, Row.flag, h2 .simEnded (by decide)]
    | none =>
      cases hi' : (trimH s.hist)[i]? with
      | none => rfl
      | some r =>
        obtain ⟨r', h1, _⟩ := h.row' hi'
        rw [hi] at h1; simp at h1
  have hc : ∀ l : List Row, l.countP (·.flag .simEnded) = (l.map (·.flag .simEnded)).countP id := by
    intro l; rw [List.countP_map]; rfl
  rw [hc, hc, hm]

/-- Entry of the table for a worker that has no order yet in this pass. -/
theorem Pass.entry {s : St} {rest : List (Nat × Work × Int)} {sA : St} {ord : List Nat → List Nat} {p0 : PInfo} {a : Answer}
    {done : List (Nat × Work)} (hP : Pass c env o s rest sA ord p0 a done) (hv : VI c.sp s) {x : Wrk} (hx : x ∈ sA.W)
    (hn : x.id ∉ done.map (·.1)) : ∃ b, Agree x (view x.id s.tr) b := by
  obtain ⟨k, hk, hx⟩ := List.mem_iff_getElem.mp hx
  have hg : sA.W[k]? = some x := by rw [List.getElem?_eq_getElem hk, hx]
  have hid : x.id = idAt c.sp k := by
    have h1 : (Manager.ids sA)[k]? = ((List.range sA.W.length).map (idAt c.sp))[k]? := by rw [hP.vi.tab]
    simp only [Manager.ids, List.getElem?_map, hg, Option.map_some, List.getElem?_range hk, Option.some.injEq] at h1
    exact h1
  rw [hid] at hn
  have := hv.agree k x (hP.handed.W k x hg hn)
  rw [hid]
  exact ⟨_, this⟩

/-- What holds when an order of a pass is sent. -/
theorem Pass.order {s : St} {w : Nat} {wk : Work} {t : Int} {rest : List (Nat × Work × Int)} {sA : St} {ord : List Nat → List Nat}
    {p0 : PInfo} {a : Answer} {done : List (Nat × Work)} (hP : Pass c env o s ((w, wk, t) :: rest) sA ord p0 a done) (hv : VI c.sp s)
    (hi : Manager.ids s = c.workers) (hh : s.hist = histAt c.hist s.tr) :
    w ∈ c.workers ∧ genStarts s.tr ≤ runningGens c s.tr ∧
      (wk.tag = EVAL_SIM ∨ (wk.tag = EVAL_GEN ∧ wk.persistent = true ∧ (ReturnsNow c o s.tr w wk ∨ StartsNow c o s.tr w wk))) := by
  have hmem : (w, wk) ∈ a.work := by rw [hP.work]; exact List.mem_append_right _ List.mem_cons_self
  have hkeys := hP.facts.keys
  rw [hP.work, List.map_append, List.nodup_append] at hkeys
  have hnew : w ∉ done.map (·.1) := fun h => hkeys.2.2 w h w List.mem_cons_self rfl
  have hrun : p0.numGensStarted ≤ gensIn sA.W := hP.facts.run (fun h => by rw [h] at hmem; simp at hmem)
  have hcnt := hP.handed.count
  have hst := hP.handed.starts
  have hs0 := hP.starts
  have hH : (ctxOf env c.sp ord sA).H = trimH sA.hist := rfl
  have hW : (ctxOf env c.sp ord sA).W = sA.W := rfl
  have hI : IdsOk sA.W := by simp only [IdsOk]; exact ids_nodup hP.vi.tab
  refine ⟨?_, by rw [runningGens_table hv hi]; omega, ?_⟩
  · rw [← hi, hP.ids]
    rcases hP.facts.orders w wk hmem with ⟨_, k, hk, rfl, _⟩ | ⟨_, _, h3 | h3⟩
    · exact List.mem_map_of_mem hk
    · obtain ⟨k, hk, rfl, _⟩ := h3.running
      exact List.mem_map_of_mem hk
    · obtain ⟨k, hk, rfl, _⟩ := h3.idle
      exact List.mem_map_of_mem hk
  · rcases hP.facts.orders w wk hmem with ⟨h1, _⟩ | ⟨h1, h2, h3 | h3⟩
    · exact .inl h1
    · refine .inr ⟨h1, h2, .inl ?_⟩
      obtain ⟨x, hx, rfl, hxp⟩ := h3.running
      obtain ⟨b, hA⟩ := hP.entry hv hx hnew
      refine ⟨by rw [hA.persis]; exact hxp, h3.some, h3.sorted, ?_, ?_, ?_⟩
      · intro i hi
        obtain ⟨r, r1, r2, _, r4⟩ := (h3.rows i).mp hi
        obtain ⟨r', q1, q2⟩ := hP.handed.row r1
        rw [← hh]
        exact ⟨r', q1, by simp only [Row.flag, q2 .simEnded (by decide)] at r2 ⊢; exact r2, by rw [q2 .genWorker (by decide)]; exact r4⟩
      · rintro i ⟨r, r1, r2, r3, r4⟩
        rw [← hh] at r1
        obtain ⟨r', q1, q2, _, q4⟩ := hP.handed.row' r1
        refine (h3.rows i).mpr ⟨r', q1, ?_, ?_, ?_⟩
        · simp only [Row.flag, q2 .simEnded (by decide)] at r2 ⊢; exact r2
        · rcases q4 with q4 | q4
          · simp only [Row.flag, q4] at r3 ⊢; exact r3
          · simp [Row.flag, q4] at r3
        · rw [← q2 .genWorker (by decide)]; exact r4
      · rw [← hh, hP.handed.ended]
        intro hb r hr hrw
        obtain ⟨i, hi, hr⟩ := List.mem_iff_getElem.mp hr
        have hr : (trimH s.hist)[i]? = some r := by rw [List.getElem?_eq_getElem hi, hr]
        obtain ⟨r', q1, q2, q3, _⟩ := hP.handed.row' hr
        have hr' : r' ∈ trimH sA.hist := by
          obtain ⟨hl, he⟩ := List.getElem?_eq_some_iff.mp q1
          rw [← he]; exact List.getElem_mem hl
        rcases h3.batch hb r' hr' (by rw [← q2 .genWorker (by decide)]; exact hrw) with h | ⟨h, h'⟩
        · left; simp only [Row.flag, q2 .simEnded (by decide)] at h ⊢; exact h
        · right
          have hn : i ∉ workRows done := by
            intro hbad
            have : i ∈ workRows a.work := by
              rw [hP.work]; simp only [workRows, List.flatMap_append, List.mem_append] at hbad ⊢; exact .inl hbad
            obtain ⟨r'', w1, _, w3⟩ := mem_waiting.mp (hP.facts.sims i this)
            rw [hH, q1] at w1
            injection w1 with w1
            subst w1
            rw [h] at w3; simp at w3
          refine ⟨?_, ?_⟩
          · simp only [Row.flag, q2 .cancelRequested (by decide)] at h ⊢; exact h
          · simp only [Row.flag, q3 hn] at h' ⊢; exact h'
    · refine .inr ⟨h1, h2, .inr ?_⟩
      obtain ⟨x, hx, rfl, hxa, hxp⟩ := h3.idle
      obtain ⟨b, hA⟩ := hP.entry hv hx hnew
      refine ⟨⟨by rw [hA.busy]; simp [hxa], by rw [hA.persis]; exact hxp⟩, ?_, ?_⟩
      · rw [h3.rows, ← hh, hH]
        simp only [trimH, List.length_take, hP.handed.index, hP.handed.len]
      · have hthis : isStart sA.W (x.id, wk) = true := by
          simp only [isStart, h1, decide_true, Bool.true_and, List.all_eq_true, decide_eq_true_eq]
          intro y hy hyx
          have : y = x := same_wrk hI hy hx hyx
          rw [this, hxp]; decide
        have htot : a.work.countP (isStart sA.W) = done.countP (isStart sA.W) + (1 + (pairs rest).countP (isStart sA.W)) := by
          rw [hP.work, List.countP_append]
          congr 1
          show ((x.id, wk) :: pairs rest).countP _ = _
          rw [List.countP_cons, if_pos hthis]; omega
        have hm : gensIn sA.W + a.work.countP (isStart sA.W) ≤ o.numActiveGens.getD 1 := hP.facts.max (by rw [hW, htot]; omega)
        rw [runningGens_table hv hi]
        omega

/-- What holds whenever `only_persistent_gens` has an order sent. -/
theorem gens_orders {p : Ph} {s : St} (h : Reach c.sp ((Bundled.persGens o).P env c.sp) c.st p s) :
    Always (onOrder fun pre to key wk => hasFinal pre = false → to = key ∧ to ∈ c.workers ∧ genStarts pre ≤ runningGens c pre ∧
      (wk.tag = EVAL_SIM ∨ (wk.tag = EVAL_GEN ∧ wk.persistent = true ∧ (ReturnsNow c o pre to wk ∨ StartsNow c o pre to wk)))) s.tr := by
  refine h.orders (by rw [start_tr]; exact .nil) (by rw [start_tr]; rfl) (fun pre to key wk hf h => by rw [hf] at h; simp at h) ?_
  intro s w wk t rest k wk' l0 hr _ _ hk hwk hl0 _
  obtain ⟨sA, ord, p0, a, done, hP⟩ := (gensInv hr).pass _ rfl
  have hv : VI c.sp s := (hr.vi start_vi (by rw [start_tr]; rfl) start_pending rfl).1
  have hi : ids s = c.workers := by rw [hr.micros.ids, start_ids]
  have hh := start_histAt hr
  obtain ⟨q1, q2, q3⟩ := hP.order hv hi hh
  have hkw : idAt c.sp k = w := wPos_ids hv.tab (by rw [hi]; exact q1) hk
  have hview : ∀ w, view w (l0 ++ s.tr) = view w s.tr := by
    intro w
    refine view_neutral _ _ _ (fun e he => ?_)
    rcases hl0 with rfl | ⟨team, rfl⟩
    · simp at he
    · simp only [List.mem_singleton] at he; rw [he]; rfl
  have hhist : histAt c.hist (l0 ++ s.tr) = histAt c.hist s.tr := histAt_skips _ _ (by
    intro e he o
    rcases hl0 with rfl | ⟨team, rfl⟩
    · simp at he
    · simp only [List.mem_singleton] at he; rw [he]; simp)
  have hgs : genStarts (l0 ++ s.tr) = genStarts s.tr := genStarts_skip _ (fun e he => by
    rcases hl0 with rfl | ⟨team, rfl⟩
    · simp at he
    · simp only [List.mem_singleton] at he; rw [he]; rfl)
  have hrg : runningGens c (l0 ++ s.tr) = runningGens c s.tr := by simp only [runningGens, hview]
  have ht : wk'.tag = wk.tag := by rw [hwk]
  have hr' : wk'.rows = wk.rows := by rw [hwk]
  have hp' : wk'.persistent = wk.persistent := by rw [hwk]
  rw [hkw, hgs, hrg, ht, hp']
  refine ⟨rfl, q1, q2, ?_⟩
  rcases q3 with q3 | ⟨q3, q4, q5 | q5⟩
  · exact .inl q3
  · refine .inr ⟨q3, q4, .inl ⟨?_, ?_, ?_, ?_, ?_, ?_⟩⟩
    · rw [hview]; exact q5.running
    · rw [hr']; exact q5.nonempty
    · rw [hr']; exact q5.sorted
    · rw [hr', hhist]; exact q5.own
    · rw [hr', hhist]; exact q5.all
    · rw [hhist]; exact q5.batch
  · refine .inr ⟨q3, q4, .inr ⟨?_, ?_, ?_⟩⟩
    · rw [hview]; exact q5.idle
    · rw [hr', hhist]; exact q5.rows
    · rw [hrg]; exact q5.room

/-! ### A generator has finished -/

/-- Messages marked as coming from a persistent generator come from workers that run one. -/
def GenHonest (tr : List Ev) : Prop := ∀ post w d pre, tr = post ++ .recv w (.data d) :: pre →
  d.persistent = true → d.calcType = EVAL_GEN → d.isFinished = false → (view w pre).persis = EVAL_GEN

theorem countP_le_other {l : List Nat} (p q : Nat → Bool) (h : ∀ x ∈ l, q x = true → p x = true) : l.countP q ≤ l.countP p :=
  List.countP_mono_left h

theorem countP_le_one {l : List Nat} (hl : l.Nodup) (p q : Nat → Bool) (w : Nat) (h : ∀ x, x ≠ w → q x = p x) : l.countP q ≤ l.countP p + 1 := by
  induction l with
  | nil => simp
  | cons a l ih =>
    rw [List.nodup_cons] at hl
    rw [List.countP_cons, List.countP_cons]
    by_cases ha : a = w
    · have : l.countP q = l.countP p := List.countP_congr (fun x hx => by rw [h x (fun hxw => hl.1 (by rw [ha, ← hxw]; exact hx))])
      rw [this]
      split <;> split <;> omega
    · have := ih hl.2
      rw [h a ha]
      split <;> omega

theorem workers_nodup : c.workers.Nodup := by
  simp only [Start.workers]
  split
  · exact List.nodup_range
  · exact List.nodup_range'

/-- No event makes more generators run than it starts. -/
theorem lag_step (e : Ev) (tr : List Ev) (hg : ∀ w d, e = .recv w (.data d) → d.persistent = true → d.calcType = EVAL_GEN →
    d.isFinished = false → (view w tr).persis = EVAL_GEN) :
    runningGens c (e :: tr) + genStarts tr ≤ runningGens c tr + genStarts (e :: tr) := by
  have same : (∀ w, (view w (e :: tr)).persis = EVAL_GEN → (view w tr).persis = EVAL_GEN) →
      runningGens c (e :: tr) + genStarts tr ≤ runningGens c tr + genStarts (e :: tr) := by
    intro h
    have h1 : runningGens c (e :: tr) ≤ runningGens c tr := countP_le_other _ _ (fun x _ hx => by
      simp only [decide_eq_true_eq] at hx ⊢; exact h x hx)
    have h2 : genStarts tr ≤ genStarts (e :: tr) := by simp only [genStarts]; omega
    omega
  cases e with
  | order to key wk =>
    by_cases hs : wk.tag = EVAL_GEN ∧ (view to tr).persis ≠ EVAL_GEN
    · have h1 : runningGens c (.order to key wk :: tr) ≤ runningGens c tr + 1 := by
        refine countP_le_one workers_nodup _ _ to (fun x hx => ?_)
        simp only [view, View.step, if_neg (Ne.symm hx)]
      have h2 : genStarts (.order to key wk :: tr) = 1 + genStarts tr := by simp only [genStarts, if_pos hs]
      omega
    · refine same (fun w hw => ?_)
      simp only [view, View.step] at hw
      by_cases hto : to = w
      · subst hto
        rw [if_pos rfl] at hw
        split at hw
        · exact hw
        · simp only at hw
          split at hw
          · exact Decidable.byContradiction (fun hn => hs ⟨hw, hn⟩)
          · exact hw
      · rw [if_neg hto] at hw; exact hw
  | recv w' m =>
    refine same (fun w hw => ?_)
    simp only [view, View.step] at hw
    by_cases hto : w' = w
    · subst hto
      rw [if_pos rfl] at hw
      cases m with
      | data d =>
        simp only at hw
        split at hw
        · simp [EVAL_GEN] at hw
        · rename_i hfin
          simp only at hw
          split at hw
          · rename_i hp
            simp only [Bool.and_eq_true] at hp
            exact hg _ _ rfl hp.1 hw (by simpa using hfin)
          · exact hw
      | _ => exact hw
    · rw [if_neg hto] at hw; exact hw
  | persisStop to =>
    refine same (fun w hw => ?_)
    simp only [view, View.step] at hw
    split at hw <;> exact hw
  | _ => exact same (fun w hw => hw)

theorem lag_mono (l tr : List Ev) (hg : GenHonest (l ++ tr)) :
    runningGens c (l ++ tr) + genStarts tr ≤ runningGens c tr + genStarts (l ++ tr) := by
  induction l with
  | nil => exact Nat.le_refl _
  | cons e l ih =>
    have h1 := ih (fun post w d pre h => hg (e :: post) w d pre (by rw [List.cons_append, h]; rfl))
    have h2 := lag_step (c := c) e (l ++ tr) (fun w d he => hg [] w d _ (by rw [he]; rfl))
    show runningGens c (e :: (l ++ tr)) + _ ≤ _ + genStarts (e :: (l ++ tr))
    omega

theorem countP_lt {l : List Nat} (p q : Nat → Bool) {w : Nat} (hw : w ∈ l) (h : ∀ x, q x = true → p x = true) (hp : p w = true) (hq : q w = false) :
    l.countP q < l.countP p := by
  induction l with
  | nil => simp at hw
  | cons a l ih =>
    rw [List.countP_cons, List.countP_cons]
    rcases List.mem_cons.mp hw with rfl | hw
    · rw [hp, hq]
      have := countP_le_other (l := l) p q (fun x _ => h x)
      simp only [if_true, Bool.false_eq_true, if_false]; omega
    · have := ih hw
      by_cases hqa : q a = true
      · rw [hqa, h a hqa]; simp only [if_true]; omega
      · simp only [hqa, Bool.false_eq_true, if_false]
        split <;> omega

/-- After a generator has finished, fewer generators run than have been started. -/
theorem lag_finished {w : Nat} {d : Data} {pre post : List Ev} (hw : w ∈ c.workers) (hf : d.isFinished = true)
    (hrun : (view w pre).persis = EVAL_GEN) (hg : GenHonest (post ++ .recv w (.data d) :: pre)) :
    runningGens c (post ++ .recv w (.data d) :: pre) < genStarts (post ++ .recv w (.data d) :: pre) := by
  have hpre : GenHonest pre := fun po w' d' pr h => hg (post ++ .recv w (.data d) :: po) w' d' pr (by rw [h]; simp)
  have h0 : runningGens c [] = 0 := by
    simp only [runningGens, List.countP_eq_zero]
    intro x _
    simp [view, EVAL_GEN]
  have h1 := lag_mono (c := c) pre [] (by simpa using hpre)
  have h2 := lag_mono (c := c) post (.recv w (.data d) :: pre) hg
  simp only [List.append_nil, h0, genStarts] at h1
  have h3 : runningGens c (.recv w (.data d) :: pre) < runningGens c pre := by
    refine countP_lt _ _ hw (fun x hx => ?_) (by simp [hrun]) ?_
    · simp only [view, View.step, decide_eq_true_eq] at hx ⊢
      by_cases hxw : w = x
      · subst hxw
        exact hrun
      · rw [if_neg hxw] at hx; exact hx
    · simp [view, View.step, hf, EVAL_GEN]
  have h4 : genStarts (.recv w (.data d) :: pre) = genStarts pre := by simp [genStarts]
  omega

end Verif.Manager
