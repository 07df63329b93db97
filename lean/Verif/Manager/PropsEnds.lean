import Verif.Manager.EndsRun
/-!
Property C68: a run with `sim_max` comes to its end.

The allocation functions without persistent functions (`give_sim_work_first`, `fast_alloc`, `ensure_one_active_gen`,
`give_pregenerated_sim_work`) call a generator only when no row is left to give, and give at most `sim_max` orders for evaluation.  So
only a bounded number of answers reaches the manager, the manager never waits unless a worker owes an answer, and a run in
which every order is answered ends.
-/
namespace Verif.Manager
open Verif.History Verif.Res Verif.Sched Verif.Alloc

/-- The conditions on what the user functions and workers do: the history is sound (`HistOk`), protected fields are safe, every order is
answered at most once (`Answers`), generators send points (`Productive`) that they do not number themselves, and rows cancelled
before they were given are among `cs`. -/
structure Obliging (c : Start) (cs : List Nat) (tr : List Ev) : Prop where
  hist : HistOk c tr
  prot : c.Protected tr
  answers : Answers tr
  productive : Productive tr
  unnumbered : Unnumbered tr
  cancelled : ∀ i, CancelledFirst c tr i → i ∈ cs

theorem Obliging.suffix {c : Start} {cs : List Nat} {l tr : List Ev} (h : Obliging c cs (l ++ tr)) : Obliging c cs tr where
  hist := ⟨h.hist.std, h.hist.room, h.hist.ids, fun w d r hm => h.hist.keeps w d r (List.mem_append_right _ hm)⟩
  prot := h.prot.suffix
  answers := h.answers.suffix
  productive := fun w d hm => h.productive w d (List.mem_append_right _ hm)
  unnumbered := fun w d r hm => h.unnumbered w d r (List.mem_append_right _ hm)
  cancelled := fun i ⟨post, pre, he, hc⟩ => h.cancelled i ⟨l ++ post, pre, by rw [he, List.append_assoc], hc⟩

/-- Every answer of a generator brings a point. -/
theorem answers_points (sp : Specs) {tr : List Ev} (ha : Answers tr) (hp : Productive tr) : answerCount EVAL_GEN tr ≤ pointsIn sp tr := by
  induction tr with
  | nil => simp [answerCount]
  | cons e tr ih =>
    have ih := ih (Answers.suffix (l := [e]) ha) (fun w d hm => hp w d (List.mem_cons_of_mem _ hm))
    have hpt : pointsIn sp (e :: tr) = pointsOf sp e + pointsIn sp tr := by simp [pointsIn]
    rw [hpt]
    simp only [answerCount, List.countP_cons] at ih ⊢
    cases e with
    | recv w m =>
      cases m with
      | data d =>
        simp only [isAnswer, decide_eq_true_eq]
        split
        · rename_i hg
          obtain ⟨r, hr, hne⟩ := hp w d List.mem_cons_self hg
          have hf := (ha [] w d tr rfl).2.1
          have : pointsOf sp (.recv w (.data d)) = r.rows.length := by
            simp only [pointsOf, hr]
            rw [if_pos]
            refine ⟨by simp [Data.isGen, hf, hg], fun h => ?_⟩
            simp [Data.isFinished, h] at hf
          have h0 : 0 < r.rows.length := List.length_pos_iff.mpr hne
          omega
        · omega
      | _ => simp only [isAnswer, Bool.false_eq_true, if_false]; omega
    | _ => simp only [isAnswer, Bool.false_eq_true, if_false]; omega

/-- When a generator is called, the generators have not brought more points than have been given or cancelled. -/
theorem gen_answers {c : Start} {b : Bundled} {env : AllocEnv} (hb : b.plain = true) (hptr : c.pinfo.nextToGive.getD 0 ≤ c.H0.rows.length)
    {m : Nat} (hm : c.sp.simMax = some m) {cs : List Nat} {s : St} {w : Nat} {wk : Work} {t : Int} {rest : List (Nat × Work × Int)}
    (h : Reach c.sp (b.P env c.sp) c.st (.hand ((w, wk, t) :: rest)) s) (hg : simMaxGiven c.sp s.hist = false) (hok : Obliging c cs s.tr)
    (ht : wk.tag = EVAL_GEN) : answerCount EVAL_GEN s.tr ≤ m + cs.length := by
  have hrows := gen_called hb hok.hist.std hptr h hg hok.prot ht
  have hfine : Fine c.hist s := h.fine start_tr rfl
  have hl := h.recF start_tr
  have h1 := index_points hfine hl hok.unnumbered s.tr [] rfl
  have h3 := (C03_capacity_partial c.cols c.L c.H0 c.safe (opsOf s.tr) hok.hist.std.has hok.hist.room hok.hist.ids
    (fun o ho => start_idSafe h hok.hist.keeps o (mem_opsOf.mp ho))).2.1
  have h4 : History.run (History.init c.cols c.L c.H0 c.safe) (opsOf s.tr) = (s.hist, none) := hfine
  rw [h4] at h3
  simp only at h3
  have h2 : pendOf c.sp s.tr = 0 := by
    refine Decidable.byContradiction fun hn => ?_
    cases hs : s.tr with
    | nil => rw [hs] at hn; simp [pendOf] at hn
    | cons x pre =>
      rw [hs] at hn hl
      cases x with
      | recv w m =>
        cases m with
        | data D =>
          cases ho : D.out with
          | arr r =>
            simp only [pendOf, pointsOf, ho] at hn
            split at hn
            · rename_i hgg
              obtain ⟨o, post', he, _⟩ := hl [] (.recv w (.data D)) pre rfl (gen_results hgg.1 ho hgg.2)
              simp at he
            · exact hn rfl
          | _ => simp [pendOf, pointsOf, ho] at hn
        | _ => simp [pendOf, pointsOf] at hn
      | _ => simp [pendOf, pointsOf] at hn
  rw [← start_histAt h] at h1
  have h5 : (List.range' c.H0.rows.length ((trimH s.hist).length - c.H0.rows.length)).length ≤ (simGiven s.tr ++ cs).length := by
    refine List.Nodup.length_le_of_subset List.nodup_range' (fun i hi => ?_)
    rw [List.mem_range'] at hi
    obtain ⟨j, hj, rfl⟩ := hi
    rcases hrows (c.H0.rows.length + 1 * j) (by omega) (by omega) with h6 | h6
    · exact List.mem_append_left _ h6
    · exact List.mem_append_right _ (hok.cancelled _ h6)
  rw [List.length_range', List.length_append] at h5
  have h6 : (simGiven s.tr).length < m := by
    have hst := h.started start_started rfl
    have ho := h.offsets.1
    simp only [simMaxGiven, hm, decide_eq_false_iff_not, StartedOk] at hg hst
    have ho' : s.hist.simStartedOffset = c.hist.simStartedOffset := ho
    omega
  have h7 := answers_points c.sp hok.answers hok.productive
  omega

theorem over_main {c : Start} {b : Bundled} {env : AllocEnv} {its : List Iter} (hits : ∀ it ∈ its, it.uses b env c.sp) :
    ∃ p : Ph, p.main = true ∧ Reach c.sp (b.P env c.sp) c.st p (c.loop its).1 := by
  have h := mainLoop_reach (sp := c.sp) its c.st (P := b.P env c.sp) (s0 := c.st) (fun it hm s => uses_P (hits it hm) s) .init
  by_cases hr : (mainLoop c.sp its c.st).2 = .running
  · exact ⟨_, rfl, h.1 hr⟩
  · exact ⟨_, rfl, h.2 hr⟩

/-- Only a bounded number of answers reaches the manager: at most `sim_max` from simulations, and from generators at most one for
each evaluation, one for each row cancelled before it was given and one for each worker.  Partial: for the allocation functions
without persistent functions. -/
theorem C68_answers_partial (c : Start) (b : Bundled) (hb : b.plain = true) (env : AllocEnv) (its : List Iter)
    (hits : ∀ it ∈ its, it.uses b env c.sp) (m : Nat) (hm : c.sp.simMax = some m)
    (hptr : c.pinfo.nextToGive.getD 0 ≤ c.H0.rows.length) (cs : List Nat) (hok : Obliging c cs (c.loop its).1.tr) :
    answerCount EVAL_SIM (c.loop its).1.tr ≤ m ∧
    answerCount EVAL_GEN (c.loop its).1.tr ≤ m + cs.length + c.workers.length := by
  obtain ⟨p, hp, hr⟩ := over_main hits
  generalize (c.loop its).1 = s at *
  have hws := order_workers hr hp
  constructor
  · have h1 := answers_orders (k := EVAL_SIM) (workers_nodup (c := c)) s.tr hok.answers.replies hws
    have h2 := simOrders_le s.tr (hr.simMax hm rfl rfl) (onOrder_mono (orders_main hr hp (plain_orders hb hr)) (by
      intro pre to key wk h ht
      rcases h.2 with h | h
      · exact h.2
      · rw [ht] at h; exact absurd h sim_not_gen))
    omega
  · have h1 : Always (onOrder fun pre _ _ wk => Manager.hasFinal pre = false → Obliging c cs pre → wk.tag = EVAL_GEN →
        answerCount EVAL_GEN pre ≤ m + cs.length) s.tr := by
      refine hr.orders (by rw [start_tr]; exact .nil) (by rw [start_tr]; rfl) (fun pre to key wk hf h => by rw [hf] at h; simp at h) ?_
      intro s w wk t rest k wk' l0 hr hg _ _ hwk hl0 _ hok ht
      have ht' : wk.tag = EVAL_GEN := by rw [hwk] at ht; exact ht
      have := gen_answers hb hptr hm hr hg hok.suffix ht'
      have hz : answerCount EVAL_GEN (l0 ++ s.tr) = answerCount EVAL_GEN s.tr := by
        rcases hl0 with h | ⟨_, h⟩ <;> rw [h] <;> simp [answerCount, isAnswer]
      omega
    have h3 := orders_main hr hp h1
    have h2 := answers_le (k := EVAL_GEN) (ws := c.workers) (B := m + cs.length) s.tr hok.answers.replies hws (by
      intro post e pre he
      have := h3 post e pre he
      cases e with
      | order to key wk =>
        exact this (by rw [he, show post ++ Ev.order to key wk :: pre = (post ++ [Ev.order to key wk]) ++ pre by simp] at hok; exact hok.suffix)
      | _ => trivial)
    omega

/-! ### The manager waits only for answers -/

theorem iter_next {sp : Specs} {s : St} {it : Iter} (h : (iter sp s it).2 = .next) :
    termTest sp (iter sp s it).1.hist it.e2 ≠ 0 ∨ anyActive (iter sp s it).1 = true := by
  simp only [iter] at h ⊢
  generalize andThen (killCancelled sp s) (fun s => receive sp s it.mail) = x at h
  obtain ⟨s1, e1⟩ := x
  cases e1 with
  | some e => simp at h
  | none =>
    simp only at h ⊢
    cases ha : it.alloc s1 with
    | raised cs => rw [ha] at h; simp at h
    | ok cs work flag p =>
      rw [ha] at h
      cases flag with
      | true => simp at h
      | false =>
        simp only [Bool.false_eq_true, if_false, afterAlloc] at h ⊢
        generalize handOutAll sp _ _ = y at h
        obtain ⟨s2, e2⟩ := y
        cases e2 with
        | some e => simp at h
        | none =>
          simp only at h ⊢
          split at h
          · rename_i hc
            rw [if_pos hc]
            simpa using hc
          · simp at h

/-- After a pass of the main loop after which it goes on, an exit criterion holds or a worker is busy. -/
theorem loop_next {sp : Specs} (its : List Iter) (it : Iter) (s : St) (h : (mainLoop sp (its ++ [it]) s).2 = .running) :
    termTest sp (mainLoop sp (its ++ [it]) s).1.hist it.e2 ≠ 0 ∨ anyActive (mainLoop sp (its ++ [it]) s).1 = true := by
  rw [mainLoop_append] at h ⊢
  split at h
  · rename_i hr
    rw [if_pos hr]
    generalize (mainLoop sp its s).1 = s1 at h ⊢
    simp only [mainLoop] at h ⊢
    split at h
    · simp at h
    · rename_i ht
      rw [if_neg ht]
      have hn := iter_next (sp := sp) (s := emit s1 (.test (termTest sp s1.hist it.e1))) (it := it)
      generalize iter sp _ it = x at h hn
      obtain ⟨s2, f⟩ := x
      cases f with
      | next => exact hn rfl
      | flagged => simp at h
      | raised e => simp at h
  · rename_i hr; exact absurd h hr

/-- As long as the main loop goes on, an exit criterion is met, so that it ends at its next test, or some worker owes an answer. -/
theorem C68_waits_partial (c : Start) (b : Bundled) (hb : b.plain = true) (env : AllocEnv) (its : List Iter) (it : Iter)
    (hits : ∀ x ∈ its ++ [it], x.uses b env c.sp) (hans : Answers (c.loop (its ++ [it])).1.tr) (hrun : (c.loop (its ++ [it])).2 = .running) :
    termTest c.sp (c.loop (its ++ [it])).1.hist it.e2 ≠ 0 ∨ ∃ w ∈ c.workers, owes w (c.loop (its ++ [it])).1.tr ≠ none := by
  rcases loop_next its it c.st hrun with h | h
  · exact .inl h
  · right
    have hr := (mainLoop_reach (sp := c.sp) (its ++ [it]) c.st (P := b.P env c.sp) (s0 := c.st) (fun x hm s => uses_P (hits x hm) s) .init).1 hrun
    exact active_owes hr rfl hans.replies
      (always_mem (orders_main hr rfl (plain_orders hb hr)) (R := fun wk => (wk.persistent && wk.activeRecv.getD false) = false) (fun _ _ _ wk h => by simp [h.1])) h

/-! ### Runs end -/

/-- The first `k` passes of a run. -/
def passes (f : Nat → Iter) (k : Nat) : List Iter := (List.range k).map f

/-- Whoever owes an answer sends one some time, unless the main loop ends before. -/
def Fair (c : Start) (f : Nat → Iter) : Prop :=
  ∀ k w, (c.loop (passes f k)).2 = .running → owes w (c.loop (passes f k)).1.tr ≠ none →
    ∃ j, k ≤ j ∧ ((c.loop (passes f j)).2 ≠ .running ∨
      ∃ l d, (c.loop (passes f j)).1.tr = l ++ (c.loop (passes f k)).1.tr ∧ .recv w (.data d) ∈ l)

theorem termTest_later {sp : Specs} {h : Hist} {e e' : Int} (he : e ≤ e') (ht : termTest sp h e ≠ 0) : termTest sp h e' ≠ 0 := by
  simp only [termTest] at ht ⊢
  have hw : wallTest sp e = true → wallTest sp e' = true := by
    simp only [wallTest]
    cases sp.wallclockMax with
    | none => simp
    | some m => simp only [decide_eq_true_eq]; omega
  split at ht
  · rename_i h1; rw [if_pos (hw h1)]; simp
  · split
    · simp
    · exact ht

theorem passes_succ (f : Nat → Iter) (k : Nat) : passes f (k + 1) = passes f k ++ [f k] := by simp [passes, List.range_succ]

theorem passes_use {c : Start} {b : Bundled} {env : AllocEnv} {f : Nat → Iter} (hits : ∀ k, (f k).uses b env c.sp) (k : Nat) :
    ∀ it ∈ passes f k, it.uses b env c.sp := by
  intro it hm
  simp only [passes, List.mem_map] at hm
  obtain ⟨i, _, rfl⟩ := hm
  exact hits i

/-- If the number of answers is bounded and the manager waits only for answers that come, the main loop ends. -/
theorem ends_of {c : Start} {f : Nat → Iter} (B : Nat) (hB : ∀ k, dataCount (c.loop (passes f k)).1.tr ≤ B)
    (hwait : ∀ k, (c.loop (passes f (k + 1))).2 = .running → termTest c.sp (c.loop (passes f (k + 1))).1.hist (f k).e2 ≠ 0 ∨
      ∃ w ∈ c.workers, owes w (c.loop (passes f (k + 1))).1.tr ≠ none)
    (hclock : ∀ k, (f k).e2 ≤ (f (k + 1)).e1) (hfair : Fair c f) : ∃ k, (c.loop (passes f k)).2 ≠ .running := by
  refine Classical.byContradiction fun hn => ?_
  have hrun : ∀ k, (c.loop (passes f k)).2 = .running := fun k => Classical.byContradiction fun h => hn ⟨k, h⟩
  have howe : ∀ k, ∃ w, owes w (c.loop (passes f (k + 1))).1.tr ≠ none := by
    intro k
    rcases hwait k (hrun (k + 1)) with h | ⟨w, _, h⟩
    · exfalso
      have h3 := hrun (k + 1 + 1)
      rw [passes_succ, Start.loop, mainLoop_append, if_pos (by have := hrun (k + 1); exact this)] at h3
      simp only [mainLoop] at h3
      rw [if_pos (by exact termTest_later (hclock k) h)] at h3
      simp at h3
    · exact ⟨w, h⟩
  have hgrow : ∀ k, ∃ j, dataCount (c.loop (passes f (k + 1))).1.tr < dataCount (c.loop (passes f (j + 1))).1.tr := by
    intro k
    obtain ⟨w, hw⟩ := howe k
    obtain ⟨j, hj, hj2⟩ := hfair (k + 1) w (hrun _) hw
    rcases hj2 with h | ⟨l, d, htr, hmem⟩
    · exact absurd (hrun j) h
    · obtain ⟨j', rfl⟩ : ∃ j', j = j' + 1 := ⟨j - 1, by omega⟩
      refine ⟨j', ?_⟩
      simp only [dataCount]
      rw [htr, List.countP_append]
      have : 0 < l.countP hasData := List.countP_pos_iff.mpr ⟨_, hmem, rfl⟩
      omega
  have hall : ∀ n, ∃ k, n ≤ dataCount (c.loop (passes f (k + 1))).1.tr := by
    intro n
    induction n with
    | zero => exact ⟨0, Nat.zero_le _⟩
    | succ n ih =>
      obtain ⟨k, hk⟩ := ih
      obtain ⟨j, hj⟩ := hgrow k
      exact ⟨j, by omega⟩
  obtain ⟨k, hk⟩ := hall (B + 1)
  have := hB (k + 1)
  omega

/-- A run with `sim_max` comes to its end: if the clock does not run backwards, workers and generators behave (`Obliging`) and whoever owes an
answer sends one (`Fair`), the main loop ends.  Partial: for the allocation functions without persistent functions. -/
theorem C68_ends_partial (c : Start) (b : Bundled) (hb : b.plain = true) (env : AllocEnv) (f : Nat → Iter)
    (hits : ∀ k, (f k).uses b env c.sp) (m : Nat) (hm : c.sp.simMax = some m) (hptr : c.pinfo.nextToGive.getD 0 ≤ c.H0.rows.length)
    (cs : List Nat) (hok : ∀ k, Obliging c cs (c.loop (passes f k)).1.tr) (hclock : ∀ k, (f k).e2 ≤ (f (k + 1)).e1) (hfair : Fair c f) :
    ∃ k, (c.loop (passes f k)).2 ≠ .running := by
  refine ends_of (m + (m + cs.length + c.workers.length)) (fun k => ?_) (fun k hr => ?_) hclock hfair
  · obtain ⟨h1, h2⟩ := C68_answers_partial c b hb env (passes f k) (passes_use hits k) m hm hptr cs (hok k)
    obtain ⟨p, hp, hr⟩ := over_main (passes_use hits k)
    have h3 := dataCount_le _ (hok k).answers.replies
      (always_mem (orders_main hr hp (plain_orders hb hr)) (R := fun wk => wk.tag = EVAL_SIM ∨ wk.tag = EVAL_GEN) (fun _ _ _ wk h => h.2.imp (·.1) id))
    omega
  · have h1 := passes_use hits (k + 1)
    have h2 := (hok (k + 1)).answers
    rw [passes_succ] at hr h1 h2 ⊢
    exact C68_waits_partial c b hb env (passes f k) (f k) h1 h2 hr

/-- A run with `give_sim_work_first` comes to its end, and not because the manager gives it up for lack of work. -/
theorem C68_simFirst_partial (c : Start) (o : UserOpts) (env : AllocEnv) (f : Nat → Iter) (hits : ∀ k, (f k).uses (.simFirst o) env c.sp)
    (m : Nat) (hm : c.sp.simMax = some m) (hptr : c.pinfo.nextToGive.getD 0 ≤ c.H0.rows.length) (hw : c.SimWorker)
    (hgens : o.numActiveGens ≠ some 0) (htidy : o.batchMode = true → c.Tidy) (cs : List Nat)
    (hok : ∀ k, Obliging c cs (c.loop (passes f k)).1.tr) (hcomp : ∀ k, Complete (c.loop (passes f k)).1.tr)
    (hroom : ∀ k, Roomy c env (c.loop (passes f k)).1) (hclock : ∀ k, (f k).e2 ≤ (f (k + 1)).e1) (hfair : Fair c f) :
    ∃ k, (c.loop (passes f k)).2 ≠ .running ∧ (c.loop (passes f k)).2 ≠ .raised .noWork := by
  obtain ⟨k, hk⟩ := C68_ends_partial c (.simFirst o) rfl env f hits m hm hptr cs hok hclock hfair
  refine ⟨k, hk, C67_simFirst_partial c (hok k).hist.std o env _ (passes_use hits k) hw hgens htidy (hok k).prot (hcomp k) (hroom k)⟩

end Verif.Manager
