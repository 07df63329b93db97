import Verif.Manager.KillMore
import Verif.Manager.PropsSims
/-!
Property C18: cancelled points are not started, and cancelled running points get one kill signal.

`histAt c.hist pre` is the history after the events `pre` (newest first).  Each pass of the main loop begins with the event
`.test 0` followed by the search for cancelled simulations; a kill signal for row `i` to worker `to` is the event
`.kill to i`; `lookKills post` are the signals, as pairs of worker and row, from the beginning of `post` to the next
pass.
-/
namespace Verif.Manager
open Verif.History Verif.Res Verif.Sched Verif.Alloc

/-! ### Checking the hypotheses on examples -/

def keepsIdsB (tr : List Ev) : Bool := tr.all fun e =>
  match e with
  | .recv _ (.data d) => (match d.out with
    | .arr r => (!d.isSim || decide (Field.simId ∉ r.fields)) && (!d.isGen || (decide r.fields.Nodup &&
        (decide (Field.simId ∉ r.fields) || r.rows.all fun x => match x .simId with | .s n => decide (0 ≤ n) | .v _ => false)))
    | _ => true)
  | _ => true

theorem keepsIdsB_sound {tr : List Ev} (h : keepsIdsB tr = true) : KeepsIds tr := by
  intro w d r hm ho
  simp only [keepsIdsB, List.all_eq_true] at h
  have h1 := h _ hm
  simp only [ho, Bool.and_eq_true, Bool.or_eq_true, Bool.not_eq_true', decide_eq_true_eq] at h1
  refine ⟨fun hs => ?_, fun hg => ?_⟩
  · rcases h1.1 with h2 | h2
    · rw [hs] at h2; simp at h2
    · exact h2
  · rcases h1.2 with h2 | h2
    · rw [hg] at h2; simp at h2
    · refine ⟨h2.1, fun hid x hx => ?_⟩
      rcases h2.2 with h3 | h3
      · exact absurd hid h3
      · have h4 := List.all_eq_true.mp h3 x hx
        split at h4
        · rename_i n hn
          simp only [decide_eq_true_eq] at h4
          exact ⟨n.toNat, by rw [hn, Int.toNat_of_nonneg h4]⟩
        · simp at h4

def visibleB (h0 : Hist) : List Ev → Bool
  | [] => true
  | .order _ _ wk :: tr => (!decide (wk.tag = EVAL_SIM) || wk.rows.all fun i => decide (i < (histAt h0 tr).index)) && visibleB h0 tr
  | _ :: tr => visibleB h0 tr

theorem visibleB_sound {h0 : Hist} : ∀ {tr : List Ev}, visibleB h0 tr = true → VisibleOrders h0 tr
  | [], _ => .nil
  | e :: tr, h => by
    have h2 : visibleB h0 tr = true := by
      cases e with
      | order to key wk => simp only [visibleB, Bool.and_eq_true] at h; exact h.2
      | _ => exact h
    refine always_cons.mpr ⟨?_, visibleB_sound h2⟩
    cases e with
    | order to key wk =>
      intro ht i hi
      simp only [visibleB, ht, decide_true, Bool.not_true, Bool.false_or, Bool.and_eq_true, List.all_eq_true, decide_eq_true_eq] at h
      exact h.1 i hi
    | _ => trivial

/-! ## Cancelled points are not started -/

/-- With the bundled allocation functions no order for evaluation names a row whose cancellation is requested at that
time. -/
theorem C18_cancelled_not_given (c : Start) (b : Bundled) (env : AllocEnv)
    (hpi : ∀ lp n, b = .aposmm lp n → c.pinfo.firstCall = false → c.pinfo.nextToGive ≠ none) (its : List Iter)
    (hits : ∀ it ∈ its, it.uses b env c.sp) (t : Nat → Int) (rounds : List Round)
    (post pre : List Ev) (to key : Nat) (wk : Work) (he : (c.run its t rounds).1.tr = post ++ .order to key wk :: pre)
    (ht : wk.tag = EVAL_SIM) (i : Nat) (hi : i ∈ wk.rows) : ¬ CancelRequested (histAt c.hist pre) i := by
  obtain ⟨p, _, hr⟩ := c.reachB its t rounds hits
  exact not_cancelled (start_behind hpi) hr post _ pre he ht i hi

/-! ## Kill signals -/

theorem run_not_kill {x : Outcome} {p : Ph} (h : x.ph p) : p ≠ .kill := by
  rintro rfl
  cases x <;> simp [Outcome.ph] at h

/-- Every kill signal is part of the search of some pass: the row is under evaluation by the worker that gets the signal
(it was sent to it and not yet reported as evaluated), its cancellation is requested, and it had no signal before.
Partial: for prepended rows that are evaluated or not started, in safe mode or without protected fields in returned
arrays, for user functions that do not renumber rows, for orders that name existing rows and a worker by its own
number. -/
theorem C18_kill_running_partial (c : Start) (its : List Iter) (t : Nat → Int) (rounds : List Round)
    (hk : KillOk c (c.run its t rounds).1.tr) (post pre : List Ev) (to i : Nat)
    (he : (c.run its t rounds).1.tr = post ++ .kill to i :: pre) :
    c.sp.kill = true ∧ ∃ look pre0, pre = look ++ .test 0 :: pre0 ∧ (∀ e ∈ look, isTest e = false) ∧
      (∃ r, (histAt c.hist pre0).rows[i]? = some r ∧ r.flag .simStarted = true ∧ r.flag .cancelRequested = true ∧
        r.flag .simEnded = false ∧ r .simWorker = .s to) ∧
      SentTo pre0 to to i ∧ i ∉ killsOf pre := by
  obtain ⟨p, hp, hr⟩ := c.reach its t rounds
  obtain ⟨look, pre0, h1, h2⟩ := hr.inSearch start_tr post _ pre he
  subst h1
  have h3 : (c.run its t rounds).1.tr = (post ++ .kill to i :: look) ++ .test 0 :: pre0 := by rw [he]; simp
  rcases search_ok hr hk h3 with ⟨h4, _⟩ | h4
  · exact absurd h4 (run_not_kill hp)
  · have hm := mem_lookKills (post := post) (to := to) (i := i) h2
    obtain ⟨g1, _, ⟨r, g2, g3, g4, g5⟩, _⟩ := (h4.rows i).mp (List.mem_map.mpr ⟨(to, i), hm, rfl⟩)
    obtain ⟨g6, g7⟩ := h4.worker to i hm
    refine ⟨g1, look, pre0, rfl, h2, ⟨r, g2, g3, g4, g5, by simpa [cell, g2] using g7⟩, g6, ?_⟩
    have h5 := (kill_inv hr hk).nd
    rw [he, killsOf_append] at h5
    have h6 := (List.nodup_append.mp h5).2.1
    exact (List.nodup_cons.mp (show (i :: killsOf (look ++ .test 0 :: pre0)).Nodup from h6)).1

/-- No row gets two kill signals in a run.  Partial: as above. -/
theorem C18_kill_once_partial (c : Start) (its : List Iter) (t : Nat → Int) (rounds : List Round)
    (hk : KillOk c (c.run its t rounds).1.tr) : (killsOf (c.run its t rounds).1.tr).Nodup := by
  obtain ⟨p, _, hr⟩ := c.reach its t rounds
  exact (kill_inv hr hk).nd

/-- The rows that get a signal in a pass are exactly those in the window from `last_ended` to `last_started` that are
under evaluation with cancellation requested and have had no signal; each gets one.  Partial: as above, and the window
need not contain all rows under evaluation (see the witness). -/
theorem C18_search_window_partial (c : Start) (its : List Iter) (t : Nat → Int) (rounds : List Round)
    (hk : KillOk c (c.run its t rounds).1.tr) (post pre : List Ev) (he : (c.run its t rounds).1.tr = post ++ .test 0 :: pre) :
    ((lookKills post).map (·.2)).Nodup ∧
    ∀ i, i ∈ (lookKills post).map (·.2) ↔
      c.sp.kill = true ∧ InWindow (histAt c.hist pre) i ∧ KillDue (histAt c.hist pre) (killsOf pre) i := by
  obtain ⟨p, hp, hr⟩ := c.reach its t rounds
  rcases search_ok hr hk he with ⟨h4, _⟩ | h4
  · exact absurd h4 (run_not_kill hp)
  · exact ⟨h4.once, h4.rows⟩

/-- When rows are given in increasing order, a pass sends a signal for exactly the rows under evaluation whose
cancellation is requested and that have had no signal.  Partial: as above. -/
theorem C18_search_rising_partial (c : Start) (its : List Iter) (t : Nat → Int) (rounds : List Round) (hkill : c.sp.kill = true)
    (hk : KillOk c (c.run its t rounds).1.tr) (hrise : Rising (c.run its t rounds).1.tr)
    (post pre : List Ev) (he : (c.run its t rounds).1.tr = post ++ .test 0 :: pre) :
    ((lookKills post).map (·.2)).Nodup ∧
    ∀ i, i ∈ (lookKills post).map (·.2) ↔ KillDue (histAt c.hist pre) (killsOf pre) i := by
  obtain ⟨p, _, hr⟩ := c.reach its t rounds
  obtain ⟨h1, h2⟩ := C18_search_window_partial c its t rounds hk post pre he
  refine ⟨h1, fun i => (h2 i).trans ⟨fun h => h.2.2, fun h => ⟨hkill, ?_, h⟩⟩⟩
  obtain ⟨⟨r, h3, h4, _, h5⟩, _⟩ := h
  exact window_covers hkill hr hk hrise he h3 h4 h5

/-- `fast_alloc`, `only_one_gen` and `give_pregenerated_sim_work` with `kill_canceled_sims`: in each pass the rows under
evaluation whose cancellation is requested and that have had no signal get one, nothing else does, and it goes to the
only worker that was ever sent the row.  Partial: for prepended rows that are evaluated or not started, in safe mode or
without protected fields in returned arrays, for user functions that do not renumber rows; for the last two functions
also: if orders name existing rows (they can order a row that does not exist when the last rows are cancelled). -/
theorem C18_in_order_partial (c : Start) (hc : c.Std) (h0 : c.CleanH0) (hkill : c.sp.kill = true) (b : Bundled) (hb : b.steady = true)
    (env : AllocEnv) (its : List Iter) (hits : ∀ it ∈ its, it.uses b env c.sp) (t : Nat → Int) (rounds : List Round)
    (hprot : c.Protected (c.run its t rounds).1.tr) (hids : KeepsIds (c.run its t rounds).1.tr)
    (hvis : b.exact = true ∨ VisibleOrders c.hist (c.run its t rounds).1.tr)
    (post pre : List Ev) (he : (c.run its t rounds).1.tr = post ++ .test 0 :: pre) :
    ((lookKills post).map (·.2)).Nodup ∧
    (∀ i, i ∈ (lookKills post).map (·.2) ↔ KillDue (histAt c.hist pre) (killsOf pre) i) ∧
    ∀ to i, (to, i) ∈ lookKills post → SentTo pre to to i ∧ ∀ to' key, SentTo pre to' key i → to' = to := by
  obtain ⟨p, hp, hr⟩ := c.reachB its t rounds hits
  have hpi : ∀ lp n, b = .aposmm lp n → c.pinfo.firstCall = false → c.pinfo.nextToGive ≠ none := by
    rintro lp n rfl; simp [Bundled.steady] at hb
  have hbeh : b.behind c.pinfo [] := start_behind hpi
  have hk : KillOk c (c.run its t rounds).1.tr :=
    ⟨hc, h0, hprot, hids, bundled_orders hbeh hr, hvis.elim (fun h => exact_visible h hbeh hr) id⟩
  obtain ⟨h1, h2⟩ := C18_search_rising_partial c its t rounds hkill hk (steady_rising hb hr) post pre he
  refine ⟨h1, h2, fun to i hm => ?_⟩
  rcases search_ok hr hk he with ⟨h4, _⟩ | h4
  · exact absurd h4 (run_not_kill hp)
  · have h5 := (h4.worker to i hm).1
    refine ⟨h5, fun to' key h6 => ?_⟩
    have hn := C11_in_order c b (steady_prio hb) env hpi its hits t rounds
    have hn' : (simGiven pre).Nodup :=
      simGiven_suffix (l := post ++ [.test 0]) (by rw [show post ++ [.test 0] ++ pre = post ++ .test 0 :: pre by simp, ← he]; exact hn)
    exact (sent_unique hn' h6 h5).1

/-! ### Examples -/

/-- Safe mode with `kill_canceled_sims`. -/
def kdemo : Start := { bdemo with sp := { kill := true }, safe := true }

/-- The generator on worker `w` asks for the cancellation of rows. -/
def cancelRec (ids : List Int) : Rec :=
  { cols := [(.simId, .scalar), (.cancelRequested, .scalar)], rows := ids.map fun i => mkRow [(.simId, .s i), (.cancelRequested, .s 1)] }
def cancelMail (w : Nat) (ids : List Int) : Mail :=
  { w := w, t := 7, m := .data { calcType := EVAL_GEN, calcStatus := 0, rows := [], out := .arr (cancelRec ids) } }

/-- Rows 0 to 3 are given, rows 1 and 2 evaluated; rows 0 and 2 are cancelled. -/
def killIts (b : Bundled) : List Iter :=
  [bpass b demoEnv kdemo.sp [], bpass b demoEnv kdemo.sp [points 1 [10, 20, 30, 40]], bpass b demoEnv kdemo.sp [value 3 [1] [5]],
   bpass b demoEnv kdemo.sp [value 3 [2] [5]], bpass b demoEnv kdemo.sp [value 3 [3] [5]],
   bpass b demoEnv kdemo.sp [cancelMail 1 [0, 2]], bpass b demoEnv kdemo.sp [], bpass b demoEnv kdemo.sp []]

theorem killIts_uses (b : Bundled) : ∀ it ∈ killIts b, it.uses b demoEnv kdemo.sp := by
  intro it hit
  simp only [killIts, List.mem_cons, List.not_mem_nil, or_false] at hit
  rcases hit with rfl | rfl | rfl | rfl | rfl | rfl | rfl | rfl <;> exact bpass_uses _ _ _ _ _

theorem kdemo_std : kdemo.Std := ⟨bdemo_std.has, bdemo_std.sc, bdemo_std.sc0⟩

theorem kdemo_clean : kdemo.CleanH0 where
  room := .inl (by decide)
  ids := by simp [kdemo, bdemo, noH0, Rec.fields]
  done := by decide +kernel

/-- The hypotheses hold in this run, and in its last but one pass worker 2 gets the signal for row 0. -/
example : KillOk kdemo (kdemo.run (killIts (.fast {})) (fun _ => 0) []).1.tr ∧
    (kdemo.run (killIts (.fast {})) (fun _ => 0) []).2 = .running ∧
    (kdemo.run (killIts (.fast {})) (fun _ => 0) []).1.tr.filterMap (fun | .kill to i => some (to, i) | _ => none) = [(2, 0)] := by
  refine ⟨⟨kdemo_std, kdemo_clean, .inl rfl, keepsIdsB_sound ?_, ordersB_sound ?_, visibleB_sound ?_⟩, ?_, ?_⟩ <;> decide +kernel

/-- The theorem applied: every row that is due gets its signal. -/
example (post pre : List Ev) (he : (kdemo.run (killIts (.fast {})) (fun _ => 0) []).1.tr = post ++ .test 0 :: pre) (i : Nat)
    (hi : KillDue (histAt kdemo.hist pre) (killsOf pre) i) : ∃ to, (to, i) ∈ lookKills post := by
  have h := (C18_in_order_partial kdemo kdemo_std kdemo_clean rfl (.fast {}) rfl demoEnv _ (killIts_uses _) _ _ (.inl rfl)
    (keepsIdsB_sound (by decide +kernel)) (.inl rfl) post pre he).2.1 i
  have := h.mpr hi
  simp only [List.mem_map] at this
  obtain ⟨⟨to, j⟩, h1, rfl⟩ := this
  exact ⟨to, h1⟩

/-- A cancelled row that waits is not given: of rows 0 to 3, row 2 is cancelled before it is given. -/
def skipIts (b : Bundled) : List Iter :=
  [bpass b demoEnv kdemo.sp [], bpass b demoEnv kdemo.sp [points 1 [10, 20, 30, 40]],
   bpass b demoEnv kdemo.sp [cancelMail 1 [2]], bpass b demoEnv kdemo.sp [value 3 [1] [5]]]

example : simGiven (kdemo.run (skipIts (.simFirst {})) (fun _ => 0) []).1.tr = [3, 1, 0] ∧
    (kdemo.run (skipIts (.simFirst {})) (fun _ => 0) []).2 = .running := by decide +kernel

/-! ### Witness -/

def prioPoints (w : Nat) (as : List Int) : Mail :=
  { w := w, t := 5, m := .data { calcType := EVAL_GEN, calcStatus := 0, rows := [], out := .arr ⟨[(.user 1, .vec 2), (.priority, .scalar)],
      as.map (fun a => mkRow [(.user 1, .v [a, a + 1]), (.priority, .s a)])⟩ } }

def prioDemo : Start := { kdemo with cols := demoCols ++ [(.priority, .scalar)] }

/-- `give_sim_work_first` with `cancel_sims_time`. -/
def prioFn : Bundled := .simFirst { cancelTime := some 10 }
def latePass : Iter := { e1 := 0, mail := [], alloc := prioFn.reply demoEnv kdemo.sp 100 id, t := fun _ => 4, e2 := 0 }
def prioIts : List Iter :=
  [bpass prioFn demoEnv kdemo.sp [], bpass prioFn demoEnv kdemo.sp [prioPoints 1 [10, 20]], latePass, latePass, latePass]

def isTest0 : Ev → Bool
  | .test n => decide (n = 0)
  | _ => false

theorem split_test0 {tr : List Ev} {n : Nat} (h : (tr[n]?).any isTest0 = true) :
    ∃ post, tr = post ++ .test 0 :: tr.drop (n + 1) ∧ post = tr.take n := by
  simp only [Option.any_eq_true] at h
  obtain ⟨e, h1, h2⟩ := h
  have h3 : e = .test 0 := by
    cases e with
    | test k => simp only [isTest0, decide_eq_true_eq] at h2; rw [h2]
    | _ => simp [isTest0] at h2
  subst h3
  refine ⟨_, ?_, rfl⟩
  obtain ⟨hl, h4⟩ := List.getElem?_eq_some_iff.mp h1
  rw [← h4, List.getElem_cons_drop hl, List.take_append_drop]

/-- Witness: `last_started` is the largest row of the last order only.  When row 1 is given before row 0 because of its
priority, and both are cancelled while they run, only row 0 gets a kill signal, although all conditions of the theorems
about kill signals hold. -/
theorem C18_missed_witness : ∃ (c : Start) (b : Bundled) (its : List Iter), c.sp.kill = true ∧ (∀ it ∈ its, it.uses b demoEnv c.sp) ∧
    KillOk c (c.run its (fun _ => 0) []).1.tr ∧ (c.run its (fun _ => 0) []).2 = .running ∧
    ∃ post pre, (c.run its (fun _ => 0) []).1.tr = post ++ .test 0 :: pre ∧
      KillDue (histAt c.hist pre) (killsOf pre) 1 ∧ lookKills post = [(3, 0)] ∧ killsOf (c.run its (fun _ => 0) []).1.tr = [0] := by
  refine ⟨prioDemo, prioFn, prioIts, rfl, ?_, ⟨⟨?_, ?_, ?_⟩, ⟨.inl (by decide), ?_, ?_⟩, .inl rfl, keepsIdsB_sound ?_, ordersB_sound ?_, visibleB_sound ?_⟩, ?_, ?_⟩
  · intro it hit
    simp only [prioIts, List.mem_cons, List.not_mem_nil, or_false] at hit
    rcases hit with rfl | rfl | rfl | rfl | rfl
    · exact bpass_uses _ _ _ _ _
    · exact bpass_uses _ _ _ _ _
    all_goals exact ⟨100, id, fun l => List.Perm.refl l, rfl⟩
  · unfold HasLibCols; decide
  · unfold LibScalar; decide
  · unfold LibScalar; decide
  · simp [prioDemo, kdemo, bdemo, noH0, Rec.fields]
  · decide +kernel
  · decide +kernel
  · decide +kernel
  · decide +kernel
  · decide +kernel
  · have hn : ((prioDemo.run prioIts (fun _ => 0) []).1.tr[5]?).any isTest0 = true := by decide +kernel
    obtain ⟨post, h1, h2⟩ := split_test0 hn
    refine ⟨_, _, h1, ⟨?_, ?_⟩, ?_, ?_⟩
    · have : ((histAt prioDemo.hist ((prioDemo.run prioIts (fun _ => 0) []).1.tr.drop 6)).rows[1]?).any
          (fun r => r.flag .simStarted && r.flag .cancelRequested && !r.flag .simEnded) = true := by decide +kernel
      simp only [Option.any_eq_true, Bool.and_eq_true, Bool.not_eq_true'] at this
      obtain ⟨r, h3, ⟨h4, h5⟩, h6⟩ := this
      exact ⟨r, h3, h4, h5, h6⟩
    · decide +kernel
    · rw [h2]; decide +kernel
    · decide +kernel

end Verif.Manager
