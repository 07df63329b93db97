import Verif.Manager.BundledSims
import Verif.Manager.PropsOrders
/-!
Property C10: rows that become evaluated were given to the worker recorded as their `sim_worker`.

`histAt c.hist pre` is the history after the events `pre`; `Ended h i`: row `i` is marked `sim_ended`;
`SentTo pre to key i`: an order for evaluation with row `i` was sent to worker `to`, under the key `key` of the work
dictionary, followed by the rows; `Honest tr`: every simulation result is about rows that its worker was sent before;
`OrdersOk gom tr`: orders for evaluation have the key of a worker, and ask for `active_recv` only with `persistent`.
-/
namespace Verif.Manager
open Verif.History Verif.Res Verif.Sched Verif.Alloc

/-! ### Checking the hypotheses on examples -/

def sentB (w i : Nat) : List Ev → Bool
  | .rows to idx _ :: .order to' k wk :: tr =>
    (decide (to = w) && decide (to' = w) && decide (idx = wk.rows) && decide (wk.tag = EVAL_SIM) && decide (i ∈ wk.rows)) ||
      sentB w i (.order to' k wk :: tr)
  | _ :: tr => sentB w i tr
  | [] => false

def honestB : List Ev → Bool
  | .recv w (.data d) :: tr => (!d.isSim || d.rows.all fun i => sentB w i tr) && honestB tr
  | _ :: tr => honestB tr
  | [] => true

theorem sentB_sound {w i : Nat} : ∀ {tr : List Ev}, sentB w i tr = true → ∃ key, SentTo tr w key i
  | [], h => by simp [sentB] at h
  | e :: tr, h => by
    have key : sentB w i tr = true → ∃ key, SentTo (e :: tr) w key i := by
      intro h
      obtain ⟨k, hk⟩ := sentB_sound h
      exact ⟨k, SentTo.append (l := [e]) hk⟩
    unfold sentB at h
    split at h
    · rename_i to idx vals to' k wk tr' heq
      injection heq with e1 e2
      subst e1 e2
      simp only [Bool.or_eq_true, Bool.and_eq_true, decide_eq_true_eq] at h
      rcases h with ⟨⟨⟨⟨rfl, rfl⟩, rfl⟩, h3⟩, h4⟩ | h
      · exact ⟨k, wk, vals, [], tr', rfl, h3, h4⟩
      · exact key h
    · rename_i heq
      injection heq with e1 e2
      subst e1 e2
      exact key h
    · rename_i heq; cases heq

theorem honestB_sound : ∀ {tr : List Ev}, honestB tr = true → Honest tr
  | [], _ => by intro post w d pre he; simp at he
  | e :: tr, h => by
    have h2 : honestB tr = true := by
      unfold honestB at h
      split at h
      · rename_i heq; injection heq with e1 e2; subst e2
        simp only [Bool.and_eq_true] at h; exact h.2
      · rename_i heq; injection heq with e1 e2; subst e2; exact h
      · rename_i heq; cases heq
    intro post w d pre he hs i hi
    cases post with
    | nil =>
      simp only [List.nil_append, List.cons.injEq] at he
      obtain ⟨rfl, rfl⟩ := he
      simp only [honestB, hs, Bool.not_true, Bool.false_or, Bool.and_eq_true, List.all_eq_true] at h
      exact sentB_sound (h.1 i hi)
    | cons x post =>
      simp only [List.cons_append, List.cons.injEq] at he
      exact honestB_sound h2 post w d pre he.2 hs i hi

def ordersB (gom : Bool) (tr : List Ev) : Bool := tr.all fun e =>
  match e with
  | .order _ key wk => !decide (wk.tag = EVAL_SIM) || ((decide (key ≠ 0) || gom) && (wk.persistent || wk.activeRecv.isNone))
  | _ => true

theorem ordersB_sound {gom : Bool} {tr : List Ev} (h : ordersB gom tr = true) : OrdersOk gom tr := by
  intro to key wk hm ht
  simp only [ordersB, List.all_eq_true] at h
  have := h _ hm
  simp only [ht, decide_true, Bool.not_true, Bool.false_or, Bool.and_eq_true, Bool.or_eq_true, decide_eq_true_eq,
    Option.isNone_iff_eq_none] at this
  exact this

/-! ## C10 -/

/-- A row that becomes `sim_ended` is at that time marked `sim_started`, and an order with the row was sent before to the
worker that the row names as its `sim_worker`.  Partial: in safe mode or without protected fields in the returned arrays;
for workers that only return rows they were given; for orders that address a worker by its own number and ask for
`active_recv` only together with `persistent` (see the witness). -/
theorem C10_evaluated_was_given_partial (c : Start) (hc : c.Std) (its : List Iter) (t : Nat → Int) (rounds : List Round)
    (hprot : c.safe = true ∨ Polite (c.run its t rounds).1.tr) (ho : OrdersOk c.sp.gom (c.run its t rounds).1.tr)
    (hh : Honest (c.run its t rounds).1.tr) (post pre : List Ev) (e : Ev) (he : (c.run its t rounds).1.tr = post ++ e :: pre) (i : Nat)
    (h0 : ¬ Ended (histAt c.hist pre) i) (h1 : Ended (histAt c.hist (e :: pre)) i) :
    cell (histAt c.hist pre).rows i .simStarted = some (.s 1) ∧
    ∃ w : Nat, cell (histAt c.hist pre).rows i .simWorker = some (.s w) ∧ SentTo pre w w i := by
  obtain ⟨p, _, hr⟩ := c.reach its t rounds
  obtain ⟨_, _, _, _, _, _, _, _, _, h2, key, q, h3, h4, h5⟩ := ended_given hc hr (start_kept hr hprot) ho.recv hh he h0 h1
  refine ⟨h2, key, h5, ?_⟩
  have hk : OrdersOk c.sp.gom pre := fun to key wk hm => ho to key wk (by rw [he]; simp [hm])
  rw [idAt_wPos (hk.key h4) h3] at h4
  exact h4

/-- What the run leaves in the history: a row evaluated during the run is marked as started. -/
theorem C10_final_partial (c : Start) (hc : c.Std) (its : List Iter) (t : Nat → Int) (rounds : List Round)
    (hprot : c.safe = true ∨ Polite (c.run its t rounds).1.tr) (ho : OrdersOk c.sp.gom (c.run its t rounds).1.tr)
    (hh : Honest (c.run its t rounds).1.tr) (i : Nat) (h0 : ¬ Ended c.hist i) (h1 : Ended (c.run its t rounds).1.hist i) :
    cell (c.run its t rounds).1.hist.rows i .simStarted = some (.s 1) := by
  obtain ⟨p, _, hr⟩ := c.reach its t rounds
  have hk := start_kept hr hprot
  have hev : ∀ tr : List Ev, Ended (histAt c.hist tr) i → ∃ post e pre, tr = post ++ e :: pre ∧ ¬ Ended (histAt c.hist pre) i ∧
      Ended (histAt c.hist (e :: pre)) i := by
    intro tr
    induction tr with
    | nil => exact fun h => absurd h h0
    | cons e tr ih =>
      intro h
      by_cases h2 : Ended (histAt c.hist tr) i
      · obtain ⟨post, e', pre, rfl, h3⟩ := ih h2
        exact ⟨e :: post, e', pre, rfl, h3⟩
      · exact ⟨[], e, tr, rfl, h2, h⟩
  have hs := start_histAt hr
  rw [hs] at h1
  obtain ⟨post, e, pre, he, h2, h3⟩ := hev _ h1
  have h4 := (C10_evaluated_was_given_partial c hc its t rounds hprot ho hh post pre e he i h2 h3).1
  rw [hs]
  have hk' : OpsOk c ((post ++ [e]) ++ pre) := by rw [show (post ++ [e]) ++ pre = post ++ e :: pre by simp, ← he]; exact hk
  have := sticky hc (g := .simStarted) (by simp [stickyFields]) hk' h4
  rw [show (post ++ [e]) ++ pre = post ++ e :: pre by simp, ← he] at this
  exact this

/-- An order names row `i`. -/
theorem sent_unique {tr : List Ev} (h : (simGiven tr).Nodup) {i to key to' key' : Nat} (h1 : SentTo tr to key i)
    (h2 : SentTo tr to' key' i) : to = to' ∧ key = key' := by
  have key : ∀ {tr : List Ev}, (simGiven tr).Nodup → ∀ {wk wk' : Work}, .order to key wk ∈ tr → wk.tag = EVAL_SIM → i ∈ wk.rows →
      .order to' key' wk' ∈ tr → wk'.tag = EVAL_SIM → i ∈ wk'.rows → to = to' ∧ key = key' := by
    intro tr
    induction tr with
    | nil => intro _ wk wk' h; simp at h
    | cons e tr ih =>
      intro hn wk wk' a1 a2 a3 b1 b2 b3
      have hn' : (simRowsOf e ++ simGiven tr).Nodup := hn
      obtain ⟨n1, n2, n3⟩ := List.nodup_append.mp hn'
      have hin : ∀ {t k : Nat} {w : Work}, Ev.order t k w ∈ tr → w.tag = EVAL_SIM → i ∈ w.rows → i ∈ simGiven tr := by
        intro t k w m1 m2 m3
        simp only [simGiven, List.mem_flatMap]
        exact ⟨_, m1, by simp [simRowsOf, m2, m3]⟩
      rcases List.mem_cons.mp a1 with a | a <;> rcases List.mem_cons.mp b1 with b | b
      · rw [← a] at b; injection b with x y; exact ⟨x.symm, y.symm⟩
      · exact absurd rfl (n3 i (by rw [← a]; simp [simRowsOf, a2, a3]) i (hin b b2 b3))
      · exact absurd rfl (n3 i (by rw [← b]; simp [simRowsOf, b2, b3]) i (hin a a2 a3))
      · exact ih n2 a a2 a3 b b2 b3
  obtain ⟨wk, vals, l1, l2, e1, a2, a3⟩ := h1
  obtain ⟨wk', vals', l1', l2', e2, b2, b3⟩ := h2
  exact key h (wk := wk) (wk' := wk') (by rw [e1]; simp) a2 a3 (by rw [e2]; simp) b2 b3

theorem simGiven_suffix {l tr : List Ev} (h : (simGiven (l ++ tr)).Nodup) : (simGiven tr).Nodup := by
  simp only [simGiven, List.flatMap_append] at h
  exact (List.nodup_append.mp h).2.1

/-- With the bundled allocation functions the row is evaluated by the worker it was given to: the message that makes it
`sim_ended` comes from the worker recorded as `sim_worker`.  Partial: in safe mode or without protected fields in the
returned arrays, and for workers that only return rows they were given. -/
theorem C10_bundled_partial (c : Start) (hc : c.Std) (b : Bundled) (env : AllocEnv)
    (hpi : ∀ lp n, b = .aposmm lp n → c.pinfo.firstCall = false → c.pinfo.nextToGive ≠ none) (its : List Iter)
    (hits : ∀ it ∈ its, it.uses b env c.sp) (t : Nat → Int) (rounds : List Round)
    (hprot : c.safe = true ∨ Polite (c.run its t rounds).1.tr) (hh : Honest (c.run its t rounds).1.tr)
    (post pre : List Ev) (e : Ev) (he : (c.run its t rounds).1.tr = post ++ e :: pre) (i : Nat)
    (h0 : ¬ Ended (histAt c.hist pre) i) (h1 : Ended (histAt c.hist (e :: pre)) i) :
    cell (histAt c.hist pre).rows i .simStarted = some (.s 1) ∧
    ∃ (w : Nat) (d : Data) (pre' : List Ev), cell (histAt c.hist pre).rows i .simWorker = some (.s w) ∧ SentTo pre w w i ∧
      pre = .recv w (.data d) :: pre' ∧ i ∈ d.rows := by
  obtain ⟨p, _, hr⟩ := c.reachB its t rounds hits
  have ho := bundled_orders (start_behind hpi) hr
  obtain ⟨w0, d, _, _, pre', _, hpre, hi, ⟨key0, h6⟩, h2, key, q, h3, h4, h5⟩ := ended_given hc hr (start_kept hr hprot) ho.recv hh he h0 h1
  have hk : OrdersOk c.sp.gom pre := fun to key wk hm => ho to key wk (by rw [he]; simp [hm])
  rw [idAt_wPos (hk.key h4) h3] at h4
  have hn : (simGiven (c.run its t rounds).1.tr).Nodup := by
    cases hb : b.byPriority with
    | true => exact C11_waiting_partial c hc b hb env its hits t rounds hprot
    | false => exact C11_in_order c b hb env hpi its hits t rounds
  have hn' : (simGiven pre).Nodup := simGiven_suffix (l := post ++ [e]) (by rw [show post ++ [e] ++ pre = post ++ e :: pre by simp, ← he]; exact hn)
  obtain ⟨h7, h8⟩ := sent_unique hn' h6 h4
  exact ⟨h2, key, d, pre', h5, h4, by rw [hpre, h7], hi⟩

/-- The hypotheses hold in a run in which rows are evaluated. -/
example : OrdersOk false (bdemo.run (onceIts (.simFirst {})) (fun _ => 0) []).1.tr ∧ Honest (bdemo.run (onceIts (.simFirst {})) (fun _ => 0) []).1.tr ∧
    (bdemo.run (onceIts (.simFirst {})) (fun _ => 0) []).2 = .running ∧
    simBack (bdemo.run (onceIts (.simFirst {})) (fun _ => 0) []).1.tr = [0, 1] :=
  ⟨ordersB_sound (by decide +kernel), honestB_sound (by decide +kernel), by decide +kernel, by decide +kernel⟩

/-- Safe mode. -/
def sdemo : Start := { bdemo with safe := true }

/-- The theorem applied: row 0 of this run. -/
example : cell (sdemo.run (onceIts (.simFirst {})) (fun _ => 0) []).1.hist.rows 0 .simStarted = some (.s 1) := by
  refine C10_final_partial sdemo ⟨bdemo_std.has, bdemo_std.sc, bdemo_std.sc0⟩ _ _ _ (.inl rfl) (ordersB_sound ?_) (honestB_sound ?_) 0 ?_ ?_
  · decide +kernel
  · decide +kernel
  · rw [ended_cell]; rintro ⟨v, h1, h2⟩
    have : cell sdemo.hist.rows 0 .simEnded = some (.s 0) := by decide +kernel
    rw [this] at h1; simp at h1; exact h2 h1.symm
  · rw [ended_cell]; exact ⟨.s 1, by decide +kernel, by decide⟩

/-- An order that the manager refuses after having sent it. -/
def badRecv : Work := { simOrder [0] with activeRecv := some true }

/-- Witness: an order with `active_recv` but without `persistent` is sent, then refused before the history is told; the
result comes in during the shutdown, and the row is marked as evaluated but not as started. -/
theorem C10_not_started_witness : ∃ (c : Start) (its : List Iter) (rounds : List Round), c.Std ∧ c.safe = true ∧
    Honest (c.run its (fun _ => 0) rounds).1.tr ∧ (c.run its (fun _ => 0) rounds).2 = .raised .recvNotPersistent ∧
    cell (c.run its (fun _ => 0) rounds).1.hist.rows 0 .simEnded = some (.s 1) ∧
    cell (c.run its (fun _ => 0) rounds).1.hist.rows 0 .simStarted = some (.s 0) := by
  refine ⟨sdemo, [pass [] [(1, genOrder)], pass [points 1 [10]] [(2, badRecv)]], [⟨[value 2 [0] [6]], 0⟩],
    ⟨bdemo_std.has, bdemo_std.sc, bdemo_std.sc0⟩, rfl, honestB_sound ?_, ?_, ?_, ?_⟩ <;> decide +kernel

end Verif.Manager
