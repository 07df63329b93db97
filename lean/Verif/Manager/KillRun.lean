import Verif.Manager.Kill
/-
Kill signals over a whole run.
-/
namespace Verif.Manager
open Verif.History Verif.Res Verif.Sched Verif.Alloc

variable {sp : Specs} {P : St → Reply → Prop} {s0 : St}

/-- Events that have to do neither with kill signals nor with the beginning of a pass of the main loop. -/
def noKill : Ev → Bool
  | .kill _ _ => false
  | .op (.markKill _) => false
  | .test _ => false
  | _ => true

/-- Induction over runs for statements about kill signals; the flag tells whether the manager is about to look for cancelled rows. -/
theorem Reach.kills {I : Bool → List Ev → Prop} (h0 : I false s0.tr)
    (hq : ∀ l tr, I false tr → (∀ e ∈ l, noKill e = true) → I false (l ++ tr))
    (ht : ∀ tr, I false tr → I true (.test 0 :: tr))
    (hs : ∀ tr r, I false tr → r ≠ 0 → I false (.test r :: tr))
    (hk : ∀ s, Reach sp P s0 .kill s → I true s.tr → I false (killCancelled sp s).1.tr)
    {p : Ph} {s : St} (h : Reach sp P s0 p s) : I (match p with | .kill => true | _ => false) s.tr := by
  have hmic : ∀ {a b : St} {Q : Ev → Prop}, Micros sp Q a b → (∀ e, Q e → noKill e = true) → I false a.tr → I false b.tr := by
    intro a b Q hm hq' ha
    obtain ⟨l, hl, hle⟩ := hm.tr
    rw [hl]
    exact hq _ _ ha (fun e he => hq' e (hle e he))
  have hone : ∀ {e : Ev} {tr}, noKill e = true → I false tr → I false (e :: tr) :=
    fun {e tr} he ha => hq [e] tr ha (by simpa using he)
  have hsave : ∀ {s : St} {b}, I false s.tr → I false (saveK sp s b).tr :=
    fun {s b} ih => hmic (micros_saveK (Q := fun _ => False) s b) (fun e h => h.elim) ih
  have hmsg : ∀ {s : St} {w m t}, I false s.tr → I false (handleMsg sp s w m t).1.tr :=
    fun {s w m t} ih => hmic (micros_handleMsg s w m t) (fun e h => by cases h <;> rfl) ih
  have hgive : ∀ {s : St} {wk w t}, I false s.tr → I false (handOut sp s wk w t).1.tr := by
    intro s wk w t ih
    refine hmic (micros_handOut s wk w t) (fun e h => ?_) ih
    cases h with
    | send h => cases h <;> rfl
    | _ => rfl
  have hstop : ∀ {s : St} {w t}, I false s.tr → I false (stopPersis sp s w t).1.tr := by
    intro s w t ih
    refine hmic (micros_stopPersis s w t) (fun e h => ?_) ih
    cases h with
    | send _ _ h => cases h <;> rfl
    | _ => rfl
  induction h with
  | init => exact h0
  | test e hr h1 ih => exact ht _ ih
  | stop e hr h1 ih => exact hs _ _ ih h1
  | kill hr _ ih => exact hk _ hr ih
  | killErr hr _ ih => exact hk _ hr ih
  | mail w m t hr hw _ ih => exact hmsg ih
  | mailErr w m t hr hw _ ih => exact hmsg ih
  | save _ ih => exact hsave ih
  | allocErr cs hr _ ih => exact hone rfl ih
  | allocFlag cs work p hr _ ih => exact hone rfl ih
  | allocOk cs work p t hr _ ih => exact hone rfl ih
  | give hr hm _ ih => exact hgive ih
  | giveErr hr hm _ ih => exact hgive ih
  | again _ _ _ ih => exact ih
  | noWork _ _ ih => exact ih
  | final hr ih => exact hone rfl ih
  | pstop t hr _ ih => exact hstop ih
  | pstopErr t hr _ ih => exact hstop ih
  | drain _ ih => exact ih
  | dmail w m t hr hw _ ih => exact hmsg ih
  | dmailErr w m t hr hw _ ih => exact hmsg ih
  | dsave _ ih => exact hsave ih
  | done p hr ih =>
    have h2 := hmic (micros_killWorkers (sp := sp) (saveK sp _ sp.saveDone)) (fun e h => by obtain ⟨w, rfl⟩ := h; rfl) (hsave ih)
    exact h2

theorem killsOf_append (l tr : List Ev) : killsOf (l ++ tr) = killsOf l ++ killsOf tr := List.filterMap_append

theorem killsOf_noKill {l : List Ev} (h : ∀ e ∈ l, noKill e = true) : killsOf l = [] := by
  simp only [killsOf, List.filterMap_eq_nil_iff]
  intro e he
  have := h e he
  cases e <;> simp [noKill] at this ⊢

/-- The kill signals of one search. -/
theorem killsOf_pass (h : Hist) (ks l : List Nat) : killsOf (passEvs h ks l).reverse = l.reverse := by
  induction l with
  | nil => rfl
  | cons i l ih =>
    simp only [passEvs, List.reverse_cons, killsOf_append, ih, List.append_assoc]
    rfl

theorem mem_pass_mark {h : Hist} {ks l : List Nat} {rows : List Nat} (hm : .op (.markKill rows) ∈ passEvs h ks l) : rows = ks := by
  induction l with
  | nil => simp [passEvs] at hm
  | cons i l ih =>
    simp only [passEvs, List.mem_cons, reduceCtorEq, Ev.op.injEq, Op.markKill.injEq, false_or] at hm
    rcases hm with h | h
    · exact h
    · exact ih h

theorem pass_mark {h : Hist} {ks l : List Nat} (hl : l ≠ []) : .op (.markKill ks) ∈ passEvs h ks l := by
  cases l with
  | nil => exact absurd rfl hl
  | cons i l => simp [passEvs]

theorem markKill_cells {h : Hist} {rows : List Nat} {i : Nat} (hi : i ∈ rows) (hl : i < h.rows.length) :
    cell (apply h (.markKill rows)).1.rows i .killSent = some (.s 1) :=
  get_updAll_const _ _ _ (by intro r; simp [Row.set]) _ _ _ hl hi

/-- A kill signal leaves its mark. -/
theorem mark_cell {c : Start} (hc : c.Std) {tr : List Ev} (hk : OpsOk c tr) {rows : List Nat} (hm : .op (.markKill rows) ∈ tr)
    {i : Nat} (hi : i ∈ rows) (hl : ∀ post pre, tr = post ++ .op (.markKill rows) :: pre → i < (histAt c.hist pre).rows.length) :
    cell (histAt c.hist tr).rows i .killSent = some (.s 1) := by
  obtain ⟨post, pre, rfl⟩ := List.append_of_mem hm
  refine sticky hc (by simp [stickyFields]) hk ?_
  rw [histAt_op]
  exact markKill_cells hi (hl post pre rfl)

/-- What holds of kill signals between two searches. -/
structure KillInv (c : Start) (tr : List Ev) : Prop where
  mark : ∀ rows, .op (.markKill rows) ∈ tr → ∀ i ∈ rows, i ∈ killsOf tr
  cell : ∀ i ∈ killsOf tr, History.cell (histAt c.hist tr).rows i .killSent = some (.s 1)
  nd : (killsOf tr).Nodup

theorem KillInv.more {c : Start} {l tr : List Ev} (hc : c.Std) (hk : OpsOk c (l ++ tr)) (h : KillInv c tr)
    (hl : ∀ e ∈ l, noKill e = true ∨ ∃ r, e = .test r) : KillInv c (l ++ tr) := by
  have hn : killsOf l = [] := by
    simp only [killsOf, List.filterMap_eq_nil_iff]
    intro e he
    rcases hl e he with h1 | ⟨r, rfl⟩
    · cases e <;> simp [noKill] at h1 ⊢
    · rfl
  refine ⟨fun rows hm i hi => ?_, fun i hi => ?_, ?_⟩
  · rw [killsOf_append, hn, List.nil_append]
    refine h.mark rows ?_ i hi
    rcases List.mem_append.mp hm with hm | hm
    · rcases hl _ hm with h1 | ⟨r, h1⟩
      · simp [noKill] at h1
      · cases h1
    · exact hm
  · rw [killsOf_append, hn, List.nil_append] at hi
    exact sticky hc (by simp [stickyFields]) hk (h.cell i hi)
  · rw [killsOf_append, hn, List.nil_append]; exact h.nd

/-- A row of the search that is to be killed was not killed before. -/
theorem killRows_fresh {c : Start} {s : St} (h : Reach c.sp P c.st .kill s) (hi : KillInv c s.tr) {i : Nat} (hm : i ∈ killRows s.hist) :
    i ∉ killsOf s.tr := by
  intro hk
  have h1 := hi.cell i hk
  obtain ⟨_, r, h2, h3⟩ := mem_killRows.mp hm
  rw [← start_histAt h] at h1
  simp only [cell, h2, Option.map_some, Option.some.injEq] at h1
  simp [toKill, Row.flag, h1] at h3

theorem kill_inv {c : Start} {p : Ph} {s : St} (h : Reach c.sp P c.st p s) (hk : KillOk c s.tr) : KillInv c s.tr := by
  have key := h.kills (I := fun _ tr => KillOk c tr → OpsOk c tr → KillInv c tr) ?_ ?_ ?_ ?_ ?_
  · exact key hk (start_kept h hk.prot)
  · intro _ _
    rw [start_tr]
    exact ⟨by simp, by simp [killsOf], by simp [killsOf]⟩
  · intro l tr ih hl hk ho
    exact (ih hk.suffix ho.suffix).more hk.std ho (fun e he => .inl (hl e he))
  · intro tr ih hk ho
    exact KillInv.more (l := [.test 0]) hk.std ho (ih (KillOk.suffix (l := [.test 0]) hk) (OpsOk.suffix (l := [.test 0]) ho)) (by simp)
  · intro tr r ih _ hk ho
    exact KillInv.more (l := [.test r]) hk.std ho (ih (KillOk.suffix (l := [.test r]) hk) (OpsOk.suffix (l := [.test r]) ho)) (by simp)
  · intro s hr ih hk ho
    have hks : KillOk c s.tr := by
      obtain ⟨l, hl, _⟩ := (micros_killCancelled (sp := c.sp) s).tr
      rw [hl] at hk; exact hk.suffix
    have ih := ih hks (start_kept hr hks.prot)
    obtain ⟨_, heq⟩ := killCancelled_eq hr hks
    rw [heq] at ho ⊢
    cases hkill : c.sp.kill with
    | false => simpa [hkill] using ih
    | true =>
      rw [hkill] at ho
      simp only [if_true] at ho ⊢
      have hw : WinOk s.hist := by rw [start_histAt hr]; exact start_win _ (init_win c)
      refine ⟨fun rows hm i hi => ?_, fun i hi => ?_, ?_⟩
      · rw [killsOf_append, killsOf_pass]
        rcases List.mem_append.mp hm with hm | hm
        · have := mem_pass_mark (List.mem_reverse.mp hm)
          subst this
          exact List.mem_append_left _ (List.mem_reverse.mpr hi)
        · exact List.mem_append_right _ (ih.mark rows hm i hi)
      · rw [killsOf_append, killsOf_pass] at hi
        rcases List.mem_append.mp hi with hi | hi
        · rw [List.mem_reverse] at hi
          obtain ⟨_, r, h2, _⟩ := mem_killRows.mp hi
          have hlt : i < (histAt c.hist s.tr).rows.length := by
            rw [← start_histAt hr]
            exact (List.getElem?_eq_some_iff.mp h2).1
          have hne : killRows s.hist ≠ [] := List.ne_nil_of_mem hi
          have hmem : Ev.op (.markKill (killRows s.hist)) ∈ (passEvs s.hist (killRows s.hist) (killRows s.hist)).reverse :=
            List.mem_reverse.mpr (pass_mark hne)
          obtain ⟨post, pre, e⟩ := List.append_of_mem hmem
          rw [e] at ho ⊢
          rw [List.append_assoc, List.cons_append] at ho ⊢
          refine sticky hk.std (by simp [stickyFields]) ho ?_
          rw [histAt_op]
          exact markKill_cells hi (Nat.lt_of_lt_of_le hlt (histAt_length _ _ _))
        · exact sticky hk.std (by simp [stickyFields]) ho (ih.cell i hi)
      · rw [killsOf_append, killsOf_pass]
        refine List.nodup_append.mpr ⟨(List.reverse_perm _).nodup_iff.mpr (killRows_nodup hw), ih.nd, fun i hi j hj hij => ?_⟩
        subst hij
        exact killRows_fresh hr ih (List.mem_reverse.mp hi) hj

/-- Row `i` is under evaluation, its cancellation was requested, and no kill signal was sent for it. -/
def KillDue (h : Hist) (killed : List Nat) (i : Nat) : Prop :=
  (∃ r, h.rows[i]? = some r ∧ r.flag .simStarted = true ∧ r.flag .cancelRequested = true ∧ r.flag .simEnded = false) ∧ i ∉ killed

/-- Row `i` is among the rows that the manager looks at. -/
def InWindow (h : Hist) (i : Nat) : Prop := h.lastEnded < i ∧ (i : Int) ≤ h.lastStarted

theorem killRows_iff {c : Start} {s : St} (h : Reach c.sp P c.st .kill s) (hk : KillOk c s.tr) {i : Nat} :
    i ∈ killRows s.hist ↔ InWindow s.hist i ∧ KillDue s.hist (killsOf s.tr) i := by
  have hw : WinOk s.hist := by rw [start_histAt h]; exact start_win _ (init_win c)
  have hI := kill_inv h hk
  have ho := start_kept h hk.prot
  rw [mem_killRows, mem_killRange hw]
  refine and_congr_right (fun _ => ?_)
  constructor
  · rintro ⟨r, h1, h2⟩
    have h3 := h2
    simp only [toKill, Bool.and_eq_true, Bool.not_eq_true'] at h3
    refine ⟨⟨r, h1, h3.1.1.1, h3.1.1.2, h3.1.2⟩, fun hm => ?_⟩
    have h4 := hI.cell i hm
    rw [← start_histAt h] at h4
    simp only [cell, h1, Option.map_some, Option.some.injEq] at h4
    simp [Row.flag, h4] at h3
  · rintro ⟨⟨r, h1, h2, h3, h4⟩, hm⟩
    refine ⟨r, h1, ?_⟩
    simp only [toKill, h2, h3, h4, Bool.and_self, Bool.not_false, Bool.true_and, Bool.not_eq_true']
    cases hks : r.flag .killSent with
    | false => rfl
    | true =>
      exfalso
      have hne : ¬ Ended (histAt c.hist s.tr) i := by
        rintro ⟨r', h5, h6⟩
        rw [← start_histAt h, h1] at h5
        cases h5
        rw [h4] at h6; simp at h6
      obtain ⟨post, pre, o, e1, _, h7 | ⟨_, rows, rfl, hi⟩⟩ := flag_set hk.std ho .killSent (.inr rfl) (clean_start hk.std hk.h0 ho hne).2
        (v := r .killSent) (by rw [← start_histAt h]; simp [cell, h1]) (by simpa [Row.flag] using hks)
      · exact absurd h7.1 (by simp)
      · exact hm (hI.mark rows (by rw [e1]; simp) i hi)

theorem takeWhile_all {α} {p : α → Bool} {l : List α} : l.takeWhile p = l ↔ ∀ x ∈ l, p x = true := by
  induction l with
  | nil => simp
  | cons a l ih =>
    by_cases h : p a = true
    · simp [List.takeWhile_cons, h, ih]
    · simp [List.takeWhile_cons, h]

/-- Does a pass of the main loop begin (or the loop end) with this event? -/
def isTest : Ev → Bool
  | .test _ => true
  | _ => false

/-- The kill signals, as worker and row, of the pass of the main loop that comes before the events `post`: those until
the next pass begins, oldest first. -/
def lookKills (post : List Ev) : List (Nat × Nat) :=
  (post.reverse.takeWhile fun e => !isTest e).filterMap fun | .kill to i => some (to, i) | _ => none

/-- What the search at the beginning of a pass does: `pre` are the events before the pass, `post` those after its
beginning. -/
structure SearchOk (c : Start) (pre post : List Ev) : Prop where
  once : ((lookKills post).map (·.2)).Nodup
  rows : ∀ i, i ∈ (lookKills post).map (·.2) ↔
    c.sp.kill = true ∧ InWindow (histAt c.hist pre) i ∧ KillDue (histAt c.hist pre) (killsOf pre) i
  worker : ∀ to i, (to, i) ∈ lookKills post → SentTo pre to to i ∧ cell (histAt c.hist pre).rows i .simWorker = some (.s to)

theorem lookKills_noKill {l post : List Ev} (h : ∀ e ∈ l, noKill e = true) : lookKills (l ++ post) = lookKills post := by
  simp only [lookKills, List.reverse_append]
  by_cases hp : ∀ e ∈ post.reverse, (!isTest e) = true
  · rw [List.takeWhile_append_of_pos hp, List.filterMap_append]
    have : (List.takeWhile (fun e => !isTest e) l.reverse).filterMap (fun | .kill to i => some (to, i) | _ => none) = ([] : List (Nat × Nat)) := by
      rw [List.filterMap_eq_nil_iff]
      intro e he
      have h1 := h e (List.mem_reverse.mp ((List.takeWhile_sublist _).subset he))
      cases e <;> simp [noKill] at h1 ⊢
    rw [this, List.append_nil, takeWhile_all.mpr hp]
  · rw [List.takeWhile_append]
    rw [if_neg]
    intro hl
    apply hp
    have h2 := (List.takeWhile_prefix (l := post.reverse) (fun e => !isTest e)).eq_of_length hl
    exact takeWhile_all.mp h2

theorem lookKills_test {l post : List Ev} (h : ∃ e ∈ post, isTest e = true) : lookKills (l ++ post) = lookKills post := by
  simp only [lookKills, List.reverse_append]
  rw [List.takeWhile_append, if_neg]
  intro hl
  have h2 := (List.takeWhile_prefix (l := post.reverse) (fun e => !isTest e)).eq_of_length hl
  obtain ⟨e, he, ht⟩ := h
  have := takeWhile_all.mp h2 e (List.mem_reverse.mpr he)
  simp [ht] at this

theorem lookKills_cons_test (r : Nat) (post : List Ev) : lookKills (.test r :: post) = lookKills post := by
  simp only [lookKills, List.reverse_cons]
  rw [List.takeWhile_append]
  split
  · rename_i hl
    rw [(List.takeWhile_prefix (l := post.reverse) (fun e => !isTest e)).eq_of_length hl]
    simp [isTest]
  · rfl

theorem lookKills_pass (h : Hist) (ks l : List Nat) : lookKills (passEvs h ks l).reverse = l.map fun i => (workerOf h i, i) := by
  simp only [lookKills, List.reverse_reverse]
  rw [takeWhile_all.mpr]
  · induction l with
    | nil => rfl
    | cons i l ih => simp [passEvs, ih]
  · intro e he
    induction l with
    | nil => simp [passEvs] at he
    | cons i l ih =>
      simp only [passEvs, List.mem_cons] at he
      rcases he with rfl | rfl | he
      · rfl
      · rfl
      · exact ih he

theorem SearchOk.of_eq {c : Start} {pre post post' : List Ev} (h : SearchOk c pre post) (he : lookKills post' = lookKills post) :
    SearchOk c pre post' := ⟨by rw [he]; exact h.once, by rw [he]; exact h.rows, by rw [he]; exact h.worker⟩

theorem append_split {α} {l tr post pre : List α} {e : α} (h : l ++ tr = post ++ e :: pre) :
    (∃ l1 l2, l = l1 ++ e :: l2 ∧ pre = l2 ++ tr ∧ post = l1) ∨ (∃ post', post = l ++ post' ∧ tr = post' ++ e :: pre) := by
  induction l generalizing post with
  | nil => exact .inr ⟨post, rfl, h⟩
  | cons a l ih =>
    cases post with
    | nil =>
      simp only [List.cons_append, List.nil_append, List.cons.injEq] at h
      obtain ⟨rfl, rfl⟩ := h
      exact .inl ⟨[], l, rfl, rfl, rfl⟩
    | cons b post =>
      simp only [List.cons_append, List.cons.injEq] at h
      obtain ⟨rfl, h⟩ := h
      rcases ih h with ⟨l1, l2, rfl, rfl, rfl⟩ | ⟨post', rfl, rfl⟩
      · exact .inl ⟨a :: post, l2, rfl, rfl, rfl⟩
      · exact .inr ⟨post', rfl, rfl⟩

/-- Every search of a run. -/
theorem search_ok {c : Start} {p : Ph} {s : St} (h : Reach c.sp P c.st p s) (hk : KillOk c s.tr) {post pre : List Ev}
    (he : s.tr = post ++ .test 0 :: pre) : (p = .kill ∧ post = []) ∨ SearchOk c pre post := by
  have key := h.kills (I := fun b tr => KillOk c tr → ∀ post pre, tr = post ++ .test 0 :: pre → (b = true ∧ post = []) ∨ SearchOk c pre post)
    ?_ ?_ ?_ ?_ ?_
  · rcases key hk post pre he with h1 | h1
    · refine .inl ⟨?_, h1.2⟩
      have h2 := h1.1
      cases p <;> simp at h2
      rfl
    · exact .inr h1
  · intro _ post pre he
    rw [start_tr] at he; simp at he
  · intro l tr ih hl hk post pre he
    rcases append_split he with ⟨l1, l2, rfl, rfl, rfl⟩ | ⟨post', rfl, rfl⟩
    · have := hl (.test 0) (by simp)
      simp [noKill] at this
    · rcases ih hk.suffix post' pre rfl with h1 | h1
      · simp at h1
      · exact .inr (h1.of_eq (lookKills_noKill hl))
  · intro tr ih hk post pre he
    cases post with
    | nil => exact .inl ⟨rfl, rfl⟩
    | cons a post =>
      simp only [List.cons_append, List.cons.injEq] at he
      obtain ⟨rfl, rfl⟩ := he
      rcases ih (KillOk.suffix (l := [.test 0]) hk) post pre rfl with h1 | h1
      · simp at h1
      · exact .inr (h1.of_eq (lookKills_cons_test _ _))
  · intro tr r ih hr hk post pre he
    cases post with
    | nil =>
      simp only [List.nil_append, List.cons.injEq, Ev.test.injEq] at he
      exact absurd he.1 hr
    | cons a post =>
      simp only [List.cons_append, List.cons.injEq] at he
      obtain ⟨rfl, rfl⟩ := he
      rcases ih (KillOk.suffix (l := [.test r]) hk) post pre rfl with h1 | h1
      · simp at h1
      · exact .inr (h1.of_eq (lookKills_cons_test _ _))
  · intro s hr ih hk post pre he
    have hks : KillOk c s.tr := by
      obtain ⟨l, hl, _⟩ := (micros_killCancelled (sp := c.sp) s).tr
      rw [hl] at hk; exact hk.suffix
    obtain ⟨_, heq⟩ := killCancelled_eq hr hks
    rw [heq] at he
    obtain ⟨tr0, ht0⟩ : ∃ tr0, s.tr = .test 0 :: tr0 := by cases hr with | test e _ _ => exact ⟨_, rfl⟩
    right
    rcases append_split he with ⟨l1, l2, h1, rfl, rfl⟩ | ⟨post', rfl, he'⟩
    · have hm : Ev.test 0 ∈ (if c.sp.kill then (passEvs s.hist (killRows s.hist) (killRows s.hist)).reverse else []) := by rw [h1]; simp
      split at hm
      · rw [List.mem_reverse] at hm
        exfalso
        revert hm
        generalize killRows s.hist = l
        suffices ∀ l', Ev.test 0 ∉ passEvs s.hist l l' from this l
        intro l'
        induction l' with
        | nil => simp [passEvs]
        | cons i l' ih => simp [passEvs, ih]
      · simp at hm
    · cases post' with
      | nil =>
        have hpre : pre = tr0 := by rw [ht0] at he'; simpa using he'.symm
        subst hpre
        have hhist : histAt c.hist pre = s.hist := by rw [start_histAt hr, ht0, histAt_skip _ _ (by simp)]
        have hkl : killsOf pre = killsOf s.tr := by rw [ht0]; rfl
        have hw : WinOk s.hist := by rw [start_histAt hr]; exact start_win _ (init_win c)
        cases hkill : c.sp.kill with
        | false =>
          refine ⟨by simp [lookKills], ?_, ?_⟩
          · intro i; simp [lookKills, hkill]
          · intro to i; simp [lookKills]
        | true =>
          simp only [if_true, List.append_nil]
          refine ⟨?_, ?_, ?_⟩
          · rw [lookKills_pass, List.map_map]
            simpa [Function.comp_def] using killRows_nodup hw
          · intro i
            rw [lookKills_pass, List.map_map, hhist, hkl, ← killRows_iff hr hks]
            simp [Function.comp_def, hkill]
          · intro to i hm
            rw [lookKills_pass] at hm
            simp only [List.mem_map, Prod.mk.injEq] at hm
            obtain ⟨j, hj, rfl, rfl⟩ := hm
            obtain ⟨_, r, h1, h2⟩ := mem_killRows.mp hj
            simp only [toKill, Bool.and_eq_true, Bool.not_eq_true'] at h2
            obtain ⟨_, key, q, _, _, g3, g4⟩ := running_row hr hks h1 h2.1.1.1 h2.1.2
            have hwk : workerOf s.hist j = key := by simp [workerOf, h1, Row.worker, g4]
            rw [hwk, hhist]
            refine ⟨?_, by simp [cell, h1, g4]⟩
            obtain ⟨wk, vals, l1, l2, e1, e2, e3⟩ := g3
            cases l1 with
            | nil => rw [ht0] at e1; cases e1
            | cons a l1 =>
              rw [ht0] at e1
              simp only [List.cons_append, List.cons.injEq] at e1
              exact ⟨wk, vals, l1, l2, e1.2, e2, e3⟩
      | cons a post' =>
        have ha : a = .test 0 := by rw [ht0] at he'; simpa using congrArg List.head? he'.symm
        subst ha
        rcases ih hks _ _ he' with h1 | h1
        · simp at h1
        · exact h1.of_eq (lookKills_test ⟨.test 0, by simp, rfl⟩)

end Verif.Manager
