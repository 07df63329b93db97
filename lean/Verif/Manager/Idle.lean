import Verif.Manager.Totals
import Verif.Manager.Fine
/-!
What is left to do when no worker is busy: if workers answer orders for evaluation completely, every row that was given
has its result.
-/
namespace Verif.Manager
open Verif.History Verif.Res Verif.Sched Verif.Alloc

/-- Is the message an answer to an order for evaluation (of a function that goes on or was not persistent)? -/
def Data.simAnswer (d : Data) : Bool := !d.isFinished && decide (d.calcType = EVAL_SIM)

/-- The rows that worker `w` was told to evaluate and has not answered. -/
def openRows (w : Nat) : List Ev → List Nat
  | [] => []
  | .order to _ wk :: tr => if to = w ∧ wk.tag = EVAL_SIM then wk.rows ++ openRows w tr else openRows w tr
  | .recv to (.data d) :: tr =>
    if to = w ∧ d.simAnswer = true then (openRows w tr).filter (fun i => decide (i ∉ d.rows)) else openRows w tr
  | _ :: tr => openRows w tr

/-- Workers answer orders for evaluation completely: the message after which a worker has nothing to do contains all rows
that it was told to evaluate and has not answered before. -/
def Complete (tr : List Ev) : Prop :=
  ∀ post w d pre, tr = post ++ .recv w (.data d) :: pre → (view w (.recv w (.data d) :: pre)).busy = false →
    ∀ i ∈ openRows w pre, d.simAnswer = true ∧ i ∈ d.rows

theorem Complete.suffix {l tr : List Ev} (h : Complete (l ++ tr)) : Complete tr :=
  fun post w d pre he => h (l ++ post) w d pre (by rw [he, List.append_assoc])

/-- A worker that is not busy owes no answer. -/
theorem open_idle {tr : List Ev} (hc : Complete tr) (hx : ∀ w m, .recv w m ∈ tr → m ≠ .err) (w : Nat)
    (hb : (view w tr).busy = false) : openRows w tr = [] := by
  induction tr with
  | nil => rfl
  | cons e tr ih =>
    have ih := ih (Complete.suffix (l := [e]) hc) (fun w m hm => hx w m (List.mem_cons_of_mem _ hm))
    cases e with
    | order to key wk =>
      by_cases ht : to = w
      · subst ht
        simp only [view, View.step, if_pos] at hb
        split at hb <;> simp at hb
      · simp only [view, View.step, if_neg ht] at hb
        simp only [openRows, ht, false_and, if_false]
        exact ih hb
    | persisStop to =>
      by_cases ht : to = w
      · subst ht
        simp only [view, View.step, if_pos] at hb
        simp at hb
      · simp only [view, View.step, if_neg ht] at hb
        exact ih hb
    | recv to m =>
      by_cases ht : to = w
      · subst ht
        cases m with
        | data d =>
          simp only [openRows, true_and]
          have hcc := hc [] to d tr rfl hb
          cases ho : openRows to tr with
          | nil => simp
          | cons i l =>
            have h1 := hcc i (by rw [ho]; simp)
            rw [if_pos h1.1, ← ho, List.filter_eq_nil_iff]
            intro j hj
            simp [(hcc j hj).2]
        | err => exact absurd rfl (hx to .err List.mem_cons_self)
        | finished => simp only [view, View.step, if_pos] at hb; exact ih hb
        | log => simp only [view, View.step, if_pos] at hb; exact ih hb
      · simp only [view, View.step, if_neg ht] at hb
        cases m with
        | data d => simp only [openRows, ht, false_and, if_false]; exact ih hb
        | err => exact ih hb
        | finished => exact ih hb
        | log => exact ih hb
    | _ => exact ih hb

/-- A row given to worker `w` is still open there or was answered. -/
theorem open_or_answered {tr : List Ev} {w key i : Nat} {wk : Work} (h : .order w key wk ∈ tr) (ht : wk.tag = EVAL_SIM) (hi : i ∈ wk.rows) :
    i ∈ openRows w tr ∨ ∃ post d pre, tr = post ++ .recv w (.data d) :: pre ∧ d.simAnswer = true ∧ i ∈ d.rows := by
  induction tr with
  | nil => simp at h
  | cons e tr ih =>
    have step : .order w key wk ∈ tr → (i ∈ openRows w tr → i ∈ openRows w (e :: tr) ∨
        ∃ post d pre, e :: tr = post ++ .recv w (.data d) :: pre ∧ d.simAnswer = true ∧ i ∈ d.rows) →
        i ∈ openRows w (e :: tr) ∨ ∃ post d pre, e :: tr = post ++ .recv w (.data d) :: pre ∧ d.simAnswer = true ∧ i ∈ d.rows := by
      intro hm hs
      rcases ih hm with h1 | ⟨post, d, pre, rfl, h1⟩
      · exact hs h1
      · exact .inr ⟨e :: post, d, pre, rfl, h1⟩
    rcases List.mem_cons.mp h with rfl | h
    · left; simp [openRows, ht, hi]
    · refine step h (fun ho => ?_)
      cases e with
      | order to key' wk' =>
        left; simp only [openRows]; split
        · exact List.mem_append_right _ ho
        · exact ho
      | recv to m =>
        cases m with
        | data d =>
          simp only [openRows]
          split
          · rename_i hc
            by_cases hd : i ∈ d.rows
            · obtain ⟨rfl, hc⟩ := hc
              exact .inr ⟨[], d, tr, rfl, hc, hd⟩
            · left; exact List.mem_filter.mpr ⟨ho, by simpa using hd⟩
          · exact .inl ho
        | err => exact .inl ho
        | finished => exact .inl ho
        | log => exact .inl ho
      | _ => exact .inl ho

variable {sp : Specs} {P : St → Reply → Prop} {s0 : St}

theorem failure_exc {tr ws} (h : Later (excF ws) tr) (hn : hasExc tr = false) {w m} (hm : .recv w m ∈ tr) : m.failure = false := by
  obtain ⟨post, pre, he⟩ := List.append_of_mem hm
  refine Bool.eq_false_iff.mpr (fun hf => ?_)
  have := h post _ pre he hf
  rw [he, hasExc_append, Bool.or_eq_false_iff] at hn
  rcases this with h1 | ⟨p, rfl⟩
  · have h2 := hn.2
    rw [show Ev.recv w m :: pre = [Ev.recv w m] ++ pre from rfl, hasExc_append, h1] at h2
    simp at h2
  · have h2 := hn.1
    rw [hasExc_append] at h2
    simp [hasExc] at h2

/-- Orders go to workers of the table. -/
theorem Reach.toWorkers {p : Ph} {s : St} (h : Reach sp P s0 p s) (h0 : VI sp s0) (hf0 : Manager.hasFinal s0.tr = false)
    (hp0 : s0.pending = []) (ht0 : s0.tr = []) (hp : p.going = true) :
    ∀ to key wk, Ev.order to key wk ∈ s.tr → to ∈ ids s0 := by
  have hmic : ∀ {a b : St} {Q : Ev → Prop}, Micros sp Q a b → (∀ to key wk, ¬ Q (.order to key wk)) →
      (∀ to key wk, Ev.order to key wk ∈ a.tr → to ∈ ids s0) → ∀ to key wk, Ev.order to key wk ∈ b.tr → to ∈ ids s0 := by
    intro a b Q hm hq ha to key wk he
    obtain ⟨l, hl, hle⟩ := hm.tr
    rw [hl] at he
    rcases List.mem_append.mp he with he | he
    · exact absurd (hle _ he) (hq to key wk)
    · exact ha to key wk he
  induction h with
  | init => intro to key wk h; rw [ht0] at h; simp at h
  | test e _ _ ih =>
    intro to key wk h
    simp only [emit, List.mem_cons, reduceCtorEq, false_or] at h
    exact ih rfl to key wk h
  | kill _ _ ih => exact hmic (micros_killCancelled _) (fun _ _ _ h => by cases h) (ih rfl)
  | mail w m t _ _ _ ih => exact hmic (micros_handleMsg _ w m t) (fun _ _ _ h => by cases h) (ih rfl)
  | save _ ih => exact hmic (micros_saveK (Q := fun _ => False) _ _) (fun _ _ _ h => h) (ih rfl)
  | allocOk cs work p t _ _ ih =>
    intro to key wk h
    simp only [doOp, List.mem_cons, reduceCtorEq, false_or] at h
    exact ih rfl to key wk h
  | give hr _ he ih =>
    obtain ⟨_, k, wk', l0, l, hG, _⟩ := handOut_ok he
    have hv := (hr.vi h0 hf0 hp0 rfl).1
    intro to key wk h
    rw [hG.tr] at h
    have hl : ∀ e ∈ l, ∀ to key wk, e ≠ Ev.order to key wk := by
      intro e he
      rw [hG.after] at he
      split at he
      · simp at he
      · simp only [List.mem_singleton] at he; subst he; simp
    have hl0 : ∀ e ∈ l0, ∀ to key wk, e ≠ Ev.order to key wk := by
      intro e he
      rcases hG.before with h | ⟨team, h, _⟩
      · rw [h] at he; simp at he
      · rw [h, List.mem_singleton] at he; subst he; simp
    rcases List.mem_append.mp h with h | h
    · split at h <;> simp at h
    · rcases List.mem_append.mp h with h | h
      · exact absurd rfl (hl _ h to key wk)
      · rcases List.mem_cons.mp h with h | h
        · injection h with h1 h2 h3
          rw [← hr.micros.ids, h1]
          exact (mem_ids hv.tab).mpr ⟨k, wPos_lt hG.pos, rfl⟩
        · rcases List.mem_append.mp h with h | h
          · exact absurd rfl (hl0 _ h to key wk)
          · exact ih rfl to key wk h
  | again _ _ _ ih => exact ih rfl
  | _ => simp [Ph.going] at hp

theorem Ph.going_main {p : Ph} (h : p.going = true) : p.main = true ∧ p.clean = true ∧ p.fine = true ∧ p ≠ .over (.raised .worker) := by
  cases p <;> simp_all [Ph.going, Ph.main, Ph.clean, Ph.fine]

/-- If no worker is busy, every row that was given has its result. -/
theorem given_back {c : Start} {p : Ph} {s : St} (h : Reach c.sp P c.st p s) (hp : p.going = true) (hc : Complete s.tr)
    (ha : anyActive s = false) : ∀ i ∈ simGiven s.tr, i ∈ simBack s.tr := by
  obtain ⟨h1, h2, h3, h4⟩ := Ph.going_main hp
  have hv := (h.vi start_vi rfl rfl h2).1
  have hx : hasExc s.tr = false := by rw [← hv.exc]; exact h.noExc rfl h1 h4
  have hf : ∀ w m, .recv w m ∈ s.tr → m.failure = false := fun w m hm => failure_exc (h.excF start_tr rfl) hx hm
  intro i hi
  simp only [simGiven, List.mem_flatMap] at hi
  obtain ⟨e, he, hi⟩ := hi
  cases e with
  | order to key wk =>
    simp only [simRowsOf] at hi
    split at hi
    · rename_i ht
      have hto := h.toWorkers start_vi rfl rfl start_tr hp to key wk he
      rw [← h.micros.ids] at hto
      obtain ⟨k, hk, rfl⟩ := (mem_ids hv.tab).mp hto
      have hb : (view (idAt c.sp k) s.tr).busy = false := by
        have := (hv.agree k s.W[k] (List.getElem?_eq_getElem hk)).busy
        rw [this]
        simp only [anyActive, List.any_eq_false, decide_eq_true_eq] at ha
        simpa using ha _ (List.getElem_mem hk)
      rcases open_or_answered he ht hi with h5 | ⟨post, d, pre, h5, h6, h7⟩
      · rw [open_idle hc (fun w m hm hme => by have := hf w m hm; rw [hme] at this; simp [Msg.failure] at this) _ hb] at h5
        simp at h5
      · have hd := hf (idAt c.sp k) (.data d) (by rw [h5]; simp)
        simp only [Data.simAnswer, Bool.and_eq_true, Bool.not_eq_true', decide_eq_true_eq] at h6
        simp only [Msg.failure, h6.1, Bool.not_false, Bool.true_and] at hd
        have hnf : d.calcStatus ≠ FINISHED_PERSISTENT_GEN ∧ d.calcStatus ≠ FINISHED_PERSISTENT_SIM := by
          have := h6.1
          simp only [Data.isFinished, Bool.or_eq_false_iff, decide_eq_false_iff_not] at this
          exact ⟨this.2, this.1⟩
        obtain ⟨o, post', h8, h9⟩ := h.recF start_tr post _ pre h5 (by
          simp only [Msg.results, if_neg hnf.1, if_neg hnf.2, h6.2, hd]
          simp)
        cases o with
        | simReturn rows r t kk =>
          simp only [simBack, List.mem_flatMap]
          refine ⟨.op (.simReturn rows r t kk), by rw [h5, h8]; simp, ?_⟩
          simp only [simBackOf]
          rw [h9.2.1]; exact h7
        | genReturn w' r ts t =>
          have h10 := h9.1
          simp only [Data.isGen, h6.1, h6.2] at h10
          simp [hnf.1, EVAL_SIM, EVAL_GEN] at h10
        | _ => simp [Records] at h9
    · simp at hi
  | _ => simp [simRowsOf] at hi

/-! ### Recorded rows are marked -/

theorem simRows_marks (t : Int) (d : Option Rec) (j : Nat) (inds : List Nat) (h : Hist)
    (hg : h.safeMode = true ∨ ∀ d', d = some d' → d'.polite) (hok : (History.simRows t d j inds h).2 = none) :
    ∀ i ∈ inds, flagAt (History.simRows t d j inds h).1.rows .simEnded i = true := by
  induction inds generalizing j h with
  | nil => simp
  | cons k inds ih =>
    unfold History.simRows at hok ⊢
    split at hok
    · simp at hok
    · rename_i r hr
      have hk : k < h.rows.length := (List.getElem?_eq_some_iff.mp hr).1
      split at hok
      · simp at hok
      · rename_i r' hw
        intro i hi
        rcases List.mem_cons.mp hi with rfl | hi
        · obtain ⟨n, _, h2⟩ := simRows_total t d (j + 1) inds { h with
            rows := h.rows.set i ((r'.set .simEnded (.s 1)).set .simEndedTime (.s t))
            simEndedCount := h.simEndedCount + 1 } hg
          rw [h2 i, flagAt_set _ _ _ _ _ hk]
          simp [Row.flag, Row.set]
        · exact ih (j + 1) { h with
            rows := h.rows.set k ((r'.set .simEnded (.s 1)).set .simEndedTime (.s t))
            simEndedCount := h.simEndedCount + 1 } hg hok i hi

theorem simReturn_marks (h : Hist) (rows : List Nat) (d : Option Rec) (t : Int) (k : Bool)
    (hg : Guarded h (.simReturn rows d t k)) (hok : (apply h (.simReturn rows d t k)).2 = none) :
    ∀ i ∈ rows, flagAt (apply h (.simReturn rows d t k)).1.rows .simEnded i = true := by
  have hg' : (preSim h d).safeMode = true ∨ ∀ d', d = some d' → d'.polite := by
    rcases hg with hs | hp
    · left; rw [safe_preSim]; exact hs
    · right; intro d' hd; subst hd; exact hp
  simp only [apply] at hok ⊢
  unfold updateF at hok ⊢
  have key := simRows_marks t d 0 rows (preSim h d) hg'
  generalize History.simRows t d 0 rows (preSim h d) = x at *
  obtain ⟨h', e⟩ := x
  cases e with
  | some e => simp at hok
  | none =>
    simp only at hok ⊢
    have := key rfl
    split
    · split <;> exact this
    · exact this

/-- The updates recorded without error, one after the other. -/
theorem fine_op {h0 : Hist} {tr : List Ev} {h1 : Hist} (hf : History.run h0 (opsOf tr) = (h1, none)) {post pre : List Ev} {o : Op}
    (he : tr = post ++ .op o :: pre) : (apply (histAt h0 pre) o).2 = none := by
  have hsp : opsOf tr = opsOf pre ++ ([o] ++ opsOf post) := by
    rw [he, opsOf_append, opsOf_cons]; simp
  rw [hsp, hrun_append] at hf
  split at hf
  · rename_i hn
    rw [hrun_append] at hf
    have hpre : (History.run h0 (opsOf pre)).1 = histAt h0 pre := by
      have gen : ∀ (l : List Op) (h : Hist), (History.run h l).2 = none → (History.run h l).1 = applyAll h l := by
        intro l
        induction l with
        | nil => intro h _; rfl
        | cons o l ih =>
          intro h hn
          simp only [History.run] at hn ⊢
          split at hn
          · simp at hn
          · rename_i h' hx
            rw [ih h' hn]
            simp [applyAll, hx]
      exact gen _ _ hn
    rw [hpre] at hf
    split at hf
    · rename_i hn2
      simp only [History.run] at hn2
      split at hn2
      · simp at hn2
      · rename_i hx; rw [hx]
    · rename_i hn2
      exfalso
      rw [hf] at hn2
      exact hn2 rfl
  · rename_i hn
    exfalso
    rw [hf] at hn
    exact hn rfl

/-- If no worker is busy, every row that was given is ended. -/
theorem given_ended {c : Start} (hstd : c.Std) {p : Ph} {s : St} (h : Reach c.sp P c.st p s) (hp : p.going = true) (hc : Complete s.tr)
    (hprot : c.Protected s.tr) (ha : anyActive s = false) {i : Nat} (hi : i ∈ simGiven s.tr) : flagAt s.hist.rows .simEnded i = true := by
  have hk := start_kept h hprot
  have hh := start_histAt h
  have hb := given_back h hp hc ha i hi
  simp only [simBack, List.mem_flatMap] at hb
  obtain ⟨e, hm, hib⟩ := hb
  cases e with
  | op o =>
    cases o with
    | simReturn rows d t k =>
      simp only [simBackOf] at hib
      obtain ⟨post, pre, he⟩ := List.append_of_mem hm
      have hfine := h.fine start_tr (Ph.going_main hp).2.2.1
      have hok := fine_op (h0 := c.hist) hfine he
      have hg : Guarded (histAt c.hist pre) (.simReturn rows d t k) := guarded_at (by rw [he] at hk; exact hk.suffix)
      have h5 := simReturn_marks _ _ _ _ _ hg hok i hib
      rw [← histAt_op] at h5
      have h6 := flag_stays hstd (.inr rfl) (l := post) (by rw [← he]; exact hk) h5
      rw [hh, he]; exact h6
    | _ => simp [simBackOf] at hib
  | _ => simp [simBackOf] at hib

/-- If no worker is busy, every started row is ended; rows that were started and not ended before the run are the exception. -/
theorem idle_ended {c : Start} (hstd : c.Std) {p : Ph} {s : St} (h : Reach c.sp P c.st p s) (hp : p.going = true) (hc : Complete s.tr)
    (hprot : c.Protected s.tr) (h0 : ∀ r ∈ c.hist.rows, r.flag .simStarted = true → r.flag .simEnded = true)
    (ha : anyActive s = false) {i : Nat} (hi : flagAt s.hist.rows .simStarted i = true) : flagAt s.hist.rows .simEnded i = true := by
  have hk := start_kept h hprot
  have hh := start_histAt h
  by_cases hz : flagAt c.hist.rows .simStarted i = true
  · have he : flagAt c.hist.rows .simEnded i = true := by
      simp only [flagAt, Option.any_eq_true] at hz ⊢
      obtain ⟨r, hr, hr2⟩ := hz
      exact ⟨r, hr, h0 r (List.mem_of_getElem? hr) hr2⟩
    have := flag_stays hstd (.inr rfl) (tr := []) (l := s.tr) (by simpa using hk) he
    rw [List.append_nil, ← hh] at this
    exact this
  · rw [hh] at hi
    rw [flagAt_cell, Option.any_eq_true] at hi
    obtain ⟨v, hv, hne⟩ := hi
    have hz' : ∀ x, cell c.hist.rows i .simStarted = some x → x = .s 0 := by
      intro x hx
      rw [flagAt_cell, hx] at hz
      simpa using hz
    obtain ⟨po, pr, o, he2, _, hcase⟩ := flag_set hstd hk .simStarted (.inl rfl) hz' hv (by simpa using hne)
    rcases hcase with ⟨_, rows, w, t, k, rfl, hir⟩ | ⟨h1, _⟩
    · obtain ⟨q, _, hsent⟩ := giveSim_sent (h.givF (h0 := c.hist) start_tr rfl) (rows := rows) (key := w) (t := t) (k := k) (by rw [he2]; simp) hir
      exact given_ended hstd h hp hc hprot ha hsent.given
    · cases h1

/-- If no worker is busy and all rows that may be given have been given, enough results are there. -/
theorem idle_simMax {c : Start} {p : Ph} {s : St} (h : Reach c.sp P c.st p s) (hp : p.going = true) (hc : Complete s.tr)
    (hn : (simGiven s.tr).Nodup) (ha : anyActive s = false) (hg : simMaxGiven c.sp s.hist = true) : simTest c.sp s.hist = true := by
  have h1 := h.started start_started hp
  have h2 := h.ended start_ended hp
  have h3 : (simGiven s.tr).length ≤ (simBack s.tr).length := by
    refine List.Nodup.length_le_of_subset hn (fun i hi => given_back h hp hc ha i hi)
  have o1 : s.hist.simStartedOffset = c.hist.simStartedOffset := by
    rw [start_histAt h]; exact histAt_inv (I := fun h => h.simStartedOffset = c.hist.simStartedOffset) (fun h o hi => by rw [← hi]; exact (apply_offsets h o).1) rfl _
  have o2 : s.hist.simEndedOffset = c.hist.simEndedOffset := by
    rw [start_histAt h]; exact histAt_inv (I := fun h => h.simEndedOffset = c.hist.simEndedOffset) (fun h o hi => by rw [← hi]; exact (apply_offsets h o).2.1) rfl _
  simp only [StartedOk, EndedOk] at h1 h2
  simp only [simMaxGiven, simTest] at hg ⊢
  cases hm : c.sp.simMax with
  | none => rw [hm] at hg; simp at hg
  | some m =>
    rw [hm] at hg
    simp only [decide_eq_true_eq] at hg ⊢
    omega

end Verif.Manager
