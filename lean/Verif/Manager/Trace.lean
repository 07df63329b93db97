import Verif.Manager.Ckpt
import Verif.Manager.Recorded
import Verif.History.Polite
/-
The cells of the history as functions of the record of a run.
-/
namespace Verif.Manager
open Verif.History Verif.Res Verif.Sched Verif.Alloc

/-- No user function returns a protected field (history.py:57-70) in the record. -/
def Polite (tr : List Ev) : Prop := ∀ w d r, .recv w (.data d) ∈ tr → d.out = .arr r → r.polite

/-- Protected fields are safe from user functions: safe mode, or nobody returns such a field. -/
def Start.Protected (c : Start) (tr : List Ev) : Prop := c.safe = true ∨ Polite tr

/-- The columns of the history include those of libEnsemble, each with one number per row. -/
structure Start.Std (c : Start) : Prop where
  has : HasLibCols c.cols
  sc : LibScalar c.cols
  sc0 : LibScalar c.H0.cols

theorem Polite.suffix {l tr : List Ev} (h : Polite (l ++ tr)) : Polite tr :=
  fun w d r hm ho => h w d r (List.mem_append_right _ hm) ho

theorem Start.Protected.suffix {c : Start} {l tr : List Ev} (h : c.Protected (l ++ tr)) : c.Protected tr :=
  h.imp id Polite.suffix

/-- All recorded updates of the history keep to the protected fields. -/
def OpsOk (c : Start) (tr : List Ev) : Prop := ∀ o, .op o ∈ tr → c.safe = true ∨ o.polite

theorem OpsOk.suffix {c : Start} {l tr : List Ev} (h : OpsOk c (l ++ tr)) : OpsOk c tr :=
  fun o ho => h o (List.mem_append_right _ ho)

theorem start_kept {c : Start} {P : St → Reply → Prop} {p : Ph} {s : St} (h : Reach c.sp P c.st p s) (hp : c.Protected s.tr) :
    OpsOk c s.tr := by
  intro o ho
  rcases hp with hp | hp
  · exact .inl hp
  · right
    obtain ⟨post, pre, he⟩ := List.append_of_mem ho
    have h1 := h.recF start_tr post (.op o) pre he
    by_cases hr : isResult o = true
    · obtain ⟨w, m, pre', rfl, h2, _⟩ := h1 hr
      cases m with
      | data d =>
        have hm : Ev.recv w (.data d) ∈ s.tr := by rw [he]; simp
        cases o with
        | simReturn rows r t k =>
          cases r with
          | none => trivial
          | some r =>
            refine hp w d r hm ?_
            have h3 := h2.2
            cases ho : d.out <;> simp [ho, Out.array] at h3
            rw [h3.2]
        | genReturn w' r ts t =>
          refine hp w d r hm ?_
          have h3 := h2.2
          cases ho : d.out <;> simp [ho, Out.array] at h3
          rw [h3.2]
        | _ => trivial
      | _ => exact absurd h2 (by simp [Records])
    · cases o <;> simp [isResult] at hr <;> trivial

theorem histAt_nil (h0 : Hist) : histAt h0 [] = h0 := rfl

theorem histAt_op (h0 : Hist) (o : Op) (tr : List Ev) : histAt h0 (.op o :: tr) = (apply (histAt h0 tr) o).1 := by
  simp [histAt, opsOf_cons, applyAll, List.foldl_append]

theorem histAt_skip (h0 : Hist) {e : Ev} (tr : List Ev) (h : ∀ o, e ≠ .op o) : histAt h0 (e :: tr) = histAt h0 tr := by
  cases e <;> simp [histAt, opsOf_cons] at h ⊢

theorem start_histAt {c : Start} {P : St → Reply → Prop} {p : Ph} {s : St} (h : Reach c.sp P c.st p s) : s.hist = histAt c.hist s.tr :=
  start_hist h

theorem histAt_inv {h0 : Hist} {I : Hist → Prop} (hI : ∀ h o, I h → I (apply h o).1) (h1 : I h0) (tr : List Ev) : I (histAt h0 tr) := by
  induction tr with
  | nil => exact h1
  | cons e tr ih =>
    by_cases h : ∃ o, e = .op o
    · obtain ⟨o, rfl⟩ := h
      rw [histAt_op]; exact hI _ _ ih
    · rw [histAt_skip _ _ (fun o ho => h ⟨o, ho⟩)]; exact ih

theorem histAt_safe (c : Start) (tr : List Ev) : (histAt c.hist tr).safeMode = c.safe :=
  histAt_inv (I := fun h => h.safeMode = c.safe) (fun h o hi => (apply_struct h o).1.trans hi) (init_safe _ _ _ _) tr

theorem histAt_has {c : Start} (hc : c.Std) (tr : List Ev) : ∀ f ∈ libEFields, f ∈ (histAt c.hist tr).fields :=
  histAt_inv (I := fun h => ∀ f ∈ libEFields, f ∈ h.fields) (fun h o hi f hf => (apply_struct h o).2.2.2 f (hi f hf))
    (init_cols_lib _ _ _ _ hc.has) tr

theorem Start.Std.lib {c : Start} (hc : c.Std) : LibInv c.hist := init_lib _ _ _ _ hc.has hc.sc hc.sc0

theorem histAt_lib {c : Start} (hc : c.Std) (tr : List Ev) : LibInv (histAt c.hist tr) :=
  histAt_inv (I := LibInv) (fun _ o hi => apply_lib hi o) hc.lib tr

theorem histAt_length (h0 : Hist) (l tr : List Ev) : (histAt h0 tr).rows.length ≤ (histAt h0 (l ++ tr)).rows.length := by
  induction l with
  | nil => exact Nat.le_refl _
  | cons e l ih =>
    by_cases h : ∃ o, e = .op o
    · obtain ⟨o, rfl⟩ := h
      rw [List.cons_append, histAt_op]; exact Nat.le_trans ih (apply_struct _ o).2.1
    · rw [List.cons_append, histAt_skip _ _ (fun o ho => h ⟨o, ho⟩)]; exact ih

/-- One update of the history on a protected field. -/
theorem histAt_step {c : Start} (hc : c.Std) {o : Op} {tr : List Ev} (hk : OpsOk c (.op o :: tr)) (g : Field) (hg : g ∈ protectedFields)
    (i : Nat) (hi : i < (histAt c.hist tr).rows.length) :
    cell (histAt c.hist (.op o :: tr)).rows i g = cell (histAt c.hist tr).rows i g ∨
    ProtectedChange (histAt c.hist tr) (apply (histAt c.hist tr) o).1 (apply (histAt c.hist tr) o).2 g i o := by
  rw [histAt_op]
  refine apply_protected' _ o ?_ g hg (histAt_has hc tr) i hi
  rcases hk o List.mem_cons_self with h | h
  · exact .inl (by rw [histAt_safe]; exact h)
  · exact .inr h

/-- Flags that are only ever set. -/
def stickyFields : List Field := [.simStarted, .simEnded, .killSent, .genInformed]

/-- A flag that is set stays set. -/
theorem sticky {c : Start} (hc : c.Std) {g : Field} (hg : g ∈ stickyFields) {l tr : List Ev} (hk : OpsOk c (l ++ tr)) {i : Nat}
    (h : cell (histAt c.hist tr).rows i g = some (.s 1)) : cell (histAt c.hist (l ++ tr)).rows i g = some (.s 1) := by
  have hp : g ∈ protectedFields := by
    simp only [stickyFields, List.mem_cons, List.not_mem_nil, or_false] at hg
    rcases hg with rfl | rfl | rfl | rfl <;> simp [protectedFields]
  induction l with
  | nil => exact h
  | cons e l ih =>
    have ih := ih (OpsOk.suffix (l := [e]) hk)
    by_cases ho : ∃ o, e = .op o
    · obtain ⟨o, rfl⟩ := ho
      have hi : i < (histAt c.hist (l ++ tr)).rows.length := by
        simp only [cell] at ih
        rcases Nat.lt_or_ge i (histAt c.hist (l ++ tr)).rows.length with h1 | h1
        · exact h1
        · rw [List.getElem?_eq_none h1] at ih
          simp at ih
      rcases histAt_step (tr := l ++ tr) hc hk g hp i hi with h1 | h1
      · rw [List.cons_append, h1]; exact ih
      · rw [List.cons_append, histAt_op]
        simp only [stickyFields, List.mem_cons, List.not_mem_nil, or_false] at hg
        cases o with
        | simReturn inds d t k =>
          obtain ⟨_, ⟨_, h2⟩ | ⟨h2, _⟩⟩ := h1
          · exact h2
          · subst h2; simp at hg
        | giveSim inds w t k =>
          obtain ⟨_, ⟨_, h2⟩ | ⟨h2, _⟩ | ⟨h2, _⟩⟩ := h1
          · exact h2
          · subst h2; simp at hg
          · subst h2; simp at hg
        | giveGen inds t =>
          obtain ⟨_, ⟨_, _, h2⟩ | ⟨h2, _⟩⟩ := h1
          · exact h2
          · subst h2; simp at hg
        | genReturn w d ts t =>
          obtain ⟨_, _, ⟨h2, _⟩ | ⟨h2, _⟩ | ⟨h2, _⟩⟩ := h1 <;> (subst h2; simp at hg)
        | requestCancel rows => exact h1.elim
        | markKill inds => exact h1.2.2
    · rw [List.cons_append, histAt_skip _ _ (fun o hh => ho ⟨o, hh⟩)]; exact ih

/-- A row handed out is marked. -/
theorem giveSim_cells (h : Hist) (rows : List Nat) (w : Nat) (t : Int) (k : Bool) (hr : ∀ i ∈ rows, i < h.rows.length) {i : Nat}
    (hi : i ∈ rows) : cell (apply h (.giveSim rows w t k)).1.rows i .simStarted = some (.s 1) ∧
      cell (apply h (.giveSim rows w t k)).1.rows i .simWorker = some (.s w) := by
  have hlt := hr i hi
  have hf : ¬ (rows.any fun i => decide (h.rows.length ≤ i)) = true := by
    simp only [List.any_eq_true, decide_eq_true_eq, not_exists, not_and]
    intro j hj; have := hr j hj; omega
  have key : (apply h (.giveSim rows w t k)).1.rows = updAll (fun r => ((r.set .simStarted (.s 1)).set .simStartedTime (.s t)).set
        .simWorker (.s w)) h.rows rows := by
    simp only [apply]
    rw [updateXOut, if_neg hf]
    cases k
    · rfl
    · simp only [if_true]; cases rows.isEmpty <;> rfl
  rw [key]
  exact ⟨get_updAll_const _ _ _ (by intro r; simp [Row.set]) _ _ _ hlt hi, get_updAll_const _ _ _ (by intro r; simp [Row.set]) _ _ _ hlt hi⟩

end Verif.Manager
