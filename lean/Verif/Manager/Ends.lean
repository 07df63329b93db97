import Verif.Manager.PropsStall
import Verif.Manager.PropsHist2
/-!
Orders and answers are counted: with `sim_max` and workers that answer each order once, only a bounded number of answers
reaches the manager.
-/
namespace Verif.Manager
open Verif.History Verif.Res Verif.Sched Verif.Alloc

/-! ### What the record of a run says about orders and answers -/

/-- The kind of order that worker `w` has been sent and has not answered. -/
def owes (w : Nat) : List Ev → Option Nat
  | [] => none
  | .order to _ wk :: tr => if to = w then some wk.tag else owes w tr
  | .recv to (.data _) :: tr => if to = w then none else owes w tr
  | _ :: tr => owes w tr

/-- Workers answer each order once: every message with data answers an order of its kind that was not answered before, and
it is the end of the calculation (nothing intermediate, no persistent function). -/
def Answers (tr : List Ev) : Prop :=
  ∀ post w d pre, tr = post ++ .recv w (.data d) :: pre →
    owes w pre = some d.calcType ∧ d.isFinished = false ∧ d.keepState = false ∧ d.persistent = false

/-- Every message with data answers an order of its kind that was not answered before, and is not intermediate. -/
def Replies (tr : List Ev) : Prop :=
  ∀ post w d pre, tr = post ++ .recv w (.data d) :: pre → owes w pre = some d.calcType ∧ d.keepState = false

theorem Answers.replies {tr : List Ev} (h : Answers tr) : Replies tr :=
  fun post w d pre he => ⟨(h post w d pre he).1, (h post w d pre he).2.2.1⟩

/-- Every message of a generator brings at least one point. -/
def Productive (tr : List Ev) : Prop :=
  ∀ w d, .recv w (.data d) ∈ tr → d.calcType = EVAL_GEN → ∃ r, d.out = .arr r ∧ r.rows ≠ []

/-- Is the event an answer to an order of kind `k`? -/
def isAnswer (k : Nat) : Ev → Bool
  | .recv _ (.data d) => decide (d.calcType = k)
  | _ => false

/-- Is the event an order of kind `k`? -/
def isOrder (k : Nat) : Ev → Bool
  | .order _ _ wk => decide (wk.tag = k)
  | _ => false

/-- The answers to orders of kind `k` in the record. -/
def answerCount (k : Nat) (tr : List Ev) : Nat := tr.countP (isAnswer k)

/-- Row `i` was cancelled before it was given. -/
def CancelledFirst (c : Start) (tr : List Ev) (i : Nat) : Prop :=
  ∃ post pre, tr = post ++ pre ∧ flagAt (histAt c.hist pre).rows .cancelRequested i = true ∧ i ∉ simGiven pre

theorem Answers.suffix {l tr : List Ev} (h : Answers (l ++ tr)) : Answers tr :=
  fun post w d pre he => h (l ++ post) w d pre (by rw [he, List.append_assoc])

theorem Replies.suffix {l tr : List Ev} (h : Replies (l ++ tr)) : Replies tr :=
  fun post w d pre he => h (l ++ post) w d pre (by rw [he, List.append_assoc])

theorem owes_order {w k : Nat} {tr : List Ev} (h : owes w tr = some k) : ∃ key wk, .order w key wk ∈ tr := by
  induction tr with
  | nil => simp [owes] at h
  | cons e tr ih =>
    have up : (∃ key wk, Ev.order w key wk ∈ tr) → ∃ key wk, Ev.order w key wk ∈ e :: tr :=
      fun ⟨key, wk, hm⟩ => ⟨key, wk, List.mem_cons_of_mem _ hm⟩
    cases e with
    | order to key wk =>
      simp only [owes] at h
      split at h
      · rename_i ht; subst ht; exact ⟨key, wk, List.mem_cons_self⟩
      · exact up (ih h)
    | recv to m =>
      cases m with
      | data d =>
        simp only [owes] at h
        split at h
        · simp at h
        · exact up (ih h)
      | _ => exact up (ih h)
    | _ => exact up (ih h)

theorem countP_drop {ws : List Nat} {f g : Nat → Bool} {w : Nat} (hm : w ∈ ws) (hf : f w = true) (hg : g w = false)
    (hle : ∀ x, g x = true → f x = true) : ws.countP g + 1 ≤ ws.countP f := by
  induction ws with
  | nil => simp at hm
  | cons x ws ih =>
    have hmono : ws.countP g ≤ ws.countP f := List.countP_mono_left (fun x _ => hle x)
    rcases List.mem_cons.mp hm with rfl | hm
    · rw [List.countP_cons_of_neg (by simp [hg]), List.countP_cons_of_pos hf]; omega
    · have := ih hm
      by_cases hgx : g x = true
      · rw [List.countP_cons_of_pos hgx, List.countP_cons_of_pos (hle x hgx)]; omega
      · rw [List.countP_cons_of_neg hgx]
        by_cases hfx : f x = true
        · rw [List.countP_cons_of_pos hfx]; omega
        · rw [List.countP_cons_of_neg hfx]; omega

/-- The workers of `ws` that owe an answer to an order of kind `k`. -/
def owing (ws : List Nat) (k : Nat) (tr : List Ev) : Nat := ws.countP fun w => decide (owes w tr = some k)

/-- An answer takes one worker out of those that owe one. -/
theorem owing_answer {ws : List Nat} {k w : Nat} {d : Data} {tr : List Ev} (hw : ∀ w key wk, .order w key wk ∈ tr → w ∈ ws)
    (ho : owes w tr = some d.calcType) :
    answerCount k (.recv w (.data d) :: tr) + owing ws k (.recv w (.data d) :: tr) ≤ answerCount k tr + owing ws k tr := by
  simp only [answerCount, List.countP_cons, isAnswer, decide_eq_true_eq]
  have hle : ∀ x, decide (owes x (.recv w (.data d) :: tr) = some k) = true → decide (owes x tr = some k) = true := by
    intro x hx
    have hx := of_decide_eq_true hx
    refine decide_eq_true ?_
    simp only [owes] at hx
    split at hx
    · simp at hx
    · exact hx
  split
  · rename_i hk
    obtain ⟨key, wk, hm⟩ := owes_order ho
    have := countP_drop (ws := ws) (f := fun w => decide (owes w tr = some k)) (g := fun x => decide (owes x (.recv w (.data d) :: tr) = some k))
      (hw w key wk hm) (by simp [ho, hk]) (by simp [owes]) hle
    simp only [owing]
    omega
  · have : owing ws k (.recv w (.data d) :: tr) ≤ owing ws k tr := List.countP_mono_left (fun x _ => hle x)
    omega

theorem owing_other {ws : List Nat} {k : Nat} {e : Ev} {tr : List Ev} (h1 : ∀ to key wk, e ≠ .order to key wk) (h2 : ∀ w d, e ≠ .recv w (.data d)) :
    answerCount k (e :: tr) = answerCount k tr ∧ owing ws k (e :: tr) = owing ws k tr := by
  have h3 : ∀ w, owes w (e :: tr) = owes w tr := by
    intro w
    cases e with
    | order to key wk => exact absurd rfl (h1 to key wk)
    | recv to m =>
      cases m with
      | data d => exact absurd rfl (h2 to d)
      | _ => rfl
    | _ => rfl
  refine ⟨?_, by simp only [owing, h3]⟩
  simp only [answerCount, List.countP_cons]
  have : isAnswer k e = false := by
    cases e with
    | recv to m =>
      cases m with
      | data d => exact absurd rfl (h2 to d)
      | _ => rfl
    | _ => rfl
  rw [this]; simp

/-- If there were at most `B` answers of kind `k` whenever an order of that kind was given, there are never more than `B` and one for
each worker. -/
theorem answers_le {ws : List Nat} {k B : Nat} (tr : List Ev) (ha : Replies tr) (hw : ∀ w key wk, .order w key wk ∈ tr → w ∈ ws)
    (hB : Always (onOrder fun pre _ _ wk => wk.tag = k → answerCount k pre ≤ B) tr) :
    answerCount k tr + owing ws k tr ≤ B + ws.length := by
  induction tr with
  | nil =>
    have : owing ws k [] ≤ ws.length := List.countP_le_length
    simp only [answerCount, List.countP_nil]; omega
  | cons e tr ih =>
    obtain ⟨h1, h2⟩ := always_cons.mp hB
    have ih := ih (Replies.suffix (l := [e]) ha) (fun w key wk hm => hw w key wk (List.mem_cons_of_mem _ hm)) h2
    by_cases ho : ∃ to key wk, e = .order to key wk
    · obtain ⟨to, key, wk, rfl⟩ := ho
      have hc : answerCount k (.order to key wk :: tr) = answerCount k tr := by simp [answerCount, isAnswer]
      rw [hc]
      by_cases hk : wk.tag = k
      · have := h1 hk
        have h3 : owing ws k (.order to key wk :: tr) ≤ ws.length := List.countP_le_length
        omega
      · have h3 : owing ws k (.order to key wk :: tr) ≤ owing ws k tr := by
          refine List.countP_mono_left (fun x _ hx => ?_)
          have hx := of_decide_eq_true hx
          refine decide_eq_true ?_
          simp only [owes] at hx
          split at hx
          · simp only [Option.some.injEq] at hx; exact absurd hx hk
          · exact hx
        omega
    · by_cases hd : ∃ w d, e = .recv w (.data d)
      · obtain ⟨w, d, rfl⟩ := hd
        have h3 := owing_answer (k := k) (ws := ws) (fun w key wk hm => hw w key wk (List.mem_cons_of_mem _ hm)) (ha [] w d tr rfl).1
        omega
      · obtain ⟨h3, h4⟩ := owing_other (ws := ws) (k := k) (tr := tr) (fun to key wk h => ho ⟨to, key, wk, h⟩) (fun w d h => hd ⟨w, d, h⟩)
        omega

/-- There are no more answers of kind `k` than orders. -/
theorem answers_orders {ws : List Nat} {k : Nat} (hnd : ws.Nodup) (tr : List Ev) (ha : Replies tr)
    (hw : ∀ w key wk, .order w key wk ∈ tr → w ∈ ws) : answerCount k tr + owing ws k tr ≤ tr.countP (isOrder k) := by
  induction tr with
  | nil => simp [answerCount, owing, owes]
  | cons e tr ih =>
    have ih := ih (Replies.suffix (l := [e]) ha) (fun w key wk hm => hw w key wk (List.mem_cons_of_mem _ hm))
    by_cases ho : ∃ to key wk, e = .order to key wk
    · obtain ⟨to, key, wk, rfl⟩ := ho
      have hc : answerCount k (.order to key wk :: tr) = answerCount k tr := by simp [answerCount, isAnswer]
      rw [hc]
      simp only [List.countP_cons, isOrder, decide_eq_true_eq]
      split
      · have h3 : owing ws k (.order to key wk :: tr) ≤ owing ws k tr + 1 := by
          refine countP_le_one hnd _ _ to (fun x hx => ?_)
          simp only [owes, if_neg (Ne.symm hx)]
        omega
      · rename_i hk
        have h3 : owing ws k (.order to key wk :: tr) ≤ owing ws k tr := by
          refine List.countP_mono_left (fun x _ hx => ?_)
          have hx := of_decide_eq_true hx
          refine decide_eq_true ?_
          simp only [owes] at hx
          split at hx
          · simp only [Option.some.injEq] at hx; exact absurd hx hk
          · exact hx
        omega
    · have hoc : tr.countP (isOrder k) ≤ (e :: tr).countP (isOrder k) := by rw [List.countP_cons]; omega
      by_cases hd : ∃ w d, e = .recv w (.data d)
      · obtain ⟨w, d, rfl⟩ := hd
        have h3 := owing_answer (k := k) (ws := ws) (fun w key wk hm => hw w key wk (List.mem_cons_of_mem _ hm)) (ha [] w d tr rfl).1
        omega
      · obtain ⟨h3, h4⟩ := owing_other (ws := ws) (k := k) (tr := tr) (fun to key wk h => ho ⟨to, key, wk, h⟩) (fun w d h => hd ⟨w, d, h⟩)
        omega

/-- If every order for evaluation has rows and is given while fewer than `m` rows have been given, there are at most `m` of them. -/
theorem simOrders_le {m : Nat} (tr : List Ev) (h1 : Always (onOrder fun pre _ _ wk => wk.tag = EVAL_SIM → (simGiven pre).length < m) tr)
    (h2 : Always (onOrder fun _ _ _ wk => wk.tag = EVAL_SIM → wk.rows ≠ []) tr) :
    tr.countP (isOrder EVAL_SIM) ≤ (simGiven tr).length ∧ tr.countP (isOrder EVAL_SIM) ≤ m := by
  induction tr with
  | nil => simp
  | cons e tr ih =>
    obtain ⟨a1, b1⟩ := always_cons.mp h1
    obtain ⟨a2, b2⟩ := always_cons.mp h2
    obtain ⟨i1, i2⟩ := ih b1 b2
    have hc : simGiven (e :: tr) = simRowsOf e ++ simGiven tr := rfl
    rw [hc, List.length_append, List.countP_cons]
    cases e with
    | order to key wk =>
      simp only [isOrder, decide_eq_true_eq, simRowsOf]
      split
      · rename_i ht
        have h3 := a1 ht
        have h4 : 0 < wk.rows.length := List.length_pos_iff.mpr (a2 ht)
        omega
      · simp only [List.length_nil]; omega
    | _ => simp only [isOrder, Bool.false_eq_true, if_false]; omega

/-- Is the event a message with data? -/
def hasData : Ev → Bool
  | .recv _ (.data _) => true
  | _ => false

/-- Messages with data in the record. -/
def dataCount (tr : List Ev) : Nat := tr.countP hasData

theorem owes_tag {w k : Nat} {tr : List Ev} (h : owes w tr = some k) : ∃ to key wk, .order to key wk ∈ tr ∧ wk.tag = k := by
  induction tr with
  | nil => simp [owes] at h
  | cons e tr ih =>
    have up : (∃ to key wk, Ev.order to key wk ∈ tr ∧ wk.tag = k) → ∃ to key wk, Ev.order to key wk ∈ e :: tr ∧ wk.tag = k :=
      fun ⟨to, key, wk, hm, ht⟩ => ⟨to, key, wk, List.mem_cons_of_mem _ hm, ht⟩
    cases e with
    | order to key wk =>
      simp only [owes] at h
      split at h
      · injection h with h; exact ⟨to, key, wk, List.mem_cons_self, h⟩
      · exact up (ih h)
    | recv to m =>
      cases m with
      | data d =>
        simp only [owes] at h
        split at h
        · simp at h
        · exact up (ih h)
      | _ => exact up (ih h)
    | _ => exact up (ih h)

/-- If all orders are for simulations or generators, so are all answers. -/
theorem dataCount_le (tr : List Ev) (ha : Replies tr) (ho : ∀ to key wk, .order to key wk ∈ tr → wk.tag = EVAL_SIM ∨ wk.tag = EVAL_GEN) :
    dataCount tr ≤ answerCount EVAL_SIM tr + answerCount EVAL_GEN tr := by
  induction tr with
  | nil => simp [dataCount]
  | cons e tr ih =>
    have ih := ih (Replies.suffix (l := [e]) ha) (fun to key wk hm => ho to key wk (List.mem_cons_of_mem _ hm))
    simp only [dataCount, answerCount, List.countP_cons] at ih ⊢
    cases e with
    | recv w m =>
      cases m with
      | data d =>
        obtain ⟨to, key, wk, hm, ht⟩ := owes_tag (ha [] w d tr rfl).1
        simp only [isAnswer, hasData, decide_eq_true_eq, if_true]
        rcases ho to key wk (List.mem_cons_of_mem _ hm) with h | h <;> rw [← ht, h]
        · simp only [if_true]; omega
        · simp only [if_true]; omega
      | _ => simp only [isAnswer, hasData, Bool.false_eq_true, if_false]; omega
    | _ => simp only [isAnswer, hasData, Bool.false_eq_true, if_false]; omega

end Verif.Manager
