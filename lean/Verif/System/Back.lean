import Verif.System.Whole
/-
Results of simulations and the orders they belong to, for manager and workers together (helper for PropsBack.lean).
-/
namespace Verif.System
open Verif Verif.Worker
open Verif.Manager (SentTo Honest givF Later simGiven simBack)

variable {env : Env} {tr : List Manager.Ev} {ws : Nat → W}

/-- Will the manager take this output for results of a simulation (see `Data.isSim`)? -/
def resultOf (env : Env) : Out → Bool
  | .data x => (env.msg x).isSim
  | .answer o s _ => Manager.Data.isSim { calcType := o.tag, calcStatus := s.toNat, rows := [], out := .none }
  | .err => false

/-- Results of simulations are sent only while the newest order is one for simulations. -/
def Faithful (env : Env) (tr : List Ev) : Prop :=
  OnEv (fun e pre => ∀ x, e = .out x → resultOf env x = true → ∃ o, newest pre = some o ∧ o.tag = EVAL_SIM) tr

/-- Results of simulations are sent only by functions that return them at their end, having been called with the order for
them and not having received another one. -/
def OneShot (env : Env) (tr : List Ev) : Prop :=
  OnEv (fun e pre => ∀ x, e = .out x → resultOf env x = true →
    ∃ o s r, x = .answer o s r ∧ newest pre = some o ∧ o.tag = EVAL_SIM) tr

theorem OneShot.faithful {tr : List Ev} (h : OneShot env tr) : Faithful env tr := by
  intro post e pre he x hx hr
  obtain ⟨o, s, r, _, h1, h2⟩ := h post e pre he x hx hr
  exact ⟨o, h1, h2⟩

theorem hRows_newest (tr : List Ev) : hRows tr = ((newest tr).map (·.rows)).getD [] := by
  induction tr with
  | nil => rfl
  | cons e tr ih =>
    cases e with
    | utook m => obtain ⟨t, b⟩ := m; cases b <;> first | rfl | exact ih
    | start o b => rfl
    | _ => exact ih

theorem says_sim {pre : List Ev} {x : Out} {d : Manager.Data} (h : Says env pre x (.data d)) (hs : d.isSim = true) :
    resultOf env x = true ∧ d.rows = hRows pre := by
  cases x with
  | data x =>
    obtain ⟨h1, _⟩ := h
    rw [h1] at hs ⊢
    exact ⟨hs, rfl⟩
  | answer o s r =>
    obtain ⟨out, h1⟩ := h
    rw [h1] at hs ⊢
    exact ⟨hs, rfl⟩
  | err => cases h

/-! ### Orders in the record of the manager -/

theorem sentTo_at {w : Nat} {tr : List Manager.Ev} : ∀ {A B : List Msg} {m : Msg}, sentTo w tr = A ++ m :: B →
    ∃ l1 e l2, tr = l1 ++ e :: l2 ∧ msgTo w e = some m ∧ sentTo w l2 = A ∧ sentTo w l1 = B := by
  induction tr with
  | nil => intro A B m h; simp [sentTo] at h
  | cons e tr ih =>
    intro A B m h
    simp only [sentTo] at h
    cases he : msgTo w e with
    | none =>
      rw [he] at h
      simp only [Option.toList_none, List.append_nil] at h
      obtain ⟨l1, e', l2, rfl, h1, h2, h3⟩ := ih h
      exact ⟨e :: l1, e', l2, rfl, h1, h2, by simp [sentTo, he, h3]⟩
    | some m' =>
      rw [he] at h
      simp only [Option.toList_some] at h
      rcases List.eq_nil_or_concat B with rfl | ⟨B', b, rfl⟩
      · obtain ⟨h1, h2⟩ := List.append_inj' h rfl
        simp only [List.cons.injEq, and_true] at h2
        exact ⟨[], e, tr, rfl, by rw [he, h2], h1, rfl⟩
      · rw [List.concat_eq_append, show A ++ m :: (B' ++ [b]) = (A ++ m :: B') ++ [b] by simp] at h
        obtain ⟨h1, h2⟩ := List.append_inj' h rfl
        simp only [List.cons.injEq, and_true] at h2
        obtain ⟨l1, e', l2, rfl, g1, g2, g3⟩ := ih h1
        exact ⟨e :: l1, e', l2, rfl, g1, g2, by simp [sentTo, he, g3, h2]⟩

theorem sentTo_none {w : Nat} {l : List Manager.Ev} (h : sentTo w l = []) : ∀ e ∈ l, msgTo w e = none := by
  induction l with
  | nil => simp
  | cons a l ih =>
    simp only [sentTo, List.append_eq_nil_iff] at h
    intro e he
    rcases List.mem_cons.mp he with rfl | he
    · cases hm : msgTo w e with
      | none => rfl
      | some m => rw [hm] at h; simp at h
    · exact ih h.1 e he

/-- Arrays of rows directly follow their orders. -/
def RowsAfter (tr : List Manager.Ev) : Prop :=
  ∀ post w idx vals pre, tr = post ++ .rows w idx vals :: pre → ∃ key wk pre', pre = .order w key wk :: pre' ∧ idx = wk.rows

theorem RowsAfter.suffix {l tr : List Manager.Ev} (h : RowsAfter (l ++ tr)) : RowsAfter tr :=
  fun post w idx vals pre he => h (l ++ post) w idx vals pre (by rw [he, List.append_assoc])

theorem rowsAfter_run (c : Manager.Start) (its : List Manager.Iter) (t : Nat → Int) (rounds : List Manager.Round) :
    RowsAfter (c.run its t rounds).1.tr := by
  obtain ⟨p, _, hr⟩ := c.reach its t rounds
  intro post w idx vals pre he
  obtain ⟨key, wk, pre', h1, h2, _⟩ := (hr.givF (h0 := c.hist) Manager.start_tr rfl) post _ pre he
  exact ⟨key, wk, pre', h1, h2⟩

/-- An order with rows that has been followed by another message was sent with its rows. -/
theorem backed_sent {w : Nat} {o : Order} (hg : RowsAfter tr)
    (hf : Framed (sentTo w tr)) (hb : Backed (sentTo w tr) o) {i : Nat} (hi : i ∈ o.rows) (ht : o.tag = EVAL_SIM) :
    ∃ key, SentTo tr w key i := by
  have hne : o.rows ≠ [] := List.ne_nil_of_mem hi
  rcases hb with h | ⟨X, t, m, Y, hL⟩
  · exact absurd h hne
  · -- the message after the order is the array of rows
    have hm : ∃ x, m.2 = .data x := by
      unfold Framed at hf
      rw [hL, frame_append] at hf
      cases hX : frame .ctl X with
      | none => rw [hX] at hf; exact absurd rfl hf
      | some s =>
        rw [hX] at hf
        simp only [Option.bind_some] at hf
        cases s with
        | rows => simp [frame] at hf
        | ctl =>
          simp only [frame, if_neg hne] at hf
          split at hf
          · exact absurd rfl hf
          · exact (frame_rows hf).1
    obtain ⟨l1, e2, l2, rfl, h2, h3, _⟩ := sentTo_at (A := X ++ [(t, .work o)]) (B := Y) (m := m) (by rw [hL]; simp)
    obtain ⟨mid, e1, l3, rfl, h4, _, h6⟩ := sentTo_at (A := X) (B := []) (m := (t, .work o)) (by rw [h3])
    have hmid := sentTo_none h6
    obtain ⟨x, hx⟩ := hm
    obtain ⟨mt, mb⟩ := m
    simp only at hx; subst hx
    cases e2 with
    | rows to idx vals =>
      simp only [msgTo] at h2
      split at h2
      · rename_i hto
        subst hto
        obtain ⟨key, wk, pre', h7, h8⟩ := hg l1 _ _ _ _ rfl
        cases mid with
        | nil =>
          simp only [List.nil_append, List.cons.injEq] at h7
          obtain ⟨rfl, rfl⟩ := h7
          simp only [msgTo, if_true, Option.some.injEq, Prod.mk.injEq, Body.work.injEq] at h4
          obtain ⟨h9, h10⟩ := h4
          refine ⟨key, wk, vals, l1, l3, by rw [h8]; simp, ?_, ?_⟩
          · rw [← h10] at ht; exact ht
          · rw [← h10] at hi; exact hi
        | cons a mid =>
          simp only [List.cons_append, List.cons.injEq] at h7
          have := hmid a List.mem_cons_self
          rw [h7.1] at this
          simp [msgTo] at this
      · cases h2
    | order to key wk => simp only [msgTo] at h2; split at h2 <;> simp at h2
    | stop to => simp only [msgTo] at h2; split at h2 <;> simp at h2
    | kill to r => simp only [msgTo] at h2; split at h2 <;> simp at h2
    | persisStop to => simp only [msgTo] at h2; split at h2 <;> simp at h2
    | _ => simp [msgTo] at h2

theorem mem_outs {tr : List Ev} {pre : List Ev} {x : Out} (h : (pre, x) ∈ outs tr) : ∃ post, tr = post ++ .out x :: pre := by
  induction tr with
  | nil => simp [outs] at h
  | cons e tr ih =>
    cases e with
    | out y =>
      simp only [outs, List.mem_append, List.mem_singleton, Prod.mk.injEq] at h
      rcases h with h | ⟨rfl, rfl⟩
      · obtain ⟨post, rfl⟩ := ih h; exact ⟨_ :: post, rfl⟩
      · exact ⟨[], rfl⟩
    | _ => obtain ⟨post, rfl⟩ := ih h; exact ⟨_ :: post, rfl⟩

/-- Workers return only rows that they were sent. -/
theorem Joint.honest (h : Joint env tr ws) (hg : RowsAfter tr)
    (hf : ∀ w, Framed (sentTo w tr)) (hw : ∀ w m, .recv w m ∈ tr → Faithful env (ws w).tr) : Honest tr := by
  induction h with
  | init => intro post w d pre he; simp at he
  | @man tr ws e h hp ih =>
    have hf' : ∀ w, Framed (sentTo w tr) := fun w => by
      have := hf w; rw [sentTo] at this; exact framed_prefix this
    have hw' : ∀ w m, .recv w m ∈ e :: tr → Faithful env (ws w).tr := fun w m hm => by
      have := hw w m hm; rwa [(deliver_tr w e (ws w)).1] at this
    have hg' := RowsAfter.suffix (l := [e]) hg
    have IH := ih hg' hf' (fun w m hm => hw' w m (List.mem_cons_of_mem _ hm))
    intro post w d pre he hs i hi
    cases post with
    | cons a post =>
      simp only [List.cons_append, List.cons.injEq] at he
      exact IH post w d pre he.2 hs i hi
    | nil =>
      simp only [List.nil_append, List.cons.injEq] at he
      obtain ⟨rfl, rfl⟩ := he
      obtain ⟨p, x, rest, h1, h2⟩ := hp rfl
      obtain ⟨h3, h4⟩ := says_sim h2 hs
      have hmem : (p, x) ∈ outs (ws w).tr := List.mem_of_mem_drop (i := got w tr) (by
        rw [show (outs (ws w).tr).drop (got w tr) = (p, x) :: rest from h1]; exact List.mem_cons_self)
      obtain ⟨po, hpo⟩ := mem_outs hmem
      obtain ⟨o, h5, h6⟩ := hw' w _ List.mem_cons_self po _ p hpo x rfl h3
      obtain ⟨as, h7, h8⟩ := h.worker w
      have hb := backed_run (env.F w) (env.kind w) as
      rw [← h7, h8] at hb
      have hx : x ≠ .err := by rintro rfl; cases h3
      rw [h4, hRows_newest, h5] at hi
      exact backed_sent hg' (hf' w) (hb po _ p hpo x rfl hx o h5) hi h6
  | @carry tr ws v h ih =>
    refine ih hg hf (fun w m hm => ?_)
    have := hw w m hm
    by_cases hv : w = v
    · subst hv; simpa using this
    · simpa [hv] using this
  | @tick tr ws v h ih =>
    refine ih hg hf (fun w m hm => ?_)
    have := hw w m hm
    by_cases hv : w = v
    · subst hv
      simp only [if_true] at this
      obtain ⟨l, hl⟩ := step_grows (tick_step (env.F w) (ws w))
      rw [hl] at this
      exact onEv_suffix this
    · simpa [hv] using this

/-! ### Each row once -/

/-- Rows in the results of simulations received. -/
def simRowsIn : Manager.Ev → List Nat
  | .recv _ (.data d) => if d.isSim = true then d.rows else []
  | _ => []

/-- The same for one worker. -/
def simRowsFrom (w : Nat) : Manager.Ev → List Nat
  | .recv v m => if v = w then simRowsIn (.recv v m) else []
  | _ => []

/-- Rows in the orders for simulations that were sent to one worker. -/
def simRowsTo (w : Nat) : Manager.Ev → List Nat
  | .order v k wk => if v = w then Manager.simRowsOf (.order v k wk) else []
  | _ => []

def rowsOfOrder (o : Order) : List Nat := if o.tag = EVAL_SIM then o.rows else []

theorem count_to (w i : Nat) (tr : List Manager.Ev) :
    (tr.flatMap (simRowsTo w)).count i = ((ords (sentTo w tr)).flatMap rowsOfOrder).count i := by
  induction tr with
  | nil => rfl
  | cons e tr ih =>
    rw [List.flatMap_cons, List.count_append, ih, sentTo, ords_append, List.flatMap_append, List.count_append, Nat.add_comm]
    congr 1
    cases e with
    | order to key wk =>
      by_cases hto : to = w
      · simp only [simRowsTo, msgTo, if_pos hto, Option.toList_some, ords, List.filterMap_cons, List.filterMap_nil, List.flatMap_cons,
          List.flatMap_nil, List.append_nil, rowsOfOrder, orderOf, Manager.simRowsOf]
        rfl
      · simp only [simRowsTo, msgTo, if_neg hto, Option.toList_none]; rfl
    | rows to _ _ => simp only [simRowsTo, msgTo]; split <;> rfl
    | stop to => simp only [simRowsTo, msgTo]; split <;> rfl
    | kill to _ => simp only [simRowsTo, msgTo]; split <;> rfl
    | persisStop to => simp only [simRowsTo, msgTo]; split <;> rfl
    | _ => rfl

theorem answered_outs (tr : List Ev) : answered tr = (outs tr).filterMap fun p => match p.2 with | .answer o _ _ => some o | _ => none := by
  induction tr with
  | nil => rfl
  | cons e tr ih =>
    cases e with
    | out x =>
      simp only [outs, List.filterMap_append]
      cases x <;> simp [answered, ih]
    | _ => exact ih

theorem count_pointwise {α β : Type} (f : α → List Nat) (g : β → List Nat) (i : Nat) : ∀ (l1 : List α) (l2 : List β),
    (∀ (k : Nat) (a : α), l1[k]? = some a → ∃ b, l2[k]? = some b ∧ (f a).count i ≤ (g b).count i) → (l1.flatMap f).count i ≤ (l2.flatMap g).count i
  | [], _, _ => by simp
  | a :: l1, [], h => by obtain ⟨b, hb, _⟩ := h 0 a rfl; simp at hb
  | a :: l1, b :: l2, h => by
    have h0 := h 0 a rfl
    simp only [List.getElem?_cons_zero, Option.some.injEq, exists_eq_left'] at h0
    have ih := count_pointwise f g i l1 l2 (fun k a ha => h (k + 1) a (by simpa using ha))
    simp only [List.flatMap_cons, List.count_append]
    omega

def simRowsMsg : Manager.Msg → List Nat
  | .data d => if d.isSim = true then d.rows else []
  | _ => []

theorem count_from (w i : Nat) (tr : List Manager.Ev) :
    (tr.flatMap (simRowsFrom w)).count i = ((msgsFrom w tr).flatMap simRowsMsg).count i := by
  induction tr with
  | nil => rfl
  | cons e tr ih =>
    rw [List.flatMap_cons, List.count_append, ih]
    cases e with
    | recv v m =>
      simp only [msgsFrom, simRowsFrom]
      by_cases hv : v = w
      · cases hm : fromWorker m with
        | true =>
          rw [if_pos hv, if_pos ⟨hv, rfl⟩, List.flatMap_append, List.count_append, Nat.add_comm]
          cases m <;> simp [simRowsMsg, simRowsIn]
        | false =>
          rw [if_pos hv, if_neg (by simp)]
          cases m <;> simp [fromWorker, simRowsIn] at hm ⊢
      · rw [if_neg hv, if_neg (by simp [hv])]; simp
    | _ => simp [msgsFrom, simRowsFrom]

theorem flatMap_filterMap {α β : Type} (f : α → Option β) (g : β → List Nat) (l : List α) :
    (l.filterMap f).flatMap g = l.flatMap fun a => ((f a).map g).getD [] := by
  induction l with
  | nil => rfl
  | cons a l ih =>
    cases h : f a <;> simp [List.filterMap_cons, h, ih]

theorem sub_flatMap {α : Type} {a b : List α} (h : a.Sublist b) (f : α → List Nat) : (a.flatMap f).Sublist (b.flatMap f) := by
  induction h with
  | slnil => exact List.Sublist.refl _
  | cons x _ ih => rw [List.flatMap_cons]; exact ih.trans (List.sublist_append_right _ _)
  | cons_cons x _ ih => rw [List.flatMap_cons, List.flatMap_cons]; exact ih.append_left _

/-- A worker returns no row more often than it was ordered to. -/
theorem Joint.back_le (h : Joint env tr ws) {w : Nat} (hw : OneShot env (ws w).tr) (i : Nat) :
    (tr.flatMap (simRowsFrom w)).count i ≤ (tr.flatMap (simRowsTo w)).count i := by
  rw [count_from, count_to]
  obtain ⟨as, h1, h2⟩ := h.worker w
  have ha := answered_run (env.F w) (env.kind w) as
  rw [← h1, h2] at ha
  have h3 : ((answered (ws w).tr).flatMap rowsOfOrder).count i ≤ ((ords (sentTo w tr)).flatMap rowsOfOrder).count i :=
    (sub_flatMap ha _).count_le i
  refine Nat.le_trans ?_ h3
  rw [answered_outs, flatMap_filterMap]
  refine count_pointwise _ _ i _ _ (fun k m hm => ?_)
  obtain ⟨pre, x, hx, hs⟩ := h.said w k m hm
  refine ⟨(pre, x), hx, ?_⟩
  cases m with
  | data d =>
    simp only [simRowsMsg]
    split
    · rename_i hd
      obtain ⟨h4, h5⟩ := says_sim hs hd
      obtain ⟨po, hpo⟩ := mem_outs (List.mem_of_getElem? hx)
      obtain ⟨o, s, r, rfl, h6, h7⟩ := hw po _ pre hpo x rfl h4
      rw [h5, hRows_newest, h6]
      simp [rowsOfOrder, h7]
    · simp
  | _ => simp [simRowsMsg]

theorem count_two {f : Manager.Ev → List Nat} {g : Nat → Manager.Ev → List Nat} (hfg : ∀ w e, g w e = f e ∨ g w e = [])
    (hd : ∀ w w' e, w ≠ w' → g w e = [] ∨ g w' e = []) (w w' i : Nat) (hne : w ≠ w') (tr : List Manager.Ev) :
    (tr.flatMap (g w)).count i + (tr.flatMap (g w')).count i ≤ (tr.flatMap f).count i := by
  induction tr with
  | nil => simp
  | cons e tr ih =>
    simp only [List.flatMap_cons, List.count_append]
    have h1 := hfg w e
    have h2 := hfg w' e
    rcases hd w w' e hne with h3 | h3
    · rw [h3]
      rcases h2 with h2 | h2 <;> rw [h2] <;> simp <;> omega
    · rw [h3]
      rcases h1 with h1 | h1 <;> rw [h1] <;> simp <;> omega

/-- If no row is ordered twice, none is returned twice. -/
theorem Joint.back_nodup (h : Joint env tr ws) (hw : ∀ w m, .recv w m ∈ tr → OneShot env (ws w).tr) (hn : (simGiven tr).Nodup) :
    (tr.flatMap simRowsIn).Nodup := by
  have to1 : ∀ w e, simRowsTo w e = Manager.simRowsOf e ∨ simRowsTo w e = [] := by
    intro w e
    cases e with
    | order v k wk => simp only [simRowsTo]; split <;> simp
    | _ => exact .inr rfl
  have to2 : ∀ w w' e, w ≠ w' → simRowsTo w e = [] ∨ simRowsTo w' e = [] := by
    intro w w' e hne
    cases e with
    | order v k wk =>
      simp only [simRowsTo]
      by_cases hv : v = w
      · exact .inr (if_neg (by omega))
      · exact .inl (if_neg hv)
    | _ => exact .inr rfl
  have hle : ∀ w i, (tr.flatMap (simRowsFrom w)).count i ≤ (tr.flatMap (simRowsTo w)).count i := by
    intro w i
    by_cases hm : ∃ m, Manager.Ev.recv w m ∈ tr
    · obtain ⟨m, hm⟩ := hm
      exact h.back_le (hw w m hm) i
    · have : tr.flatMap (simRowsFrom w) = [] := by
        rw [List.flatMap_eq_nil_iff]
        intro e he
        cases e with
        | recv v m =>
          simp only [simRowsFrom]
          rw [if_neg]
          rintro rfl; exact hm ⟨m, he⟩
        | _ => rfl
      rw [this]; simp
  rw [List.nodup_iff_count]
  intro i
  have htot : (tr.flatMap Manager.simRowsOf).count i ≤ 1 := List.nodup_iff_count.mp hn i
  -- all occurrences come from one worker
  by_cases hex : ∃ w, 0 < (tr.flatMap (simRowsFrom w)).count i
  · obtain ⟨w, hpos⟩ := hex
    have hoth : ∀ w', w' ≠ w → (tr.flatMap (simRowsFrom w')).count i = 0 := by
      intro w' hne
      have h1 := count_two to1 to2 w w' i (Ne.symm hne) tr
      have h2 := hle w i
      have h3 := hle w' i
      omega
    have hall : ∀ l : List Manager.Ev, (∀ w', w' ≠ w → (l.flatMap (simRowsFrom w')).count i = 0) →
        (l.flatMap simRowsIn).count i = (l.flatMap (simRowsFrom w)).count i := by
      intro l
      induction l with
      | nil => intro _; rfl
      | cons e l ih =>
        intro hl
        simp only [List.flatMap_cons, List.count_append] at hl ⊢
        rw [ih (fun w' hne => by have := hl w' hne; omega)]
        congr 1
        cases e with
        | recv v m =>
          by_cases hv : v = w
          · simp [simRowsFrom, hv]
          · have := hl v hv
            simp only [simRowsFrom, if_true] at this
            simp only [simRowsFrom, if_neg hv]
            simp; omega
        | _ => rfl
    rw [hall tr hoth]
    have h1 := hle w i
    have h2 := count_two to1 to2 w (w + 1) i (by omega) tr
    omega
  · have hz : ∀ l : List Manager.Ev, (∀ w', (l.flatMap (simRowsFrom w')).count i = 0) → (l.flatMap simRowsIn).count i = 0 := by
      intro l
      induction l with
      | nil => intro _; rfl
      | cons e l ih =>
        intro hl
        simp only [List.flatMap_cons, List.count_append] at hl ⊢
        rw [ih (fun w' => by have := hl w'; omega)]
        cases e with
        | recv v m =>
          have := hl v
          simp only [simRowsFrom, if_true] at this
          omega
        | _ => rfl
    rw [hz tr (fun w' => by
      rcases Nat.eq_zero_or_pos ((tr.flatMap (simRowsFrom w')).count i) with h | h
      · exact h
      · exact absurd ⟨w', h⟩ hex)]
    omega

/-- What is recorded is what was received. -/
theorem simBack_in {tr : List Manager.Ev} (h : ∀ post o pre, tr = post ++ .op o :: pre → Manager.isResult o = true →
    ∃ w m pre', pre = .recv w m :: pre' ∧ Manager.Records w m o) : (simBack tr).Sublist (tr.flatMap simRowsIn) := by
  match tr with
  | [] => exact List.Sublist.refl _
  | e :: tr' =>
    have ih := simBack_in (tr := tr') (fun post o pre he => h (e :: post) o pre (by rw [he]; rfl))
    by_cases hb : Manager.simBackOf e = []
    · have e1 : simBack (e :: tr') = simBack tr' := by
        show Manager.simBackOf e ++ simBack tr' = _; rw [hb]; rfl
      rw [e1, List.flatMap_cons]
      exact ih.trans (List.sublist_append_right _ _)
    · cases e with
      | op o =>
        cases o with
        | simReturn rows r t k =>
          obtain ⟨w, m, pre', h1, h2⟩ := h [] _ tr' rfl rfl
          subst h1
          cases m with
          | data d =>
            obtain ⟨h3, h4, _⟩ := h2
            have ih := simBack_in (tr := pre') (fun post o pre he => h (.op (.simReturn rows r t k) :: .recv w (.data d) :: post) o pre (by rw [he]; rfl))
            have e1 : simBack (.op (.simReturn rows r t k) :: .recv w (.data d) :: pre') = rows ++ simBack pre' := rfl
            have e2 : (Manager.Ev.op (.simReturn rows r t k) :: .recv w (.data d) :: pre').flatMap simRowsIn = rows ++ pre'.flatMap simRowsIn := by
              simp [simRowsIn, h3, h4]
            rw [e1, e2]
            exact ih.append_left rows
          | _ => exact h2.elim
        | _ => exact absurd rfl hb
      | _ => exact absurd rfl hb
termination_by tr.length

end Verif.System
