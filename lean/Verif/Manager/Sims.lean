import Verif.Manager.Given
/-
Rows under evaluation: who has them and what the history says.
-/
namespace Verif.Manager
open Verif.History Verif.Res Verif.Sched Verif.Alloc

variable {P : St → Reply → Prop}

/-- The order `wk` for evaluation of row `i` was sent to worker `to` under the key `key`, and the rows after it. -/
def SentTo (tr : List Ev) (to key i : Nat) : Prop :=
  ∃ wk vals l1 l2, tr = l1 ++ .rows to wk.rows vals :: .order to key wk :: l2 ∧ wk.tag = EVAL_SIM ∧ i ∈ wk.rows

/-- A worker returns results only for rows that it was sent for evaluation before. -/
def Honest (tr : List Ev) : Prop :=
  ∀ post w d pre, tr = post ++ .recv w (.data d) :: pre → d.isSim = true → ∀ i ∈ d.rows, ∃ key, SentTo pre w key i

/-- Orders of the allocation function do not ask for `active_recv` without `persistent`. -/
def RecvOk (tr : List Ev) : Prop :=
  ∀ to key wk, .order to key wk ∈ tr → wk.tag = EVAL_SIM → wk.persistent = true ∨ wk.activeRecv = none

theorem SentTo.append {l tr : List Ev} {to key i : Nat} (h : SentTo tr to key i) : SentTo (l ++ tr) to key i := by
  obtain ⟨wk, vals, l1, l2, rfl, h1, h2⟩ := h
  exact ⟨wk, vals, l ++ l1, l2, by simp, h1, h2⟩

theorem Honest.suffix {l tr : List Ev} (h : Honest (l ++ tr)) : Honest tr :=
  fun post w d pre he => h (l ++ post) w d pre (by rw [he]; simp)

theorem RecvOk.suffix {l tr : List Ev} (h : RecvOk (l ++ tr)) : RecvOk tr :=
  fun to key wk hm => h to key wk (List.mem_append_right _ hm)

/-- Cells of a row that was sent for evaluation. -/
theorem given_cells {c : Start} (hc : c.Std) {i : Nat} {l pre : List Ev} {rows : List Nat} {key : Nat} {t : Int} {k : Bool}
    (hk : OpsOk c (l ++ .op (.giveSim rows key t k) :: pre)) (hi : i ∈ rows) (hr : ∀ i ∈ rows, i < (histAt c.hist pre).rows.length) :
    cell (histAt c.hist (l ++ .op (.giveSim rows key t k) :: pre)).rows i .simStarted = some (.s 1) ∧
    ∃ (rows' : List Nat) (key' : Nat) (t' : Int) (k' : Bool), .op (.giveSim rows' key' t' k') ∈ l ++ .op (.giveSim rows key t k) :: pre ∧ i ∈ rows' ∧
      cell (histAt c.hist (l ++ .op (.giveSim rows key t k) :: pre)).rows i .simWorker = some (.s key') := by
  have h0 : cell (histAt c.hist (.op (.giveSim rows key t k) :: pre)).rows i .simStarted = some (.s 1) ∧
      cell (histAt c.hist (.op (.giveSim rows key t k) :: pre)).rows i .simWorker = some (.s key) := by
    rw [histAt_op]; exact giveSim_cells _ _ _ _ _ hr hi
  refine ⟨sticky hc (by simp [stickyFields]) hk h0.1, ?_⟩
  induction l with
  | nil => exact ⟨rows, key, t, k, by simp, hi, h0.2⟩
  | cons e l ih =>
    obtain ⟨rows', key', t', k', h1, h2, h3⟩ := ih (OpsOk.suffix (l := [e]) hk)
    by_cases ho : ∃ o, e = .op o
    · obtain ⟨o, rfl⟩ := ho
      have hlt : i < (histAt c.hist (l ++ .op (.giveSim rows key t k) :: pre)).rows.length := by
        simp only [cell] at h3
        rcases Nat.lt_or_ge i (histAt c.hist (l ++ .op (.giveSim rows key t k) :: pre)).rows.length with h | h
        · exact h
        · rw [List.getElem?_eq_none h] at h3; simp at h3
      rcases histAt_step (tr := l ++ .op (.giveSim rows key t k) :: pre) hc hk .simWorker (by simp [protectedFields]) i hlt with h4 | h4
      · exact ⟨rows', key', t', k', List.mem_cons_of_mem _ h1, h2, by rw [List.cons_append, h4]; exact h3⟩
      · cases o with
        | giveSim rows2 key2 t2 k2 =>
          obtain ⟨h5, h6 | h6 | h6⟩ := h4
          · exact absurd h6.1 (by simp)
          · exact absurd h6.1 (by simp)
          · exact ⟨rows2, key2, t2, k2, List.mem_cons_self, h5, by rw [List.cons_append, histAt_op]; exact h6.2⟩
        | simReturn _ _ _ _ => obtain ⟨_, h6 | h6⟩ := h4 <;> exact absurd h6.1 (by simp)
        | giveGen _ _ => obtain ⟨_, h6 | h6⟩ := h4 <;> exact absurd h6.1 (by simp)
        | genReturn _ _ _ _ => obtain ⟨_, _, h6 | h6 | h6⟩ := h4 <;> exact absurd h6.1 (by simp)
        | requestCancel _ => exact h4.elim
        | markKill _ => exact absurd h4.2.1 (by simp)
    · exact ⟨rows', key', t', k', List.mem_cons_of_mem _ h1, h2, by rw [List.cons_append, histAt_skip _ _ (fun o hh => ho ⟨o, hh⟩)]; exact h3⟩

/-- An entry "sent for evaluation" belongs to an order. -/
theorem giveSim_sent {sp : Specs} {h0 : Hist} {n : Nat} {tr : List Ev} (h : Later (givF sp h0 n) tr) {rows : List Nat} {key : Nat} {t : Int} {k : Bool}
    (hm : .op (.giveSim rows key t k) ∈ tr) {i : Nat} (hi : i ∈ rows) :
    ∃ q, wPos sp.gom n key = some q ∧ SentTo tr (idAt sp q) key i := by
  obtain ⟨post, pre, rfl⟩ := List.append_of_mem hm
  obtain ⟨q, wk, l, pre', h1, h2, h3, h4, h5, _⟩ := h post _ pre rfl
  rw [if_neg (List.ne_nil_of_mem hi)] at h3
  generalize rows.filterMap ((histAt h0 pre).rows[·]?) = vals at h3
  refine ⟨q, h2, wk, vals, post ++ [.op (.giveSim rows key t k)], pre', ?_, h4, by rw [h5]; exact hi⟩
  rw [h1, h3, h5]; simp

/-- What the history says about a row that was sent to a worker. -/
theorem sent_cells {c : Start} (hc : c.Std) {p : Ph} {s : St} (h : Reach c.sp P c.st p s) (hk : OpsOk c s.tr) (hv : RecvOk s.tr)
    {post pre : List Ev} (he : s.tr = post ++ pre) {to key i : Nat} (hs : SentTo pre to key i)
    (hb : ∀ e ∈ post.getLast?, ∀ rows w t k, e ≠ .op (.giveSim rows w t k)) :
    cell (histAt c.hist pre).rows i .simStarted = some (.s 1) ∧
    ∃ (key' q : Nat), wPos c.sp.gom c.st.W.length key' = some q ∧ SentTo pre (idAt c.sp q) key' i ∧
      cell (histAt c.hist pre).rows i .simWorker = some (.s key') := by
  obtain ⟨wk, vals, l1, l2, rfl, ht, hi⟩ := hs
  have hg := h.givF (h0 := c.hist) start_tr rfl
  obtain ⟨key1, wk1, pre1, e1, e2, e3⟩ := hg (post ++ l1) (.rows to wk.rows vals) (.order to key wk :: l2) (by rw [he]; simp)
  simp only [List.cons.injEq, Ev.order.injEq] at e1
  obtain ⟨⟨_, rfl, rfl⟩, rfl⟩ := e1
  obtain ⟨post', t, k, e4⟩ := e3 ht (hv to key wk (by rw [he]; simp) ht)
  -- the entry is not in `post`
  have hl1 : ∃ l3, l1 = l3 ++ [.op (.giveSim wk.rows key t k)] := by
    rcases List.eq_nil_or_concat l1 with h1 | ⟨l3, x, h1⟩
    · subst h1
      rw [List.append_nil] at e4
      exact absurd rfl (hb _ (by rw [e4]; simp) wk.rows key t k)
    · rw [h1] at e4 ⊢
      have : x = .op (.giveSim wk.rows key t k) := by
        have := congrArg List.getLast? e4
        simpa using this
      exact ⟨l3, by simp [this]⟩
  obtain ⟨l3, rfl⟩ := hl1
  have hsplit : s.tr = (post ++ l3) ++ .op (.giveSim wk.rows key t k) :: (.rows to wk.rows vals :: .order to key wk :: l2) := by
    rw [he]; simp
  obtain ⟨_, _, _, _, _, _, _, _, _, hr⟩ := hg (post ++ l3) _ _ hsplit
  have hk' : OpsOk c (l3 ++ .op (.giveSim wk.rows key t k) :: (.rows to wk.rows vals :: .order to key wk :: l2)) := by
    rw [he] at hk
    have := OpsOk.suffix hk
    simpa using this
  obtain ⟨g1, rows', key', t', k', g2, g3, g4⟩ := given_cells hc hk' hi hr
  have hpre : l3 ++ [.op (.giveSim wk.rows key t k)] ++ .rows to wk.rows vals :: .order to key wk :: l2 =
      l3 ++ .op (.giveSim wk.rows key t k) :: (.rows to wk.rows vals :: .order to key wk :: l2) := by simp
  rw [hpre]
  refine ⟨g1, key', ?_⟩
  obtain ⟨l5, l6, e5⟩ := List.append_of_mem g2
  obtain ⟨q, wk2, l, pre', f1, f2, f3, f4, f5, _⟩ := hg (post ++ l5) (.op (.giveSim rows' key' t' k')) l6 (by
    rw [he, hpre, e5]; simp)
  rw [if_neg (List.ne_nil_of_mem g3)] at f3
  refine ⟨q, f2, ?_, g4⟩
  rw [e5]
  generalize rows'.filterMap ((histAt c.hist l6).rows[·]?) = vals2 at f3
  refine ⟨wk2, vals2, l5 ++ [.op (.giveSim rows' key' t' k')], pre', ?_, f4, by rw [f5]; exact g3⟩
  rw [f1, f3, f5]; simp

end Verif.Manager
