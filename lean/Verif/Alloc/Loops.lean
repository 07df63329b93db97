import Verif.Alloc.Teams
/-! Helper lemmas: what the loops of the allocation functions hand out. -/
namespace Verif.Alloc
open Verif.History Verif.Res Verif.Sched

def rowsOf (es : WorkD) : List (List Nat) := es.map (·.2.rows)
def keys (es : WorkD) : List Nat := es.map (·.1)

structure SimShape (c : Ctx) (pers : Bool) (wk : Work) : Prop where
  tag : wk.tag = EVAL_SIM
  fields : wk.fields = c.simIn.eraseDups
  pers : wk.persistent = pers
  recv : wk.activeRecv = none

structure GenShape (fs : List Field) (rows : List Nat) (pers : Bool) (ar : Option Bool) (wk : Work) : Prop where
  tag : wk.tag = EVAL_GEN
  fields : wk.fields = fs.eraseDups
  rows : wk.rows = rows
  pers : wk.persistent = pers
  recv : wk.activeRecv = ar

/-- Points handed out chunk by chunk by `points_by_priority`. -/
def Greedy (fields : List Field) (H : List Row) (batch : Bool) : List Nat → List (List Nat) → List Nat → Prop
  | pts, [], pts' => pts' = pts
  | pts, ids :: r, pts' => pointsByPriority fields H pts batch = .ok ids ∧
      Greedy fields H batch (pts.filter fun i => decide (i ∉ ids)) r pts'

/-- A row that exists and is cancelled. -/
def Cancelled (H : List Row) (i : Nat) : Prop := ∃ r, H[i]? = some r ∧ r.flag .cancelRequested = true

/-- Rows handed out one by one in increasing order, skipping exactly cancelled rows, from pointer to pointer. -/
def InOrder (H : List Row) : Nat → List (List Nat) → Nat → Prop
  | n, [], n' => n ≤ n' ∧ ∀ i, n ≤ i → i < n' → Cancelled H i
  | n, ids :: r, n' => ∃ m, ids = [m] ∧ n ≤ m ∧ (∀ i, n ≤ i → i < m → Cancelled H i) ∧ ¬ Cancelled H m ∧ InOrder H (m + 1) r n'

theorem takeWhile_get {α} (q : α → Bool) : ∀ (l : List α) (j : Nat), j < (l.takeWhile q).length →
    ∃ x, l[j]? = some x ∧ q x = true := by
  intro l
  induction l with
  | nil => intro j h; simp at h
  | cons a l ih =>
    intro j h
    rw [List.takeWhile_cons] at h
    by_cases hq : q a = true
    · rw [if_pos hq] at h
      cases j with
      | zero => exact ⟨a, rfl, hq⟩
      | succ j =>
        obtain ⟨x, h1, h2⟩ := ih j (by simpa using h)
        exact ⟨x, by simpa using h1, h2⟩
    · rw [if_neg hq] at h; simp at h

theorem takeWhile_stop {α} (q : α → Bool) : ∀ (l : List α) (x : α), l[(l.takeWhile q).length]? = some x → q x = false := by
  intro l
  induction l with
  | nil => intro x h; simp at h
  | cons a l ih =>
    intro x h
    rw [List.takeWhile_cons] at h
    by_cases hq : q a = true
    · rw [if_pos hq] at h
      exact ih x (by simpa using h)
    · rw [if_neg hq] at h
      simp at h
      subst h
      simpa using hq

theorem skip_spec (H : List Row) (n : Nat) : n ≤ skipCanceled H n ∧
    (∀ i, n ≤ i → i < skipCanceled H n → Cancelled H i) ∧ ¬ Cancelled H (skipCanceled H n) := by
  unfold skipCanceled
  refine ⟨Nat.le_add_right _ _, ?_, ?_⟩
  · intro i h1 h2
    obtain ⟨x, hx, hq⟩ := takeWhile_get (fun r : Row => r.flag .cancelRequested) (H.drop n) (i - n) (by omega)
    rw [List.getElem?_drop, show n + (i - n) = i by omega] at hx
    exact ⟨x, hx, hq⟩
  · rintro ⟨x, hx, hq⟩
    have := takeWhile_stop (fun r : Row => r.flag .cancelRequested) (H.drop n) x (by rw [List.getElem?_drop]; exact hx)
    rw [this] at hq
    cases hq

theorem InOrder.skip {H : List Row} {n m : Nat} (hnm : n ≤ m) (hc : ∀ i, n ≤ i → i < m → Cancelled H i) :
    ∀ {es : List (List Nat)} {n' : Nat}, InOrder H m es n' → InOrder H n es n' := by
  intro es n' h
  cases es with
  | nil =>
    refine ⟨Nat.le_trans hnm h.1, ?_⟩
    intro i h1 h2
    rcases Nat.lt_or_ge i m with h3 | h3
    · exact hc i h1 h3
    · exact h.2 i h3 h2
  | cons ids r =>
    obtain ⟨k, e, h1, h2, h3, h4⟩ := h
    refine ⟨k, e, Nat.le_trans hnm h1, ?_, h3, h4⟩
    intro i h5 h6
    rcases Nat.lt_or_ge i m with h7 | h7
    · exact hc i h5 h7
    · exact h2 i h7 h6

theorem gswfSims_spec (c : Ctx) (batch : Bool) : ∀ (ws : List Nat) (st st' : LoopSt), gswfSims c batch ws st = .ok st' →
    ∃ es : WorkD, Steps c st.s es st'.s ∧ st'.work = puts st.work es ∧ (keys es).Sublist ws ∧
      (∀ e ∈ es, SimShape c false e.2) ∧ Greedy c.fields c.H batch st.pts (rowsOf es) st'.pts ∧ st'.p = st.p ∧
      st'.gens = st.gens := by
  intro ws
  induction ws with
  | nil =>
    intro st st' h
    unfold gswfSims at h
    cases h
    exact ⟨[], .nil _, rfl, List.Sublist.refl _, by simp, rfl, rfl, rfl⟩
  | cons w ws ih =>
    intro st st' h
    unfold gswfSims at h
    split at h
    · cases h
    · rename_i ids hids
      split at h
      · rename_i s' hsw
        cases h
        exact ⟨[], .fail _ w _ _ (simWork_err hsw) (.nil _), rfl, List.nil_sublist _, by simp, rfl, rfl, rfl⟩
      · cases h
      · rename_i s' wk hsw
        obtain ⟨hu, ht, hf, hr, hp, ha⟩ := simWork_ok hsw
        simp only at h
        split at h
        · cases h
          refine ⟨[(w, wk)], .cons _ w _ wk hu (.nil _), rfl, ?_, ?_, ?_, rfl, rfl⟩
          · exact List.Sublist.cons_cons w (List.nil_sublist _)
          · intro e he; rw [List.mem_singleton] at he; subst he; exact ⟨ht, hf, hp, ha⟩
          · exact ⟨by subst hr; exact hids, by subst hr; rfl⟩
        · obtain ⟨es, h1, h2, h3, h4, h5, h6, h7⟩ := ih _ _ h
          refine ⟨(w, wk) :: es, .cons _ w _ wk hu h1, h2, ?_, ?_, ?_, h6, h7⟩
          · exact List.Sublist.cons_cons w h3
          · intro e he
            rcases List.mem_cons.mp he with e1 | he
            · subst e1; exact ⟨ht, hf, hp, ha⟩
            · exact h4 e he
          · exact ⟨by subst hr; exact hids, by subst hr; exact h5⟩

theorem gswfGens_spec (c : Ctx) (o : UserOpts) : ∀ (ws : List Nat) (st st' : LoopSt), gswfGens c o ws st = .ok st' →
    ∃ es : WorkD, Steps c st.s es st'.s ∧ st'.work = puts st.work es ∧ (keys es).Sublist ws ∧
      (∀ e ∈ es, GenShape c.genIn (if c.genIn.isEmpty then [] else List.range c.H.length) false none e.2) ∧
      st'.p = st.p ∧ st'.gens = st.gens + es.length ∧
      (es ≠ [] → (∀ N, o.numActiveGens = some N → st.gens + es.length ≤ N) ∧
        (o.batchMode = true → allSimEnded c.H (fun _ => true) = true)) := by
  intro ws
  induction ws with
  | nil =>
    intro st st' h
    unfold gswfGens at h
    cases h
    exact ⟨[], .nil _, rfl, List.Sublist.refl _, by simp, rfl, rfl, by simp⟩
  | cons w ws ih =>
    intro st st' h
    unfold gswfGens at h
    split at h
    · cases h; exact ⟨[], .nil _, rfl, List.nil_sublist _, by simp, rfl, rfl, by simp⟩
    · rename_i hlim
      split at h
      · cases h; exact ⟨[], .nil _, rfl, List.nil_sublist _, by simp, rfl, rfl, by simp⟩
      · rename_i hbm
        have hb : o.batchMode = true → allSimEnded c.H (fun _ => true) = true := by
          intro hb; simpa [hb] using hbm
        split at h
        · rename_i s' hgw
          cases h
          exact ⟨[], .fail _ w _ _ (genWork_err hgw) (.nil _), rfl, List.nil_sublist _, by simp, rfl, rfl, by simp⟩
        · cases h
        · rename_i s' wk hgw
          obtain ⟨hu, ht, hf, hr, hp, ha⟩ := genWork_ok hgw
          obtain ⟨es, h1, h2, h3, h4, h5, h6, h7⟩ := ih _ _ h
          refine ⟨(w, wk) :: es, .cons _ w _ wk hu h1, h2, List.Sublist.cons_cons w h3, ?_, h5, ?_, ?_⟩
          · intro e he
            rcases List.mem_cons.mp he with e1 | he
            · subst e1; exact ⟨ht, hf, hr, hp, ha⟩
            · exact h4 e he
          · rw [h6, List.length_cons]; simp only; omega
          · intro _
            refine ⟨?_, hb⟩
            intro N hN
            rw [List.length_cons]
            by_cases hes : es = []
            · subst hes
              rw [hN] at hlim
              simp at hlim ⊢
              omega
            · have := (h7 hes).1 N hN
              simp only at this
              omega

theorem fastSims_spec (c : Ctx) : ∀ (ws : List Nat) (st st' : LoopSt) (n : Nat), fastSims c ws st = .ok st' →
    st.p.nextToGive = some n →
    ∃ (es : WorkD) (n' : Nat), Steps c st.s es st'.s ∧ st'.work = puts st.work es ∧ (keys es).Sublist ws ∧
      (∀ e ∈ es, SimShape c false e.2) ∧ st'.p = { st.p with nextToGive := some n' } ∧ st'.gens = st.gens ∧
      InOrder c.H n (rowsOf es) n' ∧ (∀ ids ∈ rowsOf es, ∀ i ∈ ids, i < c.H.length) ∧ (n ≤ c.H.length → n' ≤ c.H.length) := by
  intro ws
  induction ws with
  | nil =>
    intro st st' n h hn
    unfold fastSims at h
    cases h
    refine ⟨[], n, .nil _, rfl, List.Sublist.refl _, by simp, ?_, rfl, ⟨Nat.le_refl _, by intro i h1 h2; omega⟩, by simp [rowsOf], id⟩
    rw [← hn]
  | cons w ws ih =>
    intro st st' n h hn
    unfold fastSims at h
    rw [hn] at h
    simp only at h
    have hsk := skip_spec c.H n
    have hlen : n ≤ c.H.length → skipCanceled c.H n ≤ c.H.length := by
      intro hle
      rcases Nat.lt_or_ge c.H.length (skipCanceled c.H n) with h1 | h1
      · obtain ⟨r, hr, _⟩ := hsk.2.1 c.H.length hle h1
        rw [List.getElem?_eq_none (Nat.le_refl _)] at hr
        cases hr
      · exact h1
    split at h
    · rename_i hlt
      split at h
      · rename_i s' hsw
        cases h
        exact ⟨[], skipCanceled c.H n, .fail _ w _ _ (simWork_err hsw) (.nil _), rfl, List.nil_sublist _, by simp, rfl, rfl,
          ⟨hsk.1, hsk.2.1⟩, by simp [rowsOf], hlen⟩
      · cases h
      · rename_i s' wk hsw
        obtain ⟨hu, ht, hf, hr, hp, ha⟩ := simWork_ok hsw
        obtain ⟨es, n', h1, h2, h3, h4, h5, h6, h7, h8, h9⟩ := ih _ _ (skipCanceled c.H n + 1) h rfl
        refine ⟨(w, wk) :: es, n', .cons _ w _ wk hu h1, h2, List.Sublist.cons_cons w h3, ?_, h5, h6, ?_, ?_, ?_⟩
        · intro e he
          rcases List.mem_cons.mp he with e1 | he
          · subst e1; exact ⟨ht, hf, hp, ha⟩
          · exact h4 e he
        · exact ⟨skipCanceled c.H n, hr, hsk.1, hsk.2.1, hsk.2.2, h7⟩
        · intro ids hids i hi
          unfold rowsOf at hids
          rw [List.map_cons] at hids
          rcases List.mem_cons.mp hids with e1 | hids
          · subst e1; rw [hr, List.mem_singleton] at hi; subst hi; exact hlt
          · exact h8 ids hids i hi
        · intro _; exact h9 (by omega)
    · obtain ⟨es, n', h1, h2, h3, h4, h5, h6, h7, h8, h9⟩ := ih _ _ (skipCanceled c.H n) h rfl
      exact ⟨es, n', h1, h2, List.Sublist.cons w h3, h4, h5, h6, InOrder.skip hsk.1 hsk.2.1 h7, h8, fun hle => h9 (hlen hle)⟩

theorem fastGens_spec (c : Ctx) (o : UserOpts) : ∀ (ws : List Nat) (st st' : LoopSt), fastGens c o ws st = .ok st' →
    ws.Nodup →
    ∃ es : WorkD, Steps c st.s es st'.s ∧ st'.work = puts st.work es ∧ (keys es).Sublist ws ∧
      (∀ e ∈ es, e.1 ∉ keys st.work ∧ GenShape c.genIn (if c.genIn.isEmpty then [] else List.range c.H.length) false none e.2) ∧
      st'.p.nextToGive = st.p.nextToGive ∧ st'.gens = st.gens + es.length ∧
      (es ≠ [] → ∀ N, o.numActiveGens = some N → st.gens + es.length ≤ N) := by
  intro ws
  induction ws with
  | nil =>
    intro st st' h _
    unfold fastGens at h
    cases h
    exact ⟨[], .nil _, rfl, List.Sublist.refl _, by simp, rfl, rfl, by simp⟩
  | cons w ws ih =>
    intro st st' h hnd
    rw [List.nodup_cons] at hnd
    unfold fastGens at h
    split at h
    · rename_i hc
      split at h
      · rename_i s' hgw
        cases h
        exact ⟨[], .fail _ w _ _ (genWork_err hgw) (.nil _), rfl, List.nil_sublist _, by simp, rfl, rfl, by simp⟩
      · cases h
      · rename_i s' wk hgw
        obtain ⟨hu, ht, hf, hr, hp, ha⟩ := genWork_ok hgw
        split at h
        · cases h
        · rename_i t htg
          obtain ⟨es, h1, h2, h3, h4, h5, h6, h7⟩ := ih _ _ h hnd.2
          refine ⟨(w, wk) :: es, .cons _ w _ wk hu h1, h2, List.Sublist.cons_cons w h3, ?_, h5, ?_, ?_⟩
          · intro e he
            rcases List.mem_cons.mp he with e1 | he
            · subst e1; exact ⟨hc.1, ht, hf, hr, hp, ha⟩
            · refine ⟨fun hk => (h4 e he).1 ?_, (h4 e he).2⟩
              unfold keys at hk ⊢
              rw [mem_keys_dset]
              exact Or.inr hk
          · rw [h6, List.length_cons]; simp only; omega
          · intro _ N hN
            rw [List.length_cons]
            by_cases hes : es = []
            · subst hes
              rw [hN] at hc
              simp at hc ⊢
              omega
            · have := h7 hes N hN
              simp only at this
              omega
    · obtain ⟨es, h1, h2, h3, h4, h5, h6, h7⟩ := ih _ _ h hnd.2
      exact ⟨es, h1, h2, List.Sublist.cons w h3, h4, h5, h6, h7⟩

theorem orderSims_spec (c : Ctx) : ∀ (ws : List Nat) (st st' : LoopSt) (n : Nat), orderSims c ws st = .ok st' →
    st.p.nextToGive = some n →
    ∃ (es : WorkD) (n' : Nat), Steps c st.s es st'.s ∧ st'.work = puts st.work es ∧ (keys es).Sublist ws ∧
      (∀ e ∈ es, SimShape c false e.2) ∧ st'.p = { st.p with nextToGive := some n' } ∧
      InOrder c.H n (rowsOf es) n' ∧ (n ≤ c.H.length → ∀ ids ∈ rowsOf es, ∀ i ∈ ids, i ≤ c.H.length) := by
  intro ws
  induction ws with
  | nil =>
    intro st st' n h hn
    unfold orderSims at h
    cases h
    refine ⟨[], n, .nil _, rfl, List.Sublist.refl _, by simp, ?_, ⟨Nat.le_refl _, by intro i h1 h2; omega⟩, by simp [rowsOf]⟩
    rw [← hn]
  | cons w ws ih =>
    intro st st' n h hn
    unfold orderSims at h
    rw [hn] at h
    simp only at h
    have hsk := skip_spec c.H n
    have hlen : n ≤ c.H.length → skipCanceled c.H n ≤ c.H.length := by
      intro hle
      rcases Nat.lt_or_ge c.H.length (skipCanceled c.H n) with h1 | h1
      · obtain ⟨r, hr, _⟩ := hsk.2.1 c.H.length hle h1
        rw [List.getElem?_eq_none (Nat.le_refl _)] at hr
        cases hr
      · exact h1
    split at h
    · rename_i s' hsw
      cases h
      exact ⟨[], skipCanceled c.H n, .fail _ w _ _ (simWork_err hsw) (.nil _), rfl, List.nil_sublist _, by simp, rfl,
        ⟨hsk.1, hsk.2.1⟩, by simp [rowsOf]⟩
    · cases h
    · rename_i s' wk hsw
      obtain ⟨hu, ht, hf, hr, hp, ha⟩ := simWork_ok hsw
      split at h
      · cases h
        refine ⟨[(w, wk)], skipCanceled c.H n + 1, .cons _ w _ wk hu (.nil _), rfl, List.Sublist.cons_cons w (List.nil_sublist _), ?_, rfl, ?_, ?_⟩
        · intro e he; rw [List.mem_singleton] at he; subst he; exact ⟨ht, hf, hp, ha⟩
        · exact ⟨skipCanceled c.H n, hr, hsk.1, hsk.2.1, hsk.2.2, Nat.le_refl _, by intro i h1 h2; omega⟩
        · intro hle ids hids i hi
          unfold rowsOf at hids
          simp at hids
          subst hids
          rw [hr, List.mem_singleton] at hi
          subst hi
          exact hlen hle
      · rename_i hlt
        obtain ⟨es, n', h1, h2, h3, h4, h5, h6, h7⟩ := ih _ _ (skipCanceled c.H n + 1) h rfl
        refine ⟨(w, wk) :: es, n', .cons _ w _ wk hu h1, h2, List.Sublist.cons_cons w h3, ?_, h5, ?_, ?_⟩
        · intro e he
          rcases List.mem_cons.mp he with e1 | he
          · subst e1; exact ⟨ht, hf, hp, ha⟩
          · exact h4 e he
        · exact ⟨skipCanceled c.H n, hr, hsk.1, hsk.2.1, hsk.2.2, h6⟩
        · intro hle ids hids i hi
          unfold rowsOf at hids
          rw [List.map_cons] at hids
          rcases List.mem_cons.mp hids with e1 | hids
          · subst e1; rw [hr, List.mem_singleton] at hi; subst hi; exact hlen hle
          · exact h7 (by omega) ids hids i hi

/-- Results of generator `w` that have not been given back. -/
def owed (H : List Row) (w : Nat) : List Nat := rowsWhere H fun r => r.flag .simEnded && !r.flag .genInformed && ofGen w r

theorem opgReturns_spec (c : Ctx) (o : UserOpts) (async : Bool) : ∀ (ws : List Nat) (st st' : LoopSt),
    opgReturns c o async ws st = .ok st' →
    ∃ es : WorkD, Steps c st.s es st'.s ∧ st'.work = puts st.work es ∧ (keys es).Sublist ws ∧
      (∀ e ∈ es, GenShape c.persisIn (owed c.H e.1) true (some o.activeRecvGen) e.2 ∧ owed c.H e.1 ≠ [] ∧
        (async = false → allSimEnded c.H (ofGen e.1) = true)) ∧
      st'.p = st.p ∧ st'.gens = st.gens ∧ st'.pts = st.pts := by
  intro ws
  induction ws with
  | nil =>
    intro st st' h
    unfold opgReturns at h
    cases h
    exact ⟨[], .nil _, rfl, List.Sublist.refl _, by simp, rfl, rfl, rfl⟩
  | cons w ws ih =>
    intro st st' h
    unfold opgReturns at h
    simp only at h
    split at h
    · rename_i hc
      rw [Bool.and_eq_true] at hc
      split at h
      · cases h
      · rename_i s' wk hgw
        obtain ⟨hu, ht, hf, hr, hp, ha⟩ := genWork_ok hgw
        obtain ⟨es, h1, h2, h3, h4, h5, h6, h7⟩ := ih _ _ h
        refine ⟨(w, wk) :: es, .cons _ w _ wk hu h1, h2, List.Sublist.cons_cons w h3, ?_, h5, h6, h7⟩
        intro e he
        rcases List.mem_cons.mp he with e1 | he
        · subst e1
          refine ⟨⟨ht, hf, hr, hp, ha⟩, by intro e; unfold owed at e; simp [e] at hc, ?_⟩
          intro hasync
          rw [hasync] at hc
          simpa using hc.2
        · exact h4 e he
    · obtain ⟨es, h1, h2, h3, h4, h5, h6, h7⟩ := ih _ _ h
      exact ⟨es, h1, h2, List.Sublist.cons w h3, h4, h5, h6, h7⟩

theorem opgSims_spec (c : Ctx) (o : UserOpts) : ∀ (ws : List Nat) (st st' : LoopSt), opgSims c o ws st = .ok st' →
    ∃ es : WorkD, Steps c st.s es st'.s ∧ st'.work = puts st.work es ∧ (keys es).Sublist ws ∧
      (∀ e ∈ es, SimShape c o.altType e.2) ∧ Greedy c.fields c.H o.batchGive st.pts (rowsOf es) st'.pts ∧ st'.p = st.p ∧
      st'.gens = st.gens := by
  intro ws
  induction ws with
  | nil =>
    intro st st' h
    unfold opgSims at h
    cases h
    exact ⟨[], .nil _, rfl, List.Sublist.refl _, by simp, rfl, rfl, rfl⟩
  | cons w ws ih =>
    intro st st' h
    unfold opgSims at h
    split at h
    · cases h; exact ⟨[], .nil _, rfl, List.nil_sublist _, by simp, rfl, rfl, rfl⟩
    · split at h
      · cases h
      · rename_i ids hids
        split at h
        · rename_i s' hsw
          cases h
          exact ⟨[], .fail _ w _ _ (simWork_err hsw) (.nil _), rfl, List.nil_sublist _, by simp, rfl, rfl, rfl⟩
        · cases h
        · rename_i s' wk hsw
          obtain ⟨hu, ht, hf, hr, hp, ha⟩ := simWork_ok hsw
          obtain ⟨es, h1, h2, h3, h4, h5, h6, h7⟩ := ih _ _ h
          refine ⟨(w, wk) :: es, .cons _ w _ wk hu h1, h2, List.Sublist.cons_cons w h3, ?_, ?_, h6, h7⟩
          · intro e he
            rcases List.mem_cons.mp he with e1 | he
            · subst e1; exact ⟨ht, hf, hp, ha⟩
            · exact h4 e he
          · exact ⟨by subst hr; exact hids, by subst hr; exact h5⟩

theorem opgGens_spec (c : Ctx) (o : UserOpts) : ∀ (ws : List Nat) (st st' : LoopSt), opgGens c o ws st = .ok st' →
    ∃ es : WorkD, Steps c st.s es st'.s ∧ st'.work = puts st.work es ∧ (keys es).Sublist ws ∧
      (∀ e ∈ es, GenShape c.genIn (List.range c.H.length) true (some o.activeRecvGen) e.2) ∧
      st'.gens = st.gens + es.length ∧ (es ≠ [] → st.gens + es.length ≤ o.numActiveGens.getD 1) ∧
      st'.p = { st.p with numGensStarted := st.p.numGensStarted + es.length } := by
  intro ws
  induction ws with
  | nil =>
    intro st st' h
    unfold opgGens at h
    cases h
    exact ⟨[], .nil _, rfl, List.Sublist.refl _, by simp, rfl, by simp, rfl⟩
  | cons w ws ih =>
    intro st st' h
    unfold opgGens at h
    split at h
    · rename_i hlim
      split at h
      · rename_i s' hgw
        cases h
        exact ⟨[], .fail _ w _ _ (genWork_err hgw) (.nil _), rfl, List.nil_sublist _, by simp, rfl, by simp, rfl⟩
      · cases h
      · rename_i s' wk hgw
        obtain ⟨hu, ht, hf, hr, hp, ha⟩ := genWork_ok hgw
        obtain ⟨es, h1, h2, h3, h4, h5, h6, h7⟩ := ih _ _ h
        refine ⟨(w, wk) :: es, .cons _ w _ wk hu h1, h2, List.Sublist.cons_cons w h3, ?_, ?_, ?_, ?_⟩
        · intro e he
          rcases List.mem_cons.mp he with e1 | he
          · subst e1; exact ⟨ht, hf, hr, hp, ha⟩
          · exact h4 e he
        · rw [h5, List.length_cons]; simp only; omega
        · intro _
          rw [List.length_cons]
          by_cases hes : es = []
          · subst hes; simp; omega
          · have := h6 hes
            simp only at this
            omega
        · rw [h7, List.length_cons]
          simp only [PInfo.mk.injEq, true_and, and_true]
          omega
    · obtain ⟨es, h1, h2, h3, h4, h5, h6, h7⟩ := ih _ _ h
      exact ⟨es, h1, h2, List.Sublist.cons w h3, h4, h5, h6, h7⟩

end Verif.Alloc
