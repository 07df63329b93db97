import Verif.Alloc.Loops
/-! Helper lemmas: priorities, in-order hand-out, and the loops of the aposmm allocation function. -/
namespace Verif.Alloc
open Verif.History Verif.Res Verif.Sched

theorem mem_rowsWhere {H : List Row} {q : Row → Bool} {i : Nat} :
    i ∈ rowsWhere H q ↔ ∃ r, H[i]? = some r ∧ q r = true := by
  unfold rowsWhere
  rw [List.mem_filter, List.mem_range]
  constructor
  · rintro ⟨h1, h2⟩
    refine ⟨H[i], List.getElem?_eq_getElem h1, ?_⟩
    rw [List.getElem?_eq_getElem h1] at h2
    simpa using h2
  · rintro ⟨r, h1, h2⟩
    obtain ⟨h3, h4⟩ := List.getElem?_eq_some_iff.mp h1
    exact ⟨h3, by rw [h1]; simpa using h2⟩

theorem rowsWhere_sorted (H : List Row) (q : Row → Bool) : (rowsWhere H q).Pairwise (· < ·) :=
  List.Pairwise.filter _ List.pairwise_lt_range

theorem rowsWhere_nodup (H : List Row) (q : Row → Bool) : (rowsWhere H q).Nodup :=
  (rowsWhere_sorted H q).imp (fun h => Nat.ne_of_lt h)

theorem argmax_spec (H : List Row) : ∀ (l : List Nat) (b : Nat), argmaxPrio H b l ∈ b :: l ∧
    ∀ j ∈ b :: l, prio H j ≤ prio H (argmaxPrio H b l) := by
  intro l
  induction l with
  | nil => intro b; exact ⟨by simp [argmaxPrio], by simp [argmaxPrio]⟩
  | cons i is ih =>
    intro b
    unfold argmaxPrio
    split
    · rename_i hgt
      obtain ⟨h1, h2⟩ := ih i
      refine ⟨List.mem_cons_of_mem _ h1, ?_⟩
      intro j hj
      rcases List.mem_cons.mp hj with e | hj
      · subst e; exact Int.le_trans (Int.le_of_lt hgt) (h2 i List.mem_cons_self)
      · exact h2 j hj
    · rename_i hle
      obtain ⟨h1, h2⟩ := ih b
      refine ⟨?_, ?_⟩
      · rcases List.mem_cons.mp h1 with e | h
        · rw [e]; exact List.mem_cons_self
        · exact List.mem_cons_of_mem _ (List.mem_cons_of_mem _ h)
      · intro j hj
        rcases List.mem_cons.mp hj with e | hj
        · subst e; exact h2 _ List.mem_cons_self
        · rcases List.mem_cons.mp hj with e | hj
          · subst e; exact Int.le_trans (Int.not_lt.mp hle) (h2 b List.mem_cons_self)
          · exact h2 j (List.mem_cons_of_mem _ hj)

/-- The first of the best: everything before it is strictly worse. -/
theorem argmax_first (H : List Row) : ∀ (l : List Nat) (b : Nat), (b :: l).Pairwise (· < ·) →
    ∀ j ∈ b :: l, j < argmaxPrio H b l → prio H j < prio H (argmaxPrio H b l) := by
  intro l
  induction l with
  | nil => intro b _ j hj hlt; simp [argmaxPrio] at hj hlt; omega
  | cons i is ih =>
    intro b hp j hj hlt
    unfold argmaxPrio at hlt ⊢
    rw [List.pairwise_cons] at hp
    split
    · rename_i hgt
      rw [if_pos hgt] at hlt
      rcases List.mem_cons.mp hj with e | hj
      · subst e; exact Int.lt_of_lt_of_le hgt ((argmax_spec H is i).2 i List.mem_cons_self)
      · exact ih i hp.2 j hj hlt
    · rename_i hle
      rw [if_neg hle] at hlt
      have hp2 : (b :: is).Pairwise (· < ·) := by
        rw [List.pairwise_cons]
        exact ⟨fun a ha => hp.1 a (List.mem_cons_of_mem _ ha), (List.pairwise_cons.mp hp.2).2⟩
      rcases List.mem_cons.mp hj with e | hj
      · subst e; exact ih _ hp2 _ List.mem_cons_self hlt
      · rcases List.mem_cons.mp hj with e | hj
        · subst e
          have hb : b < j := hp.1 j List.mem_cons_self
          have := ih b hp2 b List.mem_cons_self (Nat.lt_trans hb hlt)
          exact Int.lt_of_le_of_lt (Int.not_lt.mp hle) this
        · exact ih b hp2 j (List.mem_cons_of_mem _ hj) hlt

theorem pbp_sub {fields : List Field} {H : List Row} {pts ids : List Nat} {batch : Bool}
    (h : pointsByPriority fields H pts batch = .ok ids) : ids.Sublist pts ∧ ids ≠ [] := by
  unfold pointsByPriority at h
  cases pts with
  | nil => cases h
  | cons i is =>
    simp only at h
    have hm := argmax_spec H is i
    split at h
    · split at h
      · injection h with h
        subst h
        refine ⟨List.filter_sublist, ?_⟩
        apply List.ne_nil_of_mem (a := argmaxPrio H i is)
        rw [List.mem_filter]
        exact ⟨hm.1, by simp⟩
      · injection h with h
        subst h
        exact ⟨List.singleton_sublist.mpr hm.1, by simp⟩
    · injection h with h
      subst h
      exact ⟨List.Sublist.cons_cons _ (List.nil_sublist _), by simp⟩

theorem pbp_ok {fields : List Field} {H : List Row} {pts : List Nat} {batch : Bool} (h : pts ≠ []) :
    ∃ ids, pointsByPriority fields H pts batch = .ok ids := by
  cases pts with
  | nil => exact absurd rfl h
  | cons i is =>
    unfold pointsByPriority
    simp only
    split
    · split
      · exact ⟨_, rfl⟩
      · exact ⟨_, rfl⟩
    · exact ⟨_, rfl⟩

/-- Chunks are disjoint parts of the waiting points. -/
theorem Greedy.parts {fields : List Field} {H : List Row} {batch : Bool} : ∀ {chunks : List (List Nat)} {pts pts' : List Nat},
    Greedy fields H batch pts chunks pts' → pts.Nodup →
    chunks.flatten.Nodup ∧ (∀ i ∈ chunks.flatten, i ∈ pts) ∧ pts' = pts.filter (fun i => decide (i ∉ chunks.flatten)) ∧
    (∀ ch ∈ chunks, ch ≠ []) := by
  intro chunks
  induction chunks with
  | nil =>
    intro pts pts' h _
    refine ⟨by simp, by simp, ?_, by simp⟩
    rw [show pts' = pts from h, List.filter_eq_self.mpr (by simp)]
  | cons ids r ih =>
    intro pts pts' h hnd
    obtain ⟨h1, h2⟩ := h
    obtain ⟨hsub, hne⟩ := pbp_sub h1
    obtain ⟨i1, i2, i3, i4⟩ := ih h2 (List.Pairwise.filter _ hnd)
    rw [List.flatten_cons]
    refine ⟨?_, ?_, ?_, ?_⟩
    · rw [List.nodup_append]
      refine ⟨hsub.nodup hnd, i1, ?_⟩
      intro a ha b hb hab
      subst hab
      have := i2 a hb
      rw [List.mem_filter] at this
      simp at this
      exact this.2 ha
    · intro i hi
      rcases List.mem_append.mp hi with hi | hi
      · exact hsub.subset hi
      · exact (List.mem_filter.mp (i2 i hi)).1
    · rw [i3, List.filter_filter]
      apply List.filter_congr
      intro x _
      rw [Bool.eq_iff_iff]
      simp [not_or]
      exact and_comm
    · intro ch hch
      rcases List.mem_cons.mp hch with e | hch
      · subst e; exact hne
      · exact i4 ch hch

/-- What was available when a chunk was chosen: everything not in an earlier chunk. -/
theorem Greedy.at {fields : List Field} {H : List Row} {batch : Bool} : ∀ {pre : List (List Nat)} {ids : List Nat}
    {post : List (List Nat)} {pts pts' : List Nat}, Greedy fields H batch pts (pre ++ ids :: post) pts' →
    pointsByPriority fields H (pts.filter fun i => decide (i ∉ pre.flatten)) batch = .ok ids := by
  intro pre
  induction pre with
  | nil =>
    intro ids post pts pts' h
    rw [List.filter_eq_self.mpr (by simp)]
    exact h.1
  | cons c pre ih =>
    intro ids post pts pts' h
    have := ih h.2
    rw [List.filter_filter] at this
    rw [← this]
    congr 1
    apply List.filter_congr
    intro x _
    rw [Bool.eq_iff_iff]
    simp [not_or]
    exact and_comm

theorem InOrder.facts {H : List Row} : ∀ {chunks : List (List Nat)} {n n' : Nat}, InOrder H n chunks n' →
    n ≤ n' ∧ chunks.flatten.Pairwise (· < ·) ∧ (∀ ch ∈ chunks, ∃ m, ch = [m]) ∧
    (∀ i ∈ chunks.flatten, n ≤ i ∧ i < n' ∧ ¬ Cancelled H i) ∧
    (∀ i, n ≤ i → i < n' → i ∉ chunks.flatten → Cancelled H i) := by
  intro chunks
  induction chunks with
  | nil => intro n n' h; exact ⟨h.1, by simp, by simp, by simp, fun i h1 h2 _ => h.2 i h1 h2⟩
  | cons ids r ih =>
    intro n n' h
    obtain ⟨m, e, h1, h2, h3, h4⟩ := h
    obtain ⟨i1, i2, i3, i4, i5⟩ := ih h4
    subst e
    refine ⟨by omega, ?_, ?_, ?_, ?_⟩
    · simp only [List.flatten_cons, List.singleton_append, List.pairwise_cons]
      exact ⟨fun a ha => (i4 a ha).1, i2⟩
    · intro ch hch
      rcases List.mem_cons.mp hch with e | hch
      · exact ⟨m, e⟩
      · exact i3 ch hch
    · intro i hi
      simp only [List.flatten_cons, List.singleton_append, List.mem_cons] at hi
      rcases hi with e | hi
      · subst e; exact ⟨h1, by omega, h3⟩
      · have := i4 i hi; exact ⟨by omega, this.2.1, this.2.2⟩
    · intro i h5 h6 h7
      simp only [List.flatten_cons, List.singleton_append, List.mem_cons, not_or] at h7
      rcases Nat.lt_or_ge i m with h8 | h8
      · exact h2 i h5 h8
      · exact i5 i (by omega) h6 h7.2

theorem apoReturns_spec (c : Ctx) (initSample : Nat) : ∀ (ws : List Nat) (st st' : LoopSt),
    apoReturns c initSample ws st = .ok st' →
    ∃ es : WorkD, Steps c st.s es st'.s ∧ st'.work = puts st.work es ∧ (keys es).Sublist ws ∧
      (∀ e ∈ es, GenShape c.persisIn (rowsWhere c.H fun r => r.flag .simEnded && !r.flag .genInformed) true none e.2 ∧ e.2.rows ≠ [] ∧
        (st.p.sampleDone = true ∨ c.H.countP (·.flag .simEnded) ≥ initSample + st.p.samplesInH0)) ∧
      (∃ b, st'.p = { st.p with sampleDone := b } ∧
        (b = true → st.p.sampleDone = true ∨ c.H.countP (·.flag .simEnded) ≥ initSample + st.p.samplesInH0)) ∧
      ((st.p.sampleDone = true ∨ c.H.countP (·.flag .simEnded) ≥ initSample + st.p.samplesInH0) →
        (rowsWhere c.H fun r => r.flag .simEnded && !r.flag .genInformed) ≠ [] → keys es = ws) := by
  intro ws
  induction ws with
  | nil =>
    intro st st' h
    unfold apoReturns at h
    cases h
    exact ⟨[], .nil _, rfl, List.Sublist.refl _, by simp, ⟨st.p.sampleDone, rfl, Or.inl⟩, fun _ _ => rfl⟩
  | cons w ws ih =>
    intro st st' h
    unfold apoReturns at h
    split at h
    · rename_i hc
      have hc' : st.p.sampleDone = true ∨ c.H.countP (·.flag .simEnded) ≥ initSample + st.p.samplesInH0 := by
        simpa using hc
      simp only at h
      split at h
      · rename_i hem
        obtain ⟨es, h1, h2, h3, h4, ⟨b, h5, _⟩, _⟩ := ih _ _ h
        exact ⟨es, h1, h2, List.Sublist.cons w h3, fun e he => ⟨(h4 e he).1, (h4 e he).2.1, hc'⟩, ⟨b, by rw [h5], fun _ => hc'⟩,
          fun _ hne => absurd (List.isEmpty_iff.mp hem) hne⟩
      · rename_i hne
        split at h
        · cases h
        · rename_i s' wk hgw
          obtain ⟨hu, ht, hf, hr, hp, ha⟩ := genWork_ok hgw
          obtain ⟨es, h1, h2, h3, h4, ⟨b, h5, _⟩, h6⟩ := ih _ _ h
          refine ⟨(w, wk) :: es, .cons _ w _ wk hu h1, h2, List.Sublist.cons_cons w h3, ?_, ⟨b, by rw [h5], fun _ => hc'⟩,
            fun _ hne => by rw [show keys ((w, wk) :: es) = w :: keys es from rfl, h6 (Or.inl rfl) hne]⟩
          intro e he
          rcases List.mem_cons.mp he with e1 | he
          · subst e1; exact ⟨⟨ht, hf, hr, hp, ha⟩, by rw [hr]; intro e; simp [e] at hne, hc'⟩
          · exact ⟨(h4 e he).1, (h4 e he).2.1, hc'⟩
    · rename_i hc
      obtain ⟨es, h1, h2, h3, h4, h5, h6⟩ := ih _ _ h
      refine ⟨es, h1, h2, List.Sublist.cons w h3, h4, h5, fun hc2 => absurd ?_ hc⟩
      simpa using hc2

theorem apoSims_spec (c : Ctx) : ∀ (ws : List Nat) (st st' : LoopSt) (n : Nat), apoSims c ws st = .ok st' →
    st.p.nextToGive = some n →
    ∃ (es : WorkD) (n' : Nat), Steps c st.s es st'.s ∧ st'.work = puts st.work es ∧ (keys es).Sublist ws ∧
      (∀ e ∈ es, SimShape c false e.2) ∧ st'.p = { st.p with nextToGive := some n' } ∧
      InOrder c.H n (rowsOf es) n' ∧ (∀ ids ∈ rowsOf es, ∀ i ∈ ids, i < c.H.length) := by
  intro ws
  induction ws with
  | nil =>
    intro st st' n h hn
    unfold apoSims at h
    cases h
    refine ⟨[], n, .nil _, rfl, List.Sublist.refl _, by simp, ?_, ⟨Nat.le_refl _, by intro i h1 h2; omega⟩, by simp [rowsOf]⟩
    rw [← hn]
  | cons w ws ih =>
    intro st st' n h hn
    unfold apoSims at h
    rw [hn] at h
    simp only at h
    have hsk := skip_spec c.H n
    split at h
    · rename_i hlt
      split at h
      · rename_i s' hsw
        cases h
        exact ⟨[], skipCanceled c.H n, .fail _ w _ _ (simWork_err hsw) (.nil _), rfl, List.nil_sublist _, by simp, rfl,
          ⟨hsk.1, hsk.2.1⟩, by simp [rowsOf]⟩
      · cases h
      · rename_i s' wk hsw
        obtain ⟨hu, ht, hf, hr, hp, ha⟩ := simWork_ok hsw
        split at h
        · cases h
          refine ⟨[(w, wk)], skipCanceled c.H n + 1, .cons _ w _ wk hu (.nil _), rfl, List.Sublist.cons_cons w (List.nil_sublist _), ?_, rfl, ?_, ?_⟩
          · intro e he; rw [List.mem_singleton] at he; subst he; exact ⟨ht, hf, hp, ha⟩
          · exact ⟨skipCanceled c.H n, hr, hsk.1, hsk.2.1, hsk.2.2, Nat.le_refl _, by intro i h1 h2; omega⟩
          · intro ids hids i hi
            unfold rowsOf at hids
            simp at hids
            subst hids
            rw [hr, List.mem_singleton] at hi
            subst hi
            exact hlt
        · obtain ⟨es, n', h1, h2, h3, h4, h5, h7, h8⟩ := ih _ _ (skipCanceled c.H n + 1) h rfl
          refine ⟨(w, wk) :: es, n', .cons _ w _ wk hu h1, h2, List.Sublist.cons_cons w h3, ?_, h5, ?_, ?_⟩
          · intro e he
            rcases List.mem_cons.mp he with e1 | he
            · subst e1; exact ⟨ht, hf, hp, ha⟩
            · exact h4 e he
          · exact ⟨skipCanceled c.H n, hr, hsk.1, hsk.2.1, hsk.2.2, h7⟩
          · intro ids hids i hi
            unfold rowsOf at hids
            rw [List.map_cons] at hids
            rcases List.mem_cons.mp hids with e1 | hids
            · subst e1; rw [hr, List.mem_singleton] at hi; subst hi; exact hlt
            · exact h8 ids hids i hi
    · obtain ⟨es, n', h1, h2, h3, h4, h5, h7, h8⟩ := ih _ _ (skipCanceled c.H n) h rfl
      exact ⟨es, n', h1, h2, List.Sublist.cons w h3, h4, h5, InOrder.skip hsk.1 hsk.2.1 h7, h8⟩

theorem apoStart_spec (c : Ctx) (ws : List Nat) (st st' : LoopSt) (h : apoStart c ws st = .ok st') :
    ∃ es : WorkD, Steps c st.s es st'.s ∧ st'.work = puts st.work es ∧ (keys es).Sublist ws ∧ es.length ≤ 1 ∧
      (∀ e ∈ es, GenShape c.genIn (List.range c.H.length) true none e.2) ∧
      (∃ b, st'.p = { st.p with genStarted := b }) ∧ (es ≠ [] → st'.p.genStarted = true) := by
  cases ws with
  | nil => unfold apoStart at h; cases h; exact ⟨[], .nil _, rfl, List.Sublist.refl _, by simp, by simp, ⟨st.p.genStarted, rfl⟩, by simp⟩
  | cons w ws =>
    simp only [apoStart] at h
    split at h
    · rename_i s' hgw
      cases h
      exact ⟨[], .fail _ w _ _ (genWork_err hgw) (.nil _), rfl, List.nil_sublist _, by simp, by simp, ⟨st.p.genStarted, rfl⟩, by simp⟩
    · cases h
    · rename_i s' wk hgw
      obtain ⟨hu, ht, hf, hr, hp, ha⟩ := genWork_ok hgw
      cases h
      refine ⟨[(w, wk)], .cons _ w _ wk hu (.nil _), rfl, List.Sublist.cons_cons w (List.nil_sublist _), by simp, ?_, ⟨true, rfl⟩, by simp⟩
      intro e he; rw [List.mem_singleton] at he; subst he; exact ⟨ht, hf, hr, hp, ha⟩

end Verif.Alloc
