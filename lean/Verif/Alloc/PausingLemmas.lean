import Verif.Alloc.Pausing
import Verif.Alloc.MorePick
/-! Helper lemmas about `Pausing.lean`. -/
namespace Verif.Alloc
open Verif.History Verif.Res Verif.Sched

theorem popOf_mem (o : PsOpts) {l : List Nat} (h : l ≠ []) : popOf o l ∈ l := by
  unfold popOf
  split
  · assumption
  · cases l with
    | nil => exact absurd rfl h
    | cons a l => simp

/-- Two bookkeepings that differ in the rows to be given, the paused points and the sizes only. -/
structure SamePts (q q' : PsInfo) : Prop where
  hasNan : q'.hasNan = q.hasNan
  complete : q'.complete = q.complete
  localIds : q'.localIds = q.localIds
  best : q'.best = q.best

theorem SamePts.rfl {q : PsInfo} : SamePts q q := ⟨_root_.rfl, _root_.rfl, _root_.rfl, _root_.rfl⟩

theorem psFind_rest (H : List Row) (o : PsOpts) (q : PsInfo) : (psFind H o q).2.need = q.need ∧
    (psFind H o q).2.hLen = q.hLen ∧ (psFind H o q).2.already = q.already ∧ (psFind H o q).2.lastSize = q.lastSize := by
  cases h : o.stopPartial <;> simp [psFind, h, psNote]

theorem mem_psOpen {H : List Row} {o : PsOpts} {q : PsInfo} {x : Int} :
    x ∈ psOpen H o q ↔ (∃ r ∈ H, ptOf o r = x) ∧ x ∉ q.hasNan ∧ x ∉ q.complete := by
  unfold psOpen
  rw [List.mem_filter, List.mem_eraseDups, List.mem_map, decide_eq_true_eq]

theorem mem_hasNan {H : List Row} {o : PsOpts} {q : PsInfo} {x : Int} :
    x ∈ (psNote H o q).hasNan ↔ x ∈ q.hasNan ∨ x ∈ psOpen H o q ∧ ptNan H o x = true := by
  simp [psNote]

theorem mem_complete {H : List Row} {o : PsOpts} {q : PsInfo} {x : Int} :
    x ∈ (psNote H o q).complete ↔ x ∈ q.complete ∨ x ∈ psOpen H o q ∧ ptNan H o x = false ∧ ptEnded H o x = true := by
  simp [psNote]

theorem mem_localIds {H : List Row} {o : PsOpts} {q : PsInfo} {x : Int} :
    x ∈ (psNote H o q).localIds ↔ x ∈ q.localIds ∨ x ∈ psOpen H o q ∧ ptNan H o x = false ∧ ptLocal H o x = true := by
  simp [psNote]

/-- The points still open after a pass. -/
theorem psOpen_again {H : List Row} {o : PsOpts} {q q' : PsInfo} (hs : SamePts (psNote H o q) q') :
    psOpen H o q' = (psOpen H o q).filter fun x => !ptNan H o x && !ptEnded H o x := by
  unfold psOpen
  rw [List.filter_filter]
  apply List.filter_congr
  intro x hx
  rw [hs.hasNan, hs.complete, Bool.eq_iff_iff, decide_eq_true_eq, mem_hasNan, mem_complete]
  simp only [mem_psOpen]
  rw [List.mem_eraseDups, List.mem_map] at hx
  simp only [Bool.and_eq_true, Bool.not_eq_true', decide_eq_true_eq, not_or]
  constructor
  · rintro ⟨⟨a1, a2⟩, b1, b2⟩
    have hn : ptNan H o x = false := by
      cases hh : ptNan H o x with
      | false => rfl
      | true => exact absurd ⟨⟨hx, a1, b1⟩, hh⟩ a2
    refine ⟨⟨hn, ?_⟩, a1, b1⟩
    cases hh : ptEnded H o x with
    | false => rfl
    | true => exact absurd ⟨⟨hx, a1, b1⟩, hn, hh⟩ b2
  · rintro ⟨⟨c1, c2⟩, a1, b1⟩
    refine ⟨⟨a1, ?_⟩, b1, ?_⟩
    · rintro ⟨_, hh⟩; rw [hh] at c1; cases c1
    · rintro ⟨_, _, hh⟩; rw [hh] at c2; cases c2

/-- A second pass over the same history notes only what is known. -/
theorem psNote_again {H : List Row} {o : PsOpts} {q q' : PsInfo} (hs : SamePts (psNote H o q) q') :
    (psNote H o q').hasNan = q'.hasNan ∧ (psNote H o q').complete = q'.complete ∧ (psNote H o q').best = q'.best ∧
    ∀ x, x ∈ (psNote H o q').localIds ↔ x ∈ q'.localIds := by
  have ho := psOpen_again hs
  have hn : (psOpen H o q').filter (fun x => ptNan H o x) = [] := by
    rw [ho, List.filter_filter, List.filter_eq_nil_iff]
    intro x _
    cases ptNan H o x <;> simp
  have hd : (psOpen H o q').filter (fun x => !ptNan H o x && ptEnded H o x) = [] := by
    rw [ho, List.filter_filter, List.filter_eq_nil_iff]
    intro x _
    cases ptNan H o x <;> cases ptEnded H o x <;> simp
  refine ⟨?_, ?_, ?_, ?_⟩
  · simp only [psNote]; rw [hn]; simp
  · simp only [psNote]; rw [hd]; simp
  · simp only [psNote]; rw [hd]; rfl
  · intro x
    rw [mem_localIds, hs.localIds, mem_localIds]
    constructor
    · rintro (h | ⟨h1, h2, h3⟩)
      · exact h
      · rw [ho, List.mem_filter] at h1
        exact .inr ⟨h1.1, h2, h3⟩
    · exact .inl

/-- A second pass over the same history finds no further points. -/
theorem psLate_again {H : List Row} {o : PsOpts} {q q' : PsInfo} (hs : SamePts (psNote H o q) q') :
    ∀ x ∈ psLate H o q', x ∈ psLate H o q := by
  intro x hx
  obtain ⟨n1, n2, n3, n4⟩ := psNote_again hs
  have ho := psOpen_again hs
  unfold psLate at hx ⊢
  split at hx
  · rename_i hc
    rw [List.mem_filter] at hx
    rw [if_pos, List.mem_filter]
    · refine ⟨?_, ?_⟩
      · have := hx.1; rw [ho, List.mem_filter] at this; exact this.1
      · have h2 := hx.2
        unfold psWorse at h2 ⊢
        rw [n3, n2, hs.best, hs.complete] at h2
        cases h3 : ptVal H o x with
        | none => rw [h3] at h2; cases h2
        | some v =>
          rw [h3] at h2
          cases h4 : (psNote H o q).best with
          | none => rw [h4] at h2; cases h2
          | some b =>
            rw [h4] at h2
            simp only [decide_eq_true_eq] at h2 ⊢
            rw [n4, hs.localIds] at h2
            exact h2
    · refine ⟨?_, ?_⟩
      · rw [← hs.complete, ← n2]; exact hc.1
      · refine Nat.lt_of_lt_of_le hc.2 ?_
        rw [ho]; exact List.length_filter_le _ _
  · cases hx

/-- All points a pass would find are paused. -/
def Quiet (H : List Row) (o : PsOpts) (q : PsInfo) : Prop := ∀ x ∈ (psFind H o q).1, x ∈ q.already

/-- The bookkeeping after a pass, up to the rows to be given. -/
def After (H : List Row) (o : PsOpts) (q q' : PsInfo) : Prop := SamePts (psFind H o q).2 q'

theorem psFind_again {H : List Row} {o : PsOpts} {q q' : PsInfo} (hs : After H o q q') : ∀ x ∈ (psFind H o q').1, x ∈ (psFind H o q).1 := by
  intro x hx
  unfold After at hs
  unfold psFind at hx hs ⊢
  cases hp : o.stopPartial with
  | false => rw [hp] at hx; exact hx
  | true =>
    rw [hp] at hx hs
    rcases List.mem_append.mp hx with h | h
    · exact List.mem_append_left _ h
    · exact List.mem_append_right _ (psLate_again hs x h)

/-- One pass: the rows to be given lose exactly the rows marked. -/
theorem psPause_spec (H : List Row) (o : PsOpts) (ids : List Int) (q : PsInfo) :
    (psPause H o ids q).2.hLen = q.hLen ∧ (psPause H o ids q).2.lastSize = q.lastSize ∧ SamePts q (psPause H o ids q).2 ∧
    (psPause H o ids q).2.need = q.need.filter (fun i => decide (i ∉ (psPause H o ids q).1)) ∧
    (∀ x ∈ q.already, x ∈ (psPause H o ids q).2.already) ∧ (∀ x ∈ ids, x ∈ (psPause H o ids q).2.already) ∧
    (((psPause H o ids q).1 = [] ∧ (psPause H o ids q).2.already = q.already ∧ ∀ x ∈ ids, x ∈ q.already) ∨
      ((psPause H o ids q).1 = psRows H o ids ∧ (psPause H o ids q).2.already = q.already ++ ids)) ∧
    ((∀ x ∈ ids, x ∈ q.already) → (psPause H o ids q).1 = [] ∧ (psPause H o ids q).2.already = q.already) := by
  unfold psPause
  split
  · rename_i h
    refine ⟨rfl, rfl, .rfl, ?_, fun _ h => h, h, .inl ⟨rfl, rfl, h⟩, fun _ => ⟨rfl, rfl⟩⟩
    simp only
    rw [List.filter_eq_self.mpr (by simp)]
  · rename_i h
    exact ⟨rfl, rfl, ⟨rfl, rfl, rfl, rfl⟩, rfl, fun _ h => List.mem_append_left _ h, fun _ h => List.mem_append_right _ h, .inr ⟨rfl, rfl⟩,
      fun h' => absurd h' h⟩

/-- The state of the bookkeeping after one pass. -/
def psPass (H : List Row) (o : PsOpts) (q : PsInfo) : List Nat × PsInfo := psPause H o (psFind H o q).1 (psFind H o q).2

structure PassSpec (H : List Row) (o : PsOpts) (q : PsInfo) (m : List Nat) (q' : PsInfo) : Prop where
  hLen : q'.hLen = q.hLen
  last : q'.lastSize = q.lastSize
  need : q'.need = q.need.filter (fun i => decide (i ∉ m))
  already : ∀ x ∈ q.already, x ∈ q'.already
  after : After H o q q'
  ids : ∀ x ∈ (psFind H o q).1, x ∈ q'.already
  marks : (m = [] ∧ q'.already = q.already ∧ ∀ x ∈ (psFind H o q).1, x ∈ q.already) ∨
    (m = psRows H o (psFind H o q).1 ∧ q'.already = q.already ++ (psFind H o q).1)
  quiet : Quiet H o q → m = [] ∧ q'.already = q.already

theorem psPass_spec (H : List Row) (o : PsOpts) (q : PsInfo) : PassSpec H o q (psPass H o q).1 (psPass H o q).2 := by
  obtain ⟨f1, f2, f3, f4⟩ := psFind_rest H o q
  obtain ⟨p1, p2, p3, p4, p5, p6, p7, p8⟩ := psPause_spec H o (psFind H o q).1 (psFind H o q).2
  refine ⟨by rw [psPass, p1, f2], by rw [psPass, p2, f4], by rw [psPass, p4, f1], ?_, p3, p6, by rw [← f3]; exact p7, ?_⟩
  · intro x hx; exact p5 x (by rw [f3]; exact hx)
  · intro hq
    obtain ⟨a1, a2⟩ := p8 (fun x hx => by rw [f3]; exact hq x hx)
    exact ⟨a1, by rw [psPass, a2, f3]⟩

theorem PassSpec.again {H : List Row} {o : PsOpts} {q : PsInfo} {m : List Nat} {q' : PsInfo} (h : PassSpec H o q m q') (n : List Nat) :
    Quiet H o { q' with need := n } := by
  intro x hx
  exact h.ids x (psFind_again (q' := { q' with need := n }) ⟨h.after.hasNan, h.after.complete, h.after.localIds, h.after.best⟩ x hx)

/-- What the loop over the idle workers does. -/
structure SimsSpec (c : Ctx) (o : PsOpts) (ws : List Nat) (st st' : PsSt) (es : WorkD) (m : List Nat) : Prop where
  work : st'.work = puts st.work es
  key : (keys es).Sublist ws
  shape : ∀ e ∈ es, SimShape c false e.2 ∧ ∃ r, e.2.rows = [r]
  nodup : (rowsOf es).flatten.Nodup
  need : ∀ i, i ∈ st'.q.need ↔ i ∈ st.q.need ∧ i ∉ m ∧ i ∉ (rowsOf es).flatten
  needNodup : st'.q.need.Nodup
  given : ∀ i ∈ (rowsOf es).flatten, i ∈ st.q.need ∧ i ∉ m
  marks : st'.marks = st.marks ++ m
  paused : (m = [] ∧ st'.q.already = st.q.already ∧ (es = [] ∨ ∀ x ∈ (psFind c.H o st.q).1, x ∈ st.q.already)) ∨
    (m = psRows c.H o (psFind c.H o st.q).1 ∧ st'.q.already = st.q.already ++ (psFind c.H o st.q).1)
  hLen : st'.q.hLen = st.q.hLen
  last : st'.q.lastSize = st.q.lastSize
  gens : st'.gens = st.gens
  quiet : Quiet c.H o st.q → m = [] ∧ st'.q.already = st.q.already
  busy : c.manage = false → st'.q.need = [] ∨ keys es = ws
  steps : Steps c st.s es st'.s
  best : ∀ P : Option Int → Prop, P st.q.best → (∀ q : PsInfo, P q.best → P (psNote c.H o q).best) → P st'.q.best

theorem PassSpec.best {H : List Row} {o : PsOpts} {q : PsInfo} {m : List Nat} {q' : PsInfo} (h : PassSpec H o q m q')
    (P : Option Int → Prop) (h0 : P q.best) (hn : ∀ q : PsInfo, P q.best → P (psNote H o q).best) : P q'.best := by
  rw [h.after.best]
  unfold psFind
  cases o.stopPartial
  · exact h0
  · exact hn _ h0

theorem psSims_spec (c : Ctx) (o : PsOpts) (p : PInfo) : ∀ (ws : List Nat) (st st' : PsSt), st.q.need.Nodup →
    psSims c o p ws st = .ok st' → ∃ es m, SimsSpec c o ws st st' es m := by
  intro ws
  induction ws with
  | nil =>
    intro st st' hnd h
    unfold psSims at h
    cases h
    exact ⟨[], [], rfl, by simp [keys], by simp, by simp [rowsOf], by simp [rowsOf], hnd, by simp [rowsOf], by simp, .inl ⟨rfl, rfl, .inl rfl⟩, rfl, rfl, rfl,
      fun _ => ⟨rfl, rfl⟩, fun _ => .inr rfl, .nil _, fun P h _ => h⟩
  | cons w ws ih =>
    intro st st' hnd h
    unfold psSims at h
    split at h
    · rename_i he
      cases h
      exact ⟨[], [], rfl, by simp [keys], by simp, by simp [rowsOf], by simp [rowsOf], hnd, by simp [rowsOf], by simp, .inl ⟨rfl, rfl, .inl rfl⟩, rfl, rfl, rfl,
        fun _ => ⟨rfl, rfl⟩, fun _ => .inl he, .nil _, fun P h _ => h⟩
    · rename_i hne
      simp only at h
      have hp := psPass_spec c.H o st.q
      rw [← psPass] at h
      generalize psPass c.H o st.q = g at h hp
      obtain ⟨m, q2⟩ := g
      simp only at h hp
      have hnd2 : q2.need.Nodup := by rw [hp.need]; exact List.Pairwise.filter _ hnd
      have hmem : ∀ i, i ∈ q2.need ↔ i ∈ st.q.need ∧ i ∉ m := by intro i; rw [hp.need, List.mem_filter, decide_eq_true_eq]
      split at h
      · rename_i he
        cases h
        exact ⟨[], m, rfl, by simp [keys], by simp, by simp [rowsOf], by simpa [rowsOf] using hmem, hnd2, by simp [rowsOf], rfl, hp.marks.imp (fun h => ⟨h.1, h.2.1, .inl rfl⟩) id,
          hp.hLen, hp.last, rfl, hp.quiet, fun _ => .inl he, .nil _, fun P h0 hn => hp.best P h0 hn⟩
      · rename_i hne2
        have hpop := popOf_mem o hne2
        generalize popOf o q2.need = row at h hpop
        split at h
        · rename_i s' hsw
          cases h
          refine ⟨[], m, rfl, by simp [keys], by simp, by simp [rowsOf], by simpa [rowsOf] using hmem, hnd2, by simp [rowsOf], rfl, hp.marks.imp (fun h => ⟨h.1, h.2.1, .inl rfl⟩) id,
            hp.hLen, hp.last, rfl, hp.quiet, ?_, ?_, fun P h0 hn => hp.best P h0 hn⟩
          · intro hm
            obtain ⟨wk, e⟩ := simWork_free hm p st.s w [row] false
            rw [e] at hsw; cases hsw
          · exact .fail _ w _ _ (simWork_err hsw) (.nil _)
        · cases h
        · rename_i s' wk hsw
          obtain ⟨hu, ht, hf, hr, hpe, ha⟩ := simWork_ok hsw
          obtain ⟨es, m2, hs⟩ := ih _ _ (by exact List.Pairwise.filter _ hnd2) h
          obtain ⟨hm2, hal⟩ := hs.quiet (hp.again _)
          simp only at hal
          subst hm2
          have hrows : (rowsOf ((w, wk) :: es)).flatten = row :: (rowsOf es).flatten := by simp [rowsOf, hr]
          have hgiv : ∀ i ∈ (rowsOf es).flatten, i ∈ q2.need ∧ i ≠ row := by
            intro i hi
            have := (hs.given i hi).1
            simpa using this
          refine ⟨(w, wk) :: es, m, hs.work, ?_, ?_, ?_, ?_, hs.needNodup, ?_, ?_, ?_, ?_, ?_, hs.gens, ?_, ?_, ?_, ?_⟩
          · simp only [keys, List.map_cons]; exact hs.key.cons_cons w
          · intro e he
            rcases List.mem_cons.mp he with e1 | he
            · subst e1; exact ⟨⟨ht, hf, hpe, ha⟩, row, hr⟩
            · exact hs.shape e he
          · rw [hrows, List.nodup_cons]
            exact ⟨fun hi => (hgiv row hi).2 rfl, hs.nodup⟩
          · intro i
            rw [hs.need, hrows]
            simp only [List.mem_filter, decide_eq_true_eq, hmem, List.mem_cons, not_or, List.not_mem_nil, not_false_eq_true, true_and]
            constructor
            · rintro ⟨⟨⟨a, b⟩, c⟩, d⟩; exact ⟨a, b, c, d⟩
            · rintro ⟨a, b, c, d⟩; exact ⟨⟨⟨a, b⟩, c⟩, d⟩
          · intro i hi
            rw [hrows] at hi
            rcases List.mem_cons.mp hi with e | hi
            · subst e; exact (hmem i).mp hpop
            · exact (hmem i).mp (hgiv i hi).1
          · rw [hs.marks]; simp
          · rw [hal]
            exact hp.marks.imp (fun h => ⟨h.1, h.2.1, .inr h.2.2⟩) id
          · rw [hs.hLen]; exact hp.hLen
          · rw [hs.last]; exact hp.last
          · rw [hal]; exact hp.quiet
          · intro hm
            rcases hs.busy hm with h1 | h1
            · exact .inl h1
            · right; simp only [keys, List.map_cons] at h1 ⊢; rw [h1]
          · exact .cons p w _ wk hu hs.steps
          · intro P h0 hn
            exact hs.best P (hp.best P h0 hn) hn

/-- What the loop over the idle generator workers does. -/
structure GensSpec (c : Ctx) (o : PsOpts) (wg : List Nat) (st st' : PsSt) (es : WorkD) : Prop where
  work : st'.work = puts st.work es
  key : (keys es).Sublist wg
  shape : ∀ e ∈ es, GenShape c.genIn (List.range c.H.length) false none e.2
  count : ∀ n, o.numActive = some n → es = [] ∨ st.gens + es.length ≤ n
  batch : es ≠ [] → o.batch = true → c.H = [] ∨ psSettled c.H o st.marks st.q.lastSize = true
  q : st'.q = if es = [] then st.q else { st.q with lastSize := some c.H.length }
  marks : st'.marks = st.marks
  steps : Steps c st.s es st'.s
  free : c.manage = false → o.numActive = none → (o.batch = true → c.H = [] ∨ psSettled c.H o st.marks st.q.lastSize = true) → keys es = wg

theorem psSettled_last (H : List Row) (o : PsOpts) (marks : List Nat) : psSettled H o marks (some H.length) = true := by
  unfold psSettled
  rw [List.all_eq_true]
  intro i hi
  rw [List.mem_range] at hi
  simp [hi]

theorem genWork_free {c : Ctx} (hm : c.manage = false) (p : PInfo) (s : Sched) (w : Nat) (fs : List Field) (rows : List Nat) :
    ∃ wk, genWork c p s w fs rows false none none = (s, .ok wk) := by
  unfold genWork updateTeam
  rw [if_neg (by simp [hm])]
  exact ⟨_, rfl⟩

theorem psGens_spec (c : Ctx) (o : PsOpts) (p : PInfo) : ∀ (ws : List Nat) (st st' : PsSt),
    psGens c o p ws st = .ok st' → ∃ es, GensSpec c o ws st st' es := by
  intro ws
  induction ws with
  | nil =>
    intro st st' h
    unfold psGens at h
    cases h
    exact ⟨[], rfl, by simp [keys], by simp, fun _ _ => .inl rfl, fun h => absurd rfl h, rfl, rfl, .nil _, fun _ _ _ => rfl⟩
  | cons w ws ih =>
    intro st st' h
    unfold psGens at h
    split at h
    · rename_i hlt
      split at h
      · rename_i hb
        cases h
        refine ⟨[], rfl, by simp [keys], by simp, fun _ _ => .inl rfl, fun h => absurd rfl h, rfl, rfl, .nil _, ?_⟩
        intro _ _ hh
        simp only [Bool.and_eq_true, Bool.not_eq_true', List.isEmpty_eq_false_iff] at hb
        rcases hh hb.1.2 with h1 | h1
        · exact absurd h1 hb.1.1
        · rw [h1] at hb; cases hb.2
      · rename_i hb
        have hbatch : o.batch = true → c.H = [] ∨ psSettled c.H o st.marks st.q.lastSize = true := by
          intro h1
          rw [h1] at hb
          cases h2 : c.H with
          | nil => exact .inl rfl
          | cons a l => rw [h2] at hb; right; simpa using hb
        split at h
        · rename_i s' hgw
          cases h
          refine ⟨[], rfl, by simp [keys], by simp, fun _ _ => .inl rfl, fun h => absurd rfl h, rfl, rfl, (.fail _ w _ _ (genWork_err hgw) (.nil _)), ?_⟩
          intro hm _ _
          obtain ⟨wk, e⟩ := genWork_free hm p st.s w c.genIn (List.range c.H.length)
          rw [e] at hgw; cases hgw
        · cases h
        · rename_i s' wk hgw
          obtain ⟨hu, ht, hf, hr, hpe, ha⟩ := genWork_ok hgw
          obtain ⟨es, hs⟩ := ih _ _ h
          refine ⟨(w, wk) :: es, hs.work, ?_, ?_, ?_, fun _ => hbatch, ?_, hs.marks, .cons p w _ wk hu hs.steps, ?_⟩
          · simp only [keys, List.map_cons]; exact hs.key.cons_cons w
          · intro e he
            rcases List.mem_cons.mp he with e1 | he
            · subst e1; exact ⟨ht, hf, hr, hpe, ha⟩
            · exact hs.shape e he
          · intro n hn
            right
            rw [hn] at hlt
            simp only [Option.getD_some] at hlt
            rw [List.length_cons]
            rcases hs.count n hn with e | e
            · subst e; simp; omega
            · simp only at e; omega
          · rw [if_neg (by simp), hs.q]
            split <;> rfl
          · intro hm hn hh
            simp only [keys, List.map_cons]
            rw [← hs.free hm hn (fun _ => .inr (psSettled_last _ _ _))]
            rfl
    · rename_i hlt
      cases h
      refine ⟨[], rfl, by simp [keys], by simp, fun _ _ => .inl rfl, fun h => absurd rfl h, rfl, rfl, .nil _, ?_⟩
      intro _ hn _
      rw [hn] at hlt
      simp at hlt


end Verif.Alloc
