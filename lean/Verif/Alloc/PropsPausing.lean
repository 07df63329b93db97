import Verif.Alloc.PausingRun

/-!
# Allocation with pausing (C31, C58)
-/

namespace Verif.Alloc
open Verif.History Verif.Res Verif.Sched

/-! ## C31 -/

/-- `give_sim_work_first` of `fast_alloc_and_pausing`: every order of an answer is accepted, one order per worker.  Partial: only if
columns are given to the generator or the history is empty; see the witness. -/
theorem C31_pausing_accepted_partial (c : Ctx) (ht : TableOk c) (hs : SpecsOk c) (hg : c.genIn ≠ [] ∨ c.H = []) (hid : IdsAreRows c.H)
    (o : PsOpts) (p : PInfo) (q : PsInfo) (hq : q.need.Nodup ∧ (∀ i ∈ q.need, i < q.hLen) ∧ q.hLen ≤ c.H.length) (s : Sched) (a : PsAns)
    (h : psAlloc c o p q s = .ok a) :
    (a.work.map (·.1)).Nodup ∧ ∀ w wk, (w, wk) ∈ a.work → Accepted c w wk := by
  rcases ps_spec (psUpdate_need hid hq.1 hq.2.1 hq.2.2).1 h with ⟨e, _⟩ | ⟨_, _, _, sims, gens, ws, wg, hp⟩
  · subst e; exact ⟨List.nodup_nil, by simp⟩
  · refine ⟨by rw [hp.work]; exact puts_nodup (by simp), ?_⟩
    intro w wk hm
    have key : ∃ k ∈ c.W, k.id = w ∧ k.active = 0 := by
      rcases hp.mem hm with h1 | h1
      · obtain ⟨k, k1, k2, k3, _⟩ := availIds_idle hp.simw (hp.simk.subset (List.mem_map.mpr ⟨_, h1, rfl⟩))
        exact ⟨k, k1, k2, k3⟩
      · obtain ⟨k, k1, k2, k3, _⟩ := availIds_idle hp.genw (hp.genk.subset (List.mem_map.mpr ⟨_, h1, rfl⟩))
        exact ⟨k, k1, k2, k3⟩
    obtain ⟨k, k1, k2, k3⟩ := key
    subst k2
    refine accepted_idle ht k1 k3 ?_
    rcases hp.mem hm with h1 | h1
    · exact hs.simFields (hp.shape _ h1).1
    · have hsh := hp.gen _ h1
      intro hne
      rcases hg with hg | hg
      · rw [hsh.fields]
        exact ⟨eraseDups_ne hg, fun f hf => hs.gen f (List.mem_eraseDups.mp hf)⟩
      · rw [hsh.rows, hg] at hne; exact absurd rfl hne

/-! ## C58 -/

/-- Over a whole run a row is given out at most once, only when it is in the history, alone in its order, and never once it has been
paused; nothing is given out or paused after `sim_max` rows have been given or when no worker is idle. -/
theorem C58_once (o : PsOpts) (cs : List (Ctx × PInfo × Sched)) (hcs : PsCallsOk cs) (pre : List (Ctx × PsAns)) (y : Ctx × PsAns)
    (post : List (Ctx × PsAns)) (h : psRun o {} cs = pre ++ y :: post) :
    (∀ i, GivenOut y.2.work i → i < y.1.H.length ∧ i ∉ y.2.marks ∧ ∀ z ∈ pre, ¬GivenOut z.2.work i ∧ i ∉ z.2.marks) ∧
    (∀ w wk, (w, wk) ∈ y.2.work → wk.tag = EVAL_SIM → ∃ i, wk.rows = [i] ∧
      ∀ w' wk', (w', wk') ∈ y.2.work → wk'.tag = EVAL_SIM → i ∈ wk'.rows → w' = w) ∧
    (y.1.simMaxGiven = true ∨ y.1.anyIdle = false → y.2.work = [] ∧ y.2.marks = []) := by
  obtain ⟨q, p, s, hi, _, hW, hid, hle, ha, _⟩ := ps_run (o := o) (I := fun _ _ => True) (by intros; trivial) cs [] {} hcs
    (by intro x _; exact Nat.zero_le _) (.init o) trivial pre y post h
  rw [List.nil_append] at hi
  obtain ⟨_, _, hg⟩ := hi.step hid hle ha
  refine ⟨hg, ?_⟩
  rcases ps_spec (psUpdate_need hid hi.nodup hi.lt hle).1 ha with ⟨e, _⟩ | ⟨g1, g2, _, sims, gens, ws, wg, hp⟩
  · rw [e]; exact ⟨fun w wk hm => (by cases hm), fun _ => ⟨rfl, rfl⟩⟩
  · refine ⟨?_, fun hh => by rw [g1, g2] at hh; simp at hh⟩
    intro w wk hm ht
    have h1 := hp.sim hm ht
    obtain ⟨i, hr⟩ := (hp.shape _ h1).2
    refine ⟨i, hr, ?_⟩
    intro w' wk' hm' ht' hi'
    have h2 := hp.sim hm' ht'
    exact nodup_flatten_key hp.nodup h2 h1 hi' (by simp only at hr; rw [hr]; exact List.mem_singleton.mpr rfl)

/-- Some component of the point `x` is a NaN. -/
def PtNan (H : List Row) (o : PsOpts) (x : Int) : Prop := ∃ r ∈ H, ptOf o r = x ∧ o.isNan r = true

/-- All components of the point `x` are evaluated, none is a NaN; their combined value is `b`. -/
def PtComplete (H : List Row) (o : PsOpts) (x : Int) (b : Int) : Prop :=
  (∃ r ∈ H, ptOf o r = x) ∧ (∀ r ∈ H, ptOf o r = x → r.flag .simEnded = true ∧ o.isNan r = false) ∧ o.comb (ptRows H o x) = some b

/-- A component of the point `x` is not evaluated, the point is not marked as local, and the combined value of its components, those not
evaluated counting with their initial value, is `v`. -/
def PtPartial (H : List Row) (o : PsOpts) (x : Int) (v : Int) : Prop :=
  (∃ r ∈ H, ptOf o r = x ∧ r.flag .simEnded = false) ∧ o.comb (ptRows H o x) = some v ∧
  ∀ f r l, o.localPt = some f → ptRows H o x = r :: l → r.flag f = false

theorem ptNan_iff {H : List Row} {o : PsOpts} {x : Int} : ptNan H o x = true ↔ PtNan H o x := by
  unfold ptNan PtNan ptRows
  rw [List.any_eq_true]
  simp only [List.mem_filter, decide_eq_true_eq]
  constructor
  · rintro ⟨r, ⟨h1, h2⟩, h3⟩; exact ⟨r, h1, h2, h3⟩
  · rintro ⟨r, h1, h2, h3⟩; exact ⟨r, ⟨h1, h2⟩, h3⟩

theorem ptEnded_iff {H : List Row} {o : PsOpts} {x : Int} : ptEnded H o x = true ↔ ∀ r ∈ H, ptOf o r = x → r.flag .simEnded = true := by
  unfold ptEnded ptRows
  rw [List.all_eq_true]
  simp only [List.mem_filter, decide_eq_true_eq]
  constructor
  · intro h r h1 h2; exact h r ⟨h1, h2⟩
  · rintro h r ⟨h1, h2⟩; exact h r h1 h2

theorem bool_false {b : Bool} {P : Prop} (h : b = true ↔ P) : b = false ↔ ¬P := by
  rw [← h]; cases b <;> simp

/-- The best value of a run is that of a complete point. -/
theorem psNote_best {H : List Row} {o : PsOpts} {q : PsInfo} {b : Int} (h : (psNote H o q).best = some b) :
    q.best = some b ∨ ∃ x, PtComplete H o x b := by
  rcases minBest_mem h with h | h
  · exact .inl h
  · right
    rw [List.mem_map] at h
    obtain ⟨x, hx, e⟩ := h
    rw [List.mem_filter] at hx
    obtain ⟨h1, h2⟩ := hx
    simp only [Bool.and_eq_true, Bool.not_eq_true'] at h2
    refine ⟨x, (mem_psOpen.mp h1).1, ?_, e⟩
    intro r hr hx
    refine ⟨ptEnded_iff.mp h2.2 r hr hx, ?_⟩
    have := (bool_false ptNan_iff).mp h2.1
    cases hn : o.isNan r with
    | false => rfl
    | true => exact absurd ⟨r, hr, hx, hn⟩ this

/-- Why a point is found in a pass. -/
theorem psFind_reason {H : List Row} {o : PsOpts} {q : PsInfo} {x : Int} (h : x ∈ (psFind H o q).1) :
    (o.stopNan = true ∧ PtNan H o x) ∨
    (o.stopPartial = true ∧ (∃ r ∈ H, ptOf o r = x) ∧ ∃ b, (q.best = some b ∨ ∃ x', PtComplete H o x' b) ∧
      ((PtNan H o x ∧ b < 0) ∨ (¬PtNan H o x ∧ ∃ v, PtPartial H o x v ∧ b < v))) := by
  unfold psFind at h
  simp only [List.mem_append] at h
  rcases h with h | h
  · left
    split at h
    · rename_i hs
      rw [List.mem_map] at h
      obtain ⟨r, hr, e⟩ := h
      rw [List.mem_filter] at hr
      exact ⟨hs, r, hr.1, e, hr.2⟩
    · cases h
  · right
    split at h
    · rename_i hs
      refine ⟨hs, ?_⟩
      unfold psLate at h
      split at h
      · rw [List.mem_filter] at h
        obtain ⟨h1, h2⟩ := h
        refine ⟨(mem_psOpen.mp h1).1, ?_⟩
        unfold psWorse at h2
        cases hv : ptVal H o x with
        | none => rw [hv] at h2; cases h2
        | some v =>
          rw [hv] at h2
          cases hb : (psNote H o q).best with
          | none => rw [hb] at h2; cases h2
          | some b =>
            rw [hb] at h2
            simp only [decide_eq_true_eq] at h2
            obtain ⟨l1, l2, l3⟩ := h2
            refine ⟨b, psNote_best hb, ?_⟩
            cases hn : ptNan H o x with
            | true =>
              left
              refine ⟨ptNan_iff.mp hn, ?_⟩
              rw [ptVal, hn] at hv
              simp at hv
              omega
            | false =>
              right
              refine ⟨(bool_false ptNan_iff).mp hn, v, ?_, l3⟩
              have he : ptEnded H o x = false := by
                cases he : ptEnded H o x with
                | false => rfl
                | true => exact absurd (mem_complete.mpr (.inr ⟨h1, hn, he⟩)) l2
              have hl : ptLocal H o x = false := by
                cases hl : ptLocal H o x with
                | false => rfl
                | true => exact absurd (mem_localIds.mpr (.inr ⟨h1, hn, hl⟩)) l1
              refine ⟨?_, ?_, ?_⟩
              · refine Decidable.byContradiction fun hno => (bool_false ptEnded_iff).mp he ?_
                intro r hr hx
                cases hf : r.flag .simEnded with
                | true => rfl
                | false => exact absurd ⟨r, hr, hx, hf⟩ hno
              · rw [ptVal, hn, he] at hv; simpa using hv
              · intro f r l hf hr
                unfold ptLocal at hl
                rw [hf, hr] at hl
                exact hl
      · cases h
    · cases h

/-- Between the calls: the best value is that of a complete point, paused points have a marked row. -/
structure PsKnown (o : PsOpts) (past : List (Ctx × PsAns)) (q : PsInfo) : Prop where
  best : ∀ b, q.best = some b → ∃ z ∈ past, ∃ x, PtComplete z.1.H o x b
  already : ∀ x ∈ q.already, ∃ z ∈ past, ∃ j ∈ z.2.marks, ∃ r, z.1.H[j]? = some r ∧ ptOf o r = x

theorem psFind_row {H : List Row} {o : PsOpts} {q : PsInfo} {x : Int} (h : x ∈ (psFind H o q).1) : ∃ r ∈ H, ptOf o r = x := by
  rcases psFind_reason h with ⟨_, r, h1, h2, _⟩ | ⟨_, h1, _⟩
  · exact ⟨r, h1, h2⟩
  · exact h1

theorem mem_psRows {H : List Row} {o : PsOpts} {ids : List Int} {i : Nat} : i ∈ psRows H o ids ↔ ∃ r, H[i]? = some r ∧ ptOf o r ∈ ids := by
  unfold psRows
  rw [mem_rowsWhere]
  simp only [decide_eq_true_eq]

theorem PsKnown.step (o : PsOpts) (past : List (Ctx × PsAns)) (q : PsInfo) (c : Ctx) (p : PInfo) (s : Sched) (a : PsAns)
    (hk : PsKnown o past q) (hi : PsInv o past q) (_hW : IdsOk c.W) (hid : IdsAreRows c.H) (hle : q.hLen ≤ c.H.length)
    (h : psAlloc c o p q s = .ok a) : PsKnown o (past ++ [(c, a)]) a.q := by
  have up : ∀ {z : Ctx × PsAns}, z ∈ past → z ∈ past ++ [(c, a)] := fun h => List.mem_append_left _ h
  rcases ps_spec (psUpdate_need hid hi.nodup hi.lt hle).1 h with ⟨e, _⟩ | ⟨_, _, _, sims, gens, ws, wg, hp⟩
  · have : a.q = q := by rw [e]
    rw [this]
    refine ⟨fun b hb => ?_, fun x hx => ?_⟩
    · obtain ⟨z, hz, r⟩ := hk.best b hb; exact ⟨z, up hz, r⟩
    · obtain ⟨z, hz, r⟩ := hk.already x hx; exact ⟨z, up hz, r⟩
  · refine ⟨?_, ?_⟩
    · refine hp.best (fun v => ∀ b, v = some b → ∃ z ∈ past ++ [(c, a)], ∃ x, PtComplete z.1.H o x b) ?_ ?_
      · intro b hb
        obtain ⟨z, hz, r⟩ := hk.best b hb; exact ⟨z, up hz, r⟩
      · intro q' hq' b hb
        rcases psNote_best hb with h1 | h1
        · exact hq' b h1
        · exact ⟨(c, a), List.mem_append_right _ (List.mem_singleton.mpr rfl), h1⟩
    · intro x hx
      have hold : x ∈ q.already → ∃ z ∈ past ++ [(c, a)], ∃ j ∈ z.2.marks, ∃ r, z.1.H[j]? = some r ∧ ptOf o r = x := by
        intro hx
        obtain ⟨z, hz, r⟩ := hk.already x hx; exact ⟨z, up hz, r⟩
      rcases hp.paused with ⟨_, h2, _⟩ | ⟨h1, h2⟩
      · rw [h2] at hx; exact hold hx
      · rw [h2] at hx
        rcases List.mem_append.mp hx with hx | hx
        · exact hold hx
        · obtain ⟨r, hr, e⟩ := psFind_row hx
          obtain ⟨j, hj, e2⟩ := List.mem_iff_getElem.mp hr
          have hjr : c.H[j]? = some r := by rw [List.getElem?_eq_getElem hj, e2]
          refine ⟨(c, a), List.mem_append_right _ (List.mem_singleton.mpr rfl), j, ?_, r, hjr, e⟩
          show j ∈ a.marks
          rw [h1, mem_psRows]
          exact ⟨r, hjr, by rw [e]; exact hx⟩

theorem PsKnown.init (o : PsOpts) : PsKnown o [] {} := by
  refine ⟨?_, ?_⟩
  · intro b hb; cases hb
  · intro x hx; cases hx

/-- A row is paused only for a reason: its point has a NaN and such points are to be stopped; or partial evaluations are to be stopped and
its incomplete point is worse than a point found complete in this or an earlier call (or has a NaN and that point's value is negative). -/
theorem C58_reason (o : PsOpts) (cs : List (Ctx × PInfo × Sched)) (hcs : PsCallsOk cs) (pre : List (Ctx × PsAns)) (y : Ctx × PsAns)
    (post : List (Ctx × PsAns)) (h : psRun o {} cs = pre ++ y :: post) (i : Nat) (hi : i ∈ y.2.marks) :
    ∃ r, y.1.H[i]? = some r ∧
      ((o.stopNan = true ∧ PtNan y.1.H o (ptOf o r)) ∨
       (o.stopPartial = true ∧ ∃ z ∈ pre ++ [y], ∃ x b, PtComplete z.1.H o x b ∧
         ((PtNan y.1.H o (ptOf o r) ∧ b < 0) ∨ (¬PtNan y.1.H o (ptOf o r) ∧ ∃ v, PtPartial y.1.H o (ptOf o r) v ∧ b < v)))) := by
  obtain ⟨q, p, s, hinv, hk, hW, hid, hle, ha, _⟩ := ps_run (o := o) (I := PsKnown o) (PsKnown.step o) cs [] {} hcs
    (by intro x _; exact Nat.zero_le _) (.init o) (.init o) pre y post h
  rw [List.nil_append] at hinv hk
  rcases ps_spec (psUpdate_need hid hinv.nodup hinv.lt hle).1 ha with ⟨e, _⟩ | ⟨_, _, _, sims, gens, ws, wg, hp⟩
  · rw [e] at hi; cases hi
  · rcases hp.paused with ⟨h1, _⟩ | ⟨h1, _⟩
    · rw [h1] at hi; cases hi
    · rw [h1, mem_psRows] at hi
      obtain ⟨r, hr, hx⟩ := hi
      refine ⟨r, hr, ?_⟩
      rcases psFind_reason hx with h2 | ⟨h2, _, b, h3, h4⟩
      · exact .inl h2
      · right
        refine ⟨h2, ?_⟩
        rcases h3 with h3 | ⟨x', h3⟩
        · obtain ⟨z, hz, x', h5⟩ := hk.best b h3
          exact ⟨z, List.mem_append_left _ hz, x', b, h5, h4⟩
        · exact ⟨y, List.mem_append_right _ (List.mem_singleton.mpr rfl), x', b, h3, h4⟩

/-- When points with a NaN are to be stopped, no row of such a point is given out.  Partial: unless the point was paused in an earlier
call; rows that arrive later are given, see the witness. -/
theorem C58_nan_partial (o : PsOpts) (hs : o.stopNan = true) (cs : List (Ctx × PInfo × Sched)) (hcs : PsCallsOk cs)
    (pre : List (Ctx × PsAns)) (y : Ctx × PsAns) (post : List (Ctx × PsAns)) (h : psRun o {} cs = pre ++ y :: post)
    (i : Nat) (r : Row) (hr : y.1.H[i]? = some r) (hn : PtNan y.1.H o (ptOf o r)) (hg : GivenOut y.2.work i) :
    ∃ z ∈ pre, ∃ j ∈ z.2.marks, ∃ r', z.1.H[j]? = some r' ∧ ptOf o r' = ptOf o r := by
  obtain ⟨q, p, s, hinv, hk, hW, hid, hle, ha, _⟩ := ps_run (o := o) (I := PsKnown o) (PsKnown.step o) cs [] {} hcs
    (by intro x _; exact Nat.zero_le _) (.init o) (.init o) pre y post h
  rw [List.nil_append] at hinv hk
  have hx : ptOf o r ∈ (psFind y.1.H o q).1 := by
    obtain ⟨r', h1, h2, h3⟩ := hn
    unfold psFind
    rw [hs]
    exact List.mem_append_left _ (List.mem_map.mpr ⟨r', List.mem_filter.mpr ⟨h1, h3⟩, h2⟩)
  rcases ps_spec (psUpdate_need hid hinv.nodup hinv.lt hle).1 ha with ⟨e, _⟩ | ⟨_, _, _, sims, gens, ws, wg, hp⟩
  · rw [e] at hg; obtain ⟨_, _, hh, _⟩ := hg; cases hh
  · have hgi := hp.given_iff hg
    rcases hp.paused with ⟨_, _, h1⟩ | ⟨h1, _⟩
    · rcases h1 with h1 | h1
      · rw [h1] at hgi; simp [rowsOf] at hgi
      · exact hk.already _ (h1 _ hx)
    · exact absurd (by rw [h1, mem_psRows]; exact ⟨r, hr, hx⟩) (hp.given i hgi).2

/-- In the call in which a point is found complete, no row of a worse point is given out.  Partial: for points not yet known to be complete
or to have a NaN, not local, and not paused before; in later calls the last such point is not stopped, see the witness. -/
theorem C58_worse_partial (c : Ctx) (hid : IdsAreRows c.H) (o : PsOpts) (hs : o.stopPartial = true) (p : PInfo) (q : PsInfo)
    (hq : q.need.Nodup ∧ (∀ i ∈ q.need, i < q.hLen) ∧ q.hLen ≤ c.H.length) (s : Sched) (a : PsAns) (h : psAlloc c o p q s = .ok a)
    (x' : Int) (b : Int) (hb : PtComplete c.H o x' b) (hx' : x' ∉ q.hasNan ∧ x' ∉ q.complete)
    (i : Nat) (r : Row) (hr : c.H[i]? = some r) (v : Int) (hv : PtPartial c.H o (ptOf o r) v) (hn : ¬PtNan c.H o (ptOf o r)) (hlt : b < v)
    (hx : ptOf o r ∉ q.hasNan ∧ ptOf o r ∉ q.complete ∧ ptOf o r ∉ q.localIds ∧ ptOf o r ∉ q.already) :
    ¬GivenOut a.work i := by
  intro hg
  have hopen' : x' ∈ psOpen c.H o q := mem_psOpen.mpr ⟨hb.1, hx'⟩
  have hrow : ∃ r' ∈ c.H, ptOf o r' = ptOf o r := ⟨r, List.mem_of_getElem? hr, rfl⟩
  have hopen : ptOf o r ∈ psOpen c.H o q := mem_psOpen.mpr ⟨hrow, hx.1, hx.2.1⟩
  have hn1 : ptNan c.H o (ptOf o r) = false := (bool_false ptNan_iff).mpr hn
  have he1 : ptEnded c.H o (ptOf o r) = false := by
    rw [bool_false ptEnded_iff]
    obtain ⟨r', h1, h2, h3⟩ := hv.1
    intro hall
    have := hall r' h1 h2
    rw [h3] at this; cases this
  have hn2 : ptNan c.H o x' = false := by
    rw [bool_false ptNan_iff]
    rintro ⟨r', h1, h2, h3⟩
    rw [(hb.2.1 r' h1 h2).2] at h3; cases h3
  have he2 : ptEnded c.H o x' = true := ptEnded_iff.mpr fun r' h1 h2 => (hb.2.1 r' h1 h2).1
  have hne : x' ≠ ptOf o r := by
    intro e; rw [e] at he2; rw [he1] at he2; cases he2
  have hl1 : ptLocal c.H o (ptOf o r) = false := by
    unfold ptLocal
    cases hf : o.localPt with
    | none => rfl
    | some f =>
      cases hp : ptRows c.H o (ptOf o r) with
      | nil => rfl
      | cons r0 l => exact hv.2.2 f r0 l hf hp
  have hcomp : x' ∈ (psNote c.H o q).complete := mem_complete.mpr (.inr ⟨hopen', hn2, he2⟩)
  have hlen : 1 < (psOpen c.H o q).length := by
    match hh : psOpen c.H o q, hopen, hopen' with
    | [], h1, _ => cases h1
    | [z], h1, h2 =>
      rw [List.mem_singleton] at h1 h2
      exact absurd (h2.trans h1.symm) hne
    | _ :: _ :: _, _, _ => simp
  obtain ⟨b', hb1, hb2⟩ := minBest_le (l := ((psOpen c.H o q).filter fun x => !ptNan c.H o x && ptEnded c.H o x).map fun x => o.comb (ptRows c.H o x))
    (b := q.best) (v := b) (.inl (List.mem_map.mpr ⟨x', List.mem_filter.mpr ⟨hopen', by rw [hn2, he2]; rfl⟩, hb.2.2⟩))
  have hbest : (psNote c.H o q).best = some b' := hb1
  have hfind : ptOf o r ∈ (psFind c.H o q).1 := by
    unfold psFind
    rw [hs]
    refine List.mem_append_right _ ?_
    simp only [if_true]
    unfold psLate
    rw [if_pos ⟨List.ne_nil_of_mem hcomp, hlen⟩, List.mem_filter]
    refine ⟨hopen, ?_⟩
    unfold psWorse
    rw [hbest, ptVal, hn1, he1, show (if (false || false) = true then some 0 else o.comb (ptRows c.H o (ptOf o r))) = some v from hv.2.1]
    simp only [decide_eq_true_eq]
    refine ⟨?_, ?_, by omega⟩
    · rw [mem_localIds]
      rintro (h1 | ⟨_, _, h1⟩)
      · exact hx.2.2.1 h1
      · rw [hl1] at h1; cases h1
    · rw [mem_complete]
      rintro (h1 | ⟨_, _, h1⟩)
      · exact hx.2.1 h1
      · rw [he1] at h1; cases h1
  rcases ps_spec (psUpdate_need hid hq.1 hq.2.1 hq.2.2).1 h with ⟨e, _⟩ | ⟨_, _, _, sims, gens, ws, wg, hp⟩
  · rw [e] at hg; obtain ⟨_, _, hh, _⟩ := hg; cases hh
  · have hgi := hp.given_iff hg
    rcases hp.paused with ⟨_, _, h1⟩ | ⟨h1, _⟩
    · rcases h1 with h1 | h1
      · rw [h1] at hgi; simp [rowsOf] at hgi
      · exact hx.2.2.2 (h1 _ hfind)
    · exact absurd (by rw [h1, mem_psRows]; exact ⟨r, hr, hfind⟩) (hp.given i hgi).2

/-- A worker is reserved for generators. -/
def Reserved (c : Ctx) : Prop := ∃ k ∈ c.W, k.genWorker = true

/-- In the history of the call `y` only rows given out earlier are evaluated and only rows paused earlier are marked. -/
def Honest (o : PsOpts) (pre : List (Ctx × PsAns)) (y : Ctx × PsAns) : Prop :=
  ∀ (i : Nat) (r : Row), y.1.H[i]? = some r →
    (r.flag .simEnded = true → ∃ z ∈ pre, GivenOut z.2.work i) ∧ (r.flag o.paused = true → ∃ z ∈ pre, i ∈ z.2.marks)

/-- Calls with workers reserved for generators, or in batch mode. -/
def Separate (o : PsOpts) (l : List (Ctx × PsAns)) : Prop :=
  (∀ z ∈ l, Reserved z.1) ∨ (o.batch = true ∧ ∀ pre y post, l = pre ++ y :: post → Honest o pre y)

theorem Separate.left {o : PsOpts} {l l' : List (Ctx × PsAns)} (h : Separate o (l ++ l')) : Separate o l := by
  rcases h with h | ⟨h1, h2⟩
  · exact .inl fun z hz => h z (List.mem_append_left _ hz)
  · exact .inr ⟨h1, fun pre y post e => h2 pre y (post ++ l') (by rw [e]; simp)⟩

/-- Between the calls: rows seen are waiting, given or paused. -/
structure PsKept (o : PsOpts) (past : List (Ctx × PsAns)) (q : PsInfo) : Prop where
  all : ∀ i, i < q.hLen → i ∈ q.need ∨ ∃ z ∈ past, GivenOut z.2.work i ∨ i ∈ z.2.marks
  last : ∀ n, q.lastSize = some n → n ≤ q.hLen
  need : o.batch = true → (∀ pre y post, past = pre ++ y :: post → Honest o pre y) → ∀ n, q.lastSize = some n → ∀ i ∈ q.need, n ≤ i

/-- In batch mode a generator is not started while rows wait or are given out. -/
theorem batch_waits {o : PsOpts} {past : List (Ctx × PsAns)} {q : PsInfo} {c : Ctx} {p : PInfo} {s : Sched} {a : PsAns} {sims gens : WorkD}
    {ws wg : List Nat} (hk : PsKept o past q) (hi : PsInv o past q) (hid : IdsAreRows c.H) (hle : q.hLen ≤ c.H.length)
    (hp : PsParts c o q s a sims gens ws wg) (hb : o.batch = true) (hh : Honest o past (c, a))
    (hpast : ∀ pre y post, past = pre ++ y :: post → Honest o pre y) (hne : gens ≠ []) :
    ∀ i ∈ (psUpdate c.H q).need, i ∈ a.marks := by
  intro i hn
  obtain ⟨_, u2⟩ := psUpdate_need hid hi.nodup hi.lt hle
  have hlen : i < c.H.length := by
    rcases (u2 i).mp hn with h1 | h1
    · exact Nat.lt_of_lt_of_le (hi.lt i h1) hle
    · exact h1.2
  have hfresh : ∀ z ∈ past, ¬GivenOut z.2.work i ∧ i ∉ z.2.marks := by
    rcases (u2 i).mp hn with h1 | h1
    · exact hi.fresh i h1
    · intro z hz
      refine ⟨fun hg => ?_, fun hm => ?_⟩
      · have := hi.old z hz i (.inl hg); omega
      · have := hi.old z hz i (.inr hm); omega
  have hlast : q.lastSize.getD 0 ≤ i := by
    cases hl : q.lastSize with
    | none => exact Nat.zero_le _
    | some n =>
      rcases (u2 i).mp hn with h1 | h1
      · exact hk.need hb hpast n hl i h1
      · exact Nat.le_trans (hk.last n hl) h1.1
  rcases hp.batch hne hb with h1 | h1
  · rw [h1] at hlen; cases hlen
  · unfold psSettled at h1
    rw [List.all_eq_true] at h1
    have h2 := h1 i (List.mem_range.mpr hlen)
    have hr : c.H[i]? = some c.H[i] := List.getElem?_eq_getElem hlen
    rw [hr] at h2
    simp only [Bool.or_eq_true, decide_eq_true_eq] at h2
    obtain ⟨k1, k2⟩ := hh i c.H[i] hr
    rcases h2 with (h2 | h2) | (h2 | h2)
    · omega
    · exact h2
    · obtain ⟨z, hz, hg⟩ := k1 h2
      exact absurd hg (hfresh z hz).1
    · obtain ⟨z, hz, hg⟩ := k2 h2
      exact absurd hg (hfresh z hz).2

theorem PsKept.step (o : PsOpts) (past : List (Ctx × PsAns)) (q : PsInfo) (c : Ctx) (p : PInfo) (s : Sched) (a : PsAns)
    (hk : Separate o past → PsKept o past q) (hi : PsInv o past q) (hW : IdsOk c.W) (hid : IdsAreRows c.H) (hle : q.hLen ≤ c.H.length)
    (h : psAlloc c o p q s = .ok a) : Separate o (past ++ [(c, a)]) → PsKept o (past ++ [(c, a)]) a.q := by
  intro hsep
  have hk := hk hsep.left
  obtain ⟨u1, u2⟩ := psUpdate_need hid hi.nodup hi.lt hle
  rcases ps_spec u1 h with ⟨e, _⟩ | ⟨_, _, _, sims, gens, ws, wg, hp⟩
  · have hq : a.q = q := by rw [e]
    rw [hq]
    refine ⟨fun i hi => ?_, hk.last, fun hb hh => hk.need hb fun pre y post e => hh pre y (post ++ [(c, a)]) (by rw [e]; simp)⟩
    rcases hk.all i hi with h1 | ⟨z, hz, h1⟩
    · exact .inl h1
    · exact .inr ⟨z, List.mem_append_left _ hz, h1⟩
  · have hdis : gens = [] ∨ ∀ w ∈ keys sims, w ∉ keys gens := by
      rcases hsep with hr | ⟨hb, hh⟩
      · right
        intro w hw hw'
        exact availIds_reserved hW (hr (c, a) (List.mem_append_right _ (List.mem_singleton.mpr rfl))) hp.simw hp.genw w (hp.simk.subset hw)
          (hp.genk.subset hw')
      · cases hg : gens with
        | nil => exact .inl rfl
        | cons g gs =>
          right
          have hne : gens ≠ [] := by rw [hg]; simp
          have hw := batch_waits (p := p) hk hi hid hle hp hb (hh past (c, a) [] rfl)
            (fun pre y post e => hh pre y (post ++ [(c, a)]) (by rw [e]; simp)) hne
          cases hs : sims with
          | nil => simp [keys]
          | cons e es =>
            exfalso
            obtain ⟨r, hr⟩ := (hp.shape e (by rw [hs]; exact List.mem_cons_self)).2
            have hmem : r ∈ (rowsOf sims).flatten := by rw [hs]; simp [rowsOf, hr]
            obtain ⟨g1, g2⟩ := hp.given r hmem
            exact g2 (hw r g1)
    refine ⟨?_, ?_, ?_⟩
    · intro i hlt
      rw [hp.hLen] at hlt
      by_cases hm : i ∈ a.marks
      · exact .inr ⟨(c, a), List.mem_append_right _ (List.mem_singleton.mpr rfl), .inr hm⟩
      by_cases hs : i ∈ (rowsOf sims).flatten
      · exact .inr ⟨(c, a), List.mem_append_right _ (List.mem_singleton.mpr rfl), .inl (hp.keep hW hdis hs)⟩
      by_cases hn : i ∈ (psUpdate c.H q).need
      · exact .inl ((hp.need i).mpr ⟨hn, hm, hs⟩)
      · have hold : i < q.hLen := by
          refine Nat.lt_of_not_le fun hge => hn ((u2 i).mpr (.inr ⟨hge, hlt⟩))
        rcases hk.all i hold with h1 | ⟨z, hz, h1⟩
        · exact absurd ((u2 i).mpr (.inl h1)) hn
        · exact .inr ⟨z, List.mem_append_left _ hz, h1⟩
    · intro n hn
      rw [hp.hLen]
      rw [hp.last] at hn
      split at hn
      · exact Nat.le_trans (hk.last n hn) hle
      · cases hn; exact Nat.le_refl _
    · intro hb hh n hn i hin
      have hpast : ∀ pre y post, past = pre ++ y :: post → Honest o pre y := fun pre y post e => hh pre y (post ++ [(c, a)]) (by rw [e]; simp)
      rw [hp.last] at hn
      obtain ⟨n1, n2, n3⟩ := (hp.need i).mp hin
      split at hn
      · rcases (u2 i).mp n1 with h1 | h1
        · exact hk.need hb hpast n hn i h1
        · exact Nat.le_trans (hk.last n hn) h1.1
      · rename_i hne
        exact absurd (batch_waits (p := p) hk hi hid hle hp hb (hh past (c, a) [] rfl) hpast hne i n1) n2

theorem PsKept.init (o : PsOpts) : PsKept o [] {} := by
  refine ⟨?_, ?_, ?_⟩
  · intro i hi; exact absurd hi (Nat.not_lt_zero _)
  · intro n hn; cases hn
  · intro _ _ n hn; cases hn

/-- No row is forgotten: after a call that looks at the history every row has been given out or paused, in it or before, or it is kept for
the next call; the latter, when resources are not managed, only if every idle worker that may evaluate got an order.  Partial: when
workers are reserved for generators, or in batch mode; see the witness. -/
theorem C58_kept_partial (o : PsOpts) (cs : List (Ctx × PInfo × Sched)) (hcs : PsCallsOk cs) (pre : List (Ctx × PsAns)) (y : Ctx × PsAns)
    (post : List (Ctx × PsAns)) (h : psRun o {} cs = pre ++ y :: post) (hsep : Separate o (pre ++ [y]))
    (hy : y.1.simMaxGiven = false ∧ y.1.anyIdle = true) (i : Nat) (hi : i < y.1.H.length) :
    (∃ z ∈ pre ++ [y], GivenOut z.2.work i ∨ i ∈ z.2.marks) ∨
    (i ∈ y.2.q.need ∧ (y.1.manage = false → ∀ k ∈ y.1.W, k.active = 0 → (k.genWorker = false ∨ ¬Reserved y.1) →
      ∃ wk, (k.id, wk) ∈ y.2.work)) := by
  obtain ⟨q, p, s, hinv, _, hW, hid, hle, ha, _, hk⟩ := ps_run (o := o) (I := fun past q => Separate o past → PsKept o past q)
    (PsKept.step o) cs [] {} hcs (by intro x _; exact Nat.zero_le _) (.init o) (fun _ => .init o) pre y post h
  rw [List.nil_append] at hinv hk
  have hk := hk hsep
  rcases ps_spec (psUpdate_need hid hinv.nodup hinv.lt hle).1 ha with ⟨_, e⟩ | ⟨_, _, _, sims, gens, ws, wg, hp⟩
  · rcases e with e | e
    · rw [hy.1] at e; cases e
    · rw [hy.2] at e; cases e
  · rcases hk.all i (by rw [hp.hLen]; exact hi) with h1 | h1
    · right
      refine ⟨h1, ?_⟩
      intro hm k hkW hidle hkg
      rcases hp.busy hm with h2 | h2
      · rw [h2] at h1; cases h1
      · have hws : k.id ∈ ws := by
          rw [(availIds_ok hp.simw).2, List.mem_map]
          refine ⟨k, ?_, rfl⟩
          rw [List.mem_filter]
          refine ⟨hkW, ?_⟩
          simp only [Bool.false_eq_true, if_false, hidle, decide_true, Bool.true_and, Bool.or_true, Bool.and_true, Bool.or_eq_true,
            Bool.not_eq_true', decide_eq_true_eq]
          rcases hkg with hkg | hkg
          · exact .inr hkg
          · left
            rw [List.any_eq_false]
            intro k' hk' hg
            exact hkg ⟨k', hk', hg⟩
        have hall : k.id ∈ (puts [] (sims ++ gens)).map (·.1) := by
          rw [mem_keys_puts]
          right
          rw [List.map_append]
          apply List.mem_append_left
          show k.id ∈ keys sims
          rw [h2]; exact hws
        rw [← hp.work] at hall
        obtain ⟨⟨w, wk⟩, h3, h4⟩ := List.mem_map.mp hall
        simp only at h4
        subst h4
        exact ⟨wk, h3⟩
    · exact .inl h1

/-- Generators started by an answer. -/
def genOrders (a : PsAns) : Nat := a.work.countP fun e => decide (e.2.tag = EVAL_GEN)

/-- Between the calls: the size stored is that at the last start of a generator. -/
def PsLast (past : List (Ctx × PsAns)) (q : PsInfo) : Prop :=
  ∀ n, q.lastSize = some n → ∃ z ∈ past, genOrders z.2 ≠ 0 ∧ z.1.H.length = n

theorem PsParts.orders {c : Ctx} {o : PsOpts} {q : PsInfo} {s : Sched} {a : PsAns} {sims gens : WorkD} {ws wg : List Nat}
    (h : PsParts c o q s a sims gens ws wg) : genOrders a ≤ gens.length ∧ (IdsOk c.W → gens ≠ [] → genOrders a ≠ 0) := by
  refine ⟨?_, ?_⟩
  · unfold genOrders
    rw [h.work]
    obtain ⟨l, h1, h2⟩ := puts_sub (sims ++ gens)
    rw [h1.countP_eq]
    refine Nat.le_trans (h2.countP_le) ?_
    rw [List.countP_append]
    have : sims.countP (fun e => decide (e.2.tag = EVAL_GEN)) = 0 := by
      rw [List.countP_eq_zero]
      intro e he ht
      rw [decide_eq_true_eq, (h.shape e he).1.tag] at ht
      cases ht
    rw [this, Nat.zero_add]
    exact List.countP_le_length
  · intro hW hne
    cases hg : gens with
    | nil => exact absurd hg hne
    | cons e es =>
      obtain ⟨n1, n2⟩ := h.keysNodup hW
      have hm : e ∈ a.work := by
        rw [h.work, puts_append, puts_nil_left n1]
        exact puts_last n1 n2 (by rw [hg]; exact List.mem_cons_self)
      unfold genOrders
      intro hz
      rw [List.countP_eq_zero] at hz
      exact hz e hm (by rw [decide_eq_true_eq]; exact (h.gen e (by rw [hg]; exact List.mem_cons_self)).tag)

theorem PsLast.step (o : PsOpts) (past : List (Ctx × PsAns)) (q : PsInfo) (c : Ctx) (p : PInfo) (s : Sched) (a : PsAns)
    (hk : PsLast past q) (hi : PsInv o past q) (hW : IdsOk c.W) (hid : IdsAreRows c.H) (hle : q.hLen ≤ c.H.length)
    (h : psAlloc c o p q s = .ok a) : PsLast (past ++ [(c, a)]) a.q := by
  intro n hn
  rcases ps_spec (psUpdate_need hid hi.nodup hi.lt hle).1 h with ⟨e, _⟩ | ⟨_, _, _, sims, gens, ws, wg, hp⟩
  · have hq : a.q = q := by rw [e]
    rw [hq] at hn
    obtain ⟨z, hz, r⟩ := hk n hn
    exact ⟨z, List.mem_append_left _ hz, r⟩
  · rw [hp.last] at hn
    split at hn
    · obtain ⟨z, hz, r⟩ := hk n hn
      exact ⟨z, List.mem_append_left _ hz, r⟩
    · rename_i hne
      exact ⟨(c, a), List.mem_append_right _ (List.mem_singleton.mpr rfl), hp.orders.2 hW hne, by cases hn; rfl⟩

/-- Generators are started on idle workers, reserved ones if there are any, with the whole history; never more than `num_active_gens`
run at a time; in batch mode only when every row that is new since the last start is evaluated or paused. -/
theorem C58_generator (o : PsOpts) (cs : List (Ctx × PInfo × Sched)) (hcs : PsCallsOk cs) (pre : List (Ctx × PsAns)) (y : Ctx × PsAns)
    (post : List (Ctx × PsAns)) (h : psRun o {} cs = pre ++ y :: post) :
    (∀ w wk, (w, wk) ∈ y.2.work → wk.tag = EVAL_GEN → wk.rows = List.range y.1.H.length ∧ wk.persistent = false ∧
      ∃ k ∈ y.1.W, k.id = w ∧ k.active = 0 ∧ (k.genWorker = true ∨ ¬Reserved y.1)) ∧
    (∀ n, o.numActive = some n → genOrders y.2 ≠ 0 → countGens y.1.W + genOrders y.2 ≤ n) ∧
    (o.batch = true → genOrders y.2 ≠ 0 → ∀ (i : Nat) (r : Row), y.1.H[i]? = some r →
      (∀ z ∈ pre, genOrders z.2 ≠ 0 → z.1.H.length ≤ i) → r.flag .simEnded = true ∨ r.flag o.paused = true ∨ i ∈ y.2.marks) := by
  obtain ⟨q, p, s, hinv, hk, hW, hid, hle, ha, _⟩ := ps_run (o := o) (I := PsLast) (PsLast.step o) cs [] {} hcs
    (by intro x _; exact Nat.zero_le _) (.init o) (by intro n hn; cases hn) pre y post h
  rw [List.nil_append] at hinv hk
  rcases ps_spec (psUpdate_need hid hinv.nodup hinv.lt hle).1 ha with ⟨e, _⟩ | ⟨_, _, _, sims, gens, ws, wg, hp⟩
  · have h0 : genOrders y.2 = 0 := by rw [e]; rfl
    refine ⟨?_, fun n _ hne => absurd h0 hne, fun _ hne => absurd h0 hne⟩
    rw [e]; intro w wk hm; cases hm
  · refine ⟨?_, ?_, ?_⟩
    · intro w wk hm ht
      have hg : (w, wk) ∈ gens := by
        rcases hp.mem hm with h1 | h1
        · have h2 := (hp.shape _ h1).1.tag
          rw [show ((w, wk) : Nat × Work).2 = wk from rfl, ht] at h2; cases h2
        · exact h1
      have hsh := hp.gen _ hg
      have hw : w ∈ wg := hp.genk.subset (List.mem_map.mpr ⟨_, hg, rfl⟩)
      refine ⟨hsh.rows, hsh.pers, ?_⟩
      rw [(availIds_ok hp.genw).2, List.mem_map] at hw
      obtain ⟨k, hk1, hk2⟩ := hw
      rw [List.mem_filter] at hk1
      obtain ⟨k1, k2⟩ := hk1
      simp only [Bool.false_eq_true, if_false, Bool.and_eq_true, decide_eq_true_eq, Bool.or_eq_true, Bool.not_eq_true'] at k2
      refine ⟨k, k1, hk2, k2.1.1.1, ?_⟩
      rcases k2.2 with k3 | k3
      · right
        rintro ⟨k', h1, h2⟩
        rw [List.any_eq_false] at k3
        exact k3 k' h1 h2
      · exact .inl k3
    · intro n hn hne
      have h1 := hp.orders.1
      rcases hp.count n hn with h2 | h2
      · rw [h2] at h1; simp at h1; exact absurd h1 hne
      · omega
    · intro hb hne i r hr hz
      have hgne : gens ≠ [] := by
        intro e
        have h1 := hp.orders.1
        rw [e] at h1; simp at h1; exact hne h1
      have hlt : i < y.1.H.length := (List.getElem?_eq_some_iff.mp hr).1
      rcases hp.batch hgne hb with h1 | h1
      · rw [h1] at hlt; cases hlt
      · unfold psSettled at h1
        rw [List.all_eq_true] at h1
        have h2 := h1 i (List.mem_range.mpr hlt)
        rw [hr] at h2
        simp only [Bool.or_eq_true, decide_eq_true_eq] at h2
        rcases h2 with (h2 | h2) | (h2 | h2)
        · cases hl : q.lastSize with
          | none => rw [hl] at h2; simp at h2
          | some n =>
            rw [hl] at h2
            obtain ⟨z, z1, z2, z3⟩ := hk n hl
            have := hz z z1 z2
            simp at h2
            omega
        · exact .inr (.inr h2)
        · exact .inl h2
        · exact .inr (.inl h2)

/-! ## Examples and witnesses -/

instance (work : WorkD) (i : Nat) : Decidable (GivenOut work i) :=
  decidable_of_iff (∃ e ∈ work, e.2.tag = EVAL_SIM ∧ i ∈ e.2.rows)
    ⟨fun ⟨e, h1, h2, h3⟩ => ⟨e.1, e.2, h1, h2, h3⟩, fun ⟨w, wk, h1, h2, h3⟩ => ⟨(w, wk), h1, h2, h3⟩⟩

theorem idsAreRows_of {H : List Row} (h : ∀ i, i < H.length → (H[i]?).map (· .simId) = some (.s (i : Nat))) : IdsAreRows H := by
  intro i r hr
  have := h i (List.getElem?_eq_some_iff.mp hr).1
  rw [hr] at this
  simpa using this

/-- Columns: point, paused, whether the component is a NaN, its value.  Points are compared by the sum of their components. -/
def psEx : PsOpts where
  ptId := .user 1
  paused := .user 2
  isNan := fun r => r.flag (.user 3)
  comb := fun rs => some ((rs.map fun r => match r (.user 4) with | .s x => x | .v _ => 0).sum)
  stopNan := true
  stopPartial := true
  batch := true
  numActive := some 1
  pop := fun l => l.headD 0

/-- Row `i`, a component of point `x`. -/
def psRow (i : Nat) (x : Int) (cells : List (Field × Val)) : Row := mkRow ((.simId, .s (i : Nat)) :: (.user 1, .s x) :: cells)

/-- Row evaluated with value `v`. -/
def psDone (i : Nat) (x v : Int) : Row := psRow i x [(.simStarted, .s 1), (.simEnded, .s 1), (.user 4, .s v)]

def psCtx (W : List Wrk) (H : List Row) : Ctx × PInfo × Sched := ({ exCtx with W := W, manage := false, genIn := [.simId], H := H }, {}, noSched)

/-- Three points with two components each.  The generator is started; rows 0, 1, 2 are given; point 0 is complete with value 5, the first
component of point 1 alone has value 9: it is paused and rows 4 and 5 are given; all is evaluated or paused: the generator is started. -/
def psCalls : List (Ctx × PInfo × Sched) :=
  [psCtx [{ id := 1 }, { id := 2 }, { id := 3 }] [],
   psCtx [{ id := 1 }, { id := 2 }, { id := 3 }] [psRow 0 0 [], psRow 1 0 [], psRow 2 1 [], psRow 3 1 [], psRow 4 2 [], psRow 5 2 []],
   psCtx [{ id := 1 }, { id := 2 }, { id := 3 }] [psDone 0 0 3, psDone 1 0 2, psDone 2 1 9, psRow 3 1 [], psRow 4 2 [], psRow 5 2 []],
   psCtx [{ id := 1 }, { id := 2 }, { id := 3 }] [psDone 0 0 3, psDone 1 0 2, psDone 2 1 9, psRow 3 1 [(.user 2, .s 1)], psDone 4 2 7, psDone 5 2 1]]

/-- What is seen of a run: orders (worker, kind, rows), rows kept, rows marked. -/
def psSeen (l : List (Ctx × PsAns)) : List (List (Nat × Nat × List Nat) × List Nat × List Nat) :=
  l.map fun z => (z.2.work.map fun e => (e.1, e.2.tag, e.2.rows), z.2.q.need, z.2.marks)

theorem psCtx_calls {l : List (List Wrk × List Row)} (h1 : ∀ x ∈ l, (x.1.map (·.id)).Nodup) (h2 : ∀ x ∈ l, ∀ i, i < x.2.length → (x.2[i]?).map (· .simId) = some (.s (i : Nat)))
    (h3 : (l.map (·.2.length)).Pairwise (· ≤ ·)) : PsCallsOk (l.map fun x => psCtx x.1 x.2) := by
  refine ⟨?_, ?_, ?_⟩
  · intro x hx
    obtain ⟨y, hy, e⟩ := List.mem_map.mp hx
    subst e
    exact h1 y hy
  · intro x hx
    obtain ⟨y, hy, e⟩ := List.mem_map.mp hx
    subst e
    exact idsAreRows_of (h2 y hy)
  · rw [List.pairwise_map] at h3 ⊢
    exact h3

theorem psCalls_ok : PsCallsOk psCalls :=
  psCtx_calls (l := [([{ id := 1 }, { id := 2 }, { id := 3 }], _), ([{ id := 1 }, { id := 2 }, { id := 3 }], _), ([{ id := 1 }, { id := 2 }, { id := 3 }], _),
    ([{ id := 1 }, { id := 2 }, { id := 3 }], _)]) (by decide +kernel) (by decide +kernel) (by decide +kernel)

example : psSeen (psRun psEx {} psCalls) =
    [([(1, 2, [])], [], []), ([(1, 1, [0]), (2, 1, [1]), (3, 1, [2])], [3, 4, 5], []), ([(1, 1, [4]), (2, 1, [5])], [], [2, 3]),
     ([(1, 2, [0, 1, 2, 3, 4, 5])], [], [])] := by decide +kernel

/-- `Honest` as a test. -/
def honestTest (o : PsOpts) (pre : List (Ctx × PsAns)) (y : Ctx × PsAns) : Bool :=
  (List.range y.1.H.length).all fun i => match y.1.H[i]? with
    | none => true
    | some r => (!r.flag .simEnded || pre.any fun z => decide (GivenOut z.2.work i)) && (!r.flag o.paused || pre.any fun z => decide (i ∈ z.2.marks))

theorem separate_of {o : PsOpts} {l : List (Ctx × PsAns)} (hb : o.batch = true)
    (h : (List.range l.length).all (fun n => l[n]?.all fun y => honestTest o (l.take n) y) = true) : Separate o l := by
  refine .inr ⟨hb, fun pre y post e i r hr => ?_⟩
  subst e
  have h1 : (pre ++ y :: post)[pre.length]? = some y := by simp
  have h2 : (pre ++ y :: post).take pre.length = pre := by simp
  rw [List.all_eq_true] at h
  have := h pre.length (List.mem_range.mpr (by simp))
  rw [h1, h2] at this
  unfold honestTest at this
  simp only [Option.all_some] at this
  rw [List.all_eq_true] at this
  have h3 := this i (List.mem_range.mpr (List.getElem?_eq_some_iff.mp hr).1)
  rw [hr] at h3
  simp only [Bool.and_eq_true, Bool.or_eq_true, Bool.not_eq_true', List.any_eq_true, decide_eq_true_eq] at h3
  refine ⟨fun hf => ?_, fun hf => ?_⟩
  · rcases h3.1 with h4 | h4
    · rw [hf] at h4; cases h4
    · exact h4
  · rcases h3.2 with h4 | h4
    · rw [hf] at h4; cases h4
    · exact h4

/-- The run is one in batch mode in which only rows given out are evaluated. -/
example : Separate psEx (psRun psEx {} psCalls) := separate_of rfl (by decide +kernel)

/-- Worker 2 is reserved for generators: both orders stay. -/
example : psSeen (psRun { psEx with batch := false, numActive := none } {} [psCtx [{ id := 1 }, { id := 2, genWorker := true }] [psRow 0 0 [], psRow 1 0 []]]) =
    [([(1, 1, [0]), (2, 2, [0, 1])], [1], [])] ∧ Reserved (psCtx [{ id := 1 }, { id := 2, genWorker := true }] [psRow 0 0 [], psRow 1 0 []]).1 :=
  ⟨by decide +kernel, { id := 2, genWorker := true }, by simp [psCtx], rfl⟩

/-- Point 1 of the third call above: a component is missing, the value is 9, and point 0 is complete with value 5. -/
example : let H := [psDone 0 0 3, psDone 1 0 2, psDone 2 1 9, psRow 3 1 [], psRow 4 2 [], psRow 5 2 []]
    PtComplete H psEx 0 5 ∧ PtPartial H psEx 1 9 ∧ ¬PtNan H psEx 1 := by
  refine ⟨⟨⟨_, List.mem_cons_self, by decide +kernel⟩, ?_, by decide +kernel⟩, ⟨?_, by decide +kernel, ?_⟩, ?_⟩
  · decide +kernel
  · exact ⟨psRow 3 1 [], by simp, by decide +kernel⟩
  · intro f r l hf; cases hf
  · rintro ⟨r, h1, h2, h3⟩
    revert r
    decide +kernel

/-- A point with a NaN is stopped: row 1 is marked and not given. -/
example : psSeen (psRun psEx {} [psCtx [{ id := 1 }] [psRow 0 0 [], psRow 1 0 [], psRow 2 1 []],
      psCtx [{ id := 1 }] [psRow 0 0 [(.simEnded, .s 1), (.user 3, .s 1)], psRow 1 0 [], psRow 2 1 []]]) =
    [([(1, 1, [0])], [1, 2], []), ([(1, 1, [2])], [], [0, 1])] := by decide +kernel

/-- Without batch mode and reserved workers a row can be lost: the generator order for worker 1 replaces the simulation order just made,
and the row is never given out again. -/
theorem C58_lost_witness : ∃ (o : PsOpts) (cs : List (Ctx × PInfo × Sched)), PsCallsOk cs ∧ (psRun o {} cs).length = 2 ∧
    (∀ z ∈ psRun o {} cs, 0 < z.1.H.length ∧ z.1.simMaxGiven = false ∧ z.1.anyIdle = true) ∧
    ∀ z ∈ psRun o {} cs, ¬GivenOut z.2.work 0 ∧ 0 ∉ z.2.marks ∧ 0 ∉ z.2.q.need := by
  refine ⟨{ psEx with batch := false }, [psCtx [{ id := 1 }, { id := 2 }] [psRow 0 0 [], psRow 1 0 []],
    psCtx [{ id := 1 }, { id := 2 }] [psRow 0 0 [], psDone 1 0 3]], ?_, ?_, ?_, ?_⟩
  · exact psCtx_calls (l := [([{ id := 1 }, { id := 2 }], _), ([{ id := 1 }, { id := 2 }], _)]) (by decide +kernel) (by decide +kernel) (by decide +kernel)
  all_goals decide +kernel

/-- A row of a point paused before is given out if it arrives after the pause, although the point has a NaN. -/
theorem C58_late_witness : ∃ (o : PsOpts) (cs : List (Ctx × PInfo × Sched)), o.stopNan = true ∧ PsCallsOk cs ∧
    ∃ y1 y2 y3, psRun o {} cs = [y1, y2, y3] ∧ PtNan y2.1.H o 0 ∧ 1 ∈ y2.2.marks ∧ PtNan y3.1.H o 0 ∧
      ((y3.1.H[2]?).map (ptOf o) = some 0) ∧ GivenOut y3.2.work 2 := by
  refine ⟨psEx, [psCtx [{ id := 1 }] [psRow 0 0 [], psRow 1 0 []],
    psCtx [{ id := 1 }] [psRow 0 0 [(.simEnded, .s 1), (.user 3, .s 1)], psRow 1 0 []],
    psCtx [{ id := 1 }] [psRow 0 0 [(.simEnded, .s 1), (.user 3, .s 1)], psRow 1 0 [(.user 2, .s 1)], psRow 2 0 []]], rfl, ?_, ?_⟩
  · exact psCtx_calls (l := [([{ id := 1 }], _), ([{ id := 1 }], _), ([{ id := 1 }], _)]) (by decide +kernel) (by decide +kernel) (by decide +kernel)
  · refine ⟨_, _, _, rfl, ?_, ?_, ?_, ?_, ?_⟩
    · exact ⟨_, List.mem_cons_self, rfl, by decide +kernel⟩
    · decide +kernel
    · exact ⟨_, List.mem_cons_self, rfl, by decide +kernel⟩
    · decide +kernel
    · decide +kernel

/-- The last open point is not stopped: point 0 is complete with value 5, the partial value of point 1 is 9, yet row 3 is given out. -/
theorem C58_last_open_witness : ∃ (o : PsOpts) (cs : List (Ctx × PInfo × Sched)), o.stopPartial = true ∧ PsCallsOk cs ∧
    ∃ y1 y2 y3, psRun o {} cs = [y1, y2, y3] ∧ PtComplete y2.1.H o 0 5 ∧ PtPartial y3.1.H o 1 9 ∧ ¬PtNan y3.1.H o 1 ∧ GivenOut y3.2.work 3 := by
  refine ⟨psEx, [psCtx [{ id := 1 }, { id := 2 }] [psRow 0 0 [], psRow 1 0 [], psRow 2 1 [], psRow 3 1 []],
    psCtx [{ id := 1 }, { id := 2, active := 1 }] [psDone 0 0 3, psDone 1 0 2, psRow 2 1 [], psRow 3 1 []],
    psCtx [{ id := 1 }, { id := 2 }] [psDone 0 0 3, psDone 1 0 2, psDone 2 1 9, psRow 3 1 []]], rfl, ?_, ?_⟩
  · exact psCtx_calls (l := [([{ id := 1 }, { id := 2 }], _), ([{ id := 1 }, { id := 2, active := 1 }], _), ([{ id := 1 }, { id := 2 }], _)])
      (by decide +kernel) (by decide +kernel) (by decide +kernel)
  · refine ⟨_, _, _, rfl, ⟨⟨_, List.mem_cons_self, by decide +kernel⟩, ?_, by decide +kernel⟩, ⟨?_, by decide +kernel, ?_⟩, ?_, ?_⟩
    · decide +kernel
    · exact ⟨psRow 3 1 [], by simp [psCtx], by decide +kernel⟩
    · intro f r l hf; cases hf
    · rintro ⟨r, h1, h2, h3⟩
      revert r
      decide +kernel
    · decide +kernel

/-- Cancelled rows and rows that are already evaluated (a history given at the start) are given out like others. -/
theorem C58_cancelled_witness : ∃ (o : PsOpts) (cs : List (Ctx × PInfo × Sched)), PsCallsOk cs ∧
    ∃ y, psRun o {} cs = [y] ∧ ((y.1.H[0]?).map (·.flag .cancelRequested) = some true) ∧ ((y.1.H[1]?).map (·.flag .simEnded) = some true) ∧
      GivenOut y.2.work 0 ∧ GivenOut y.2.work 1 := by
  refine ⟨psEx, [psCtx [{ id := 1 }, { id := 2 }] [psRow 0 0 [(.cancelRequested, .s 1)], psDone 1 0 2]], ?_, _, rfl, ?_⟩
  · exact psCtx_calls (l := [([{ id := 1 }, { id := 2 }], _)]) (by decide +kernel) (by decide +kernel) (by decide +kernel)
  · decide +kernel

/-- With `gen_specs["in"]` empty the generator cannot be started again: the order names rows but no columns, and is refused. -/
theorem C31_pausing_empty_in_witness : ∃ (c : Ctx) (o : PsOpts) (a : PsAns), TableOk c ∧ SpecsOk c ∧ IdsAreRows c.H ∧
    psAlloc c o {} { hLen := 1 } noSched = .ok a ∧ ∃ w wk, (w, wk) ∈ a.work ∧ ¬Accepted c w wk := by
  refine ⟨{ (psCtx [{ id := 1 }] [psDone 0 0 2]).1 with genIn := [] }, psEx, _, ⟨?_, by decide⟩, ⟨by decide, by decide, by decide⟩,
    idsAreRows_of (by decide +kernel), rfl, 1, _, List.mem_cons_self, ?_⟩
  · intro i k h
    match i, h with
    | 0, h => cases h; rfl
    | n + 1, h => simp [psCtx] at h
  · rintro ⟨k, _, _, h3⟩
    exact (h3 (by decide +kernel)).1 (by decide +kernel)

end Verif.Alloc
