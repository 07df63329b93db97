import Verif.Alloc.PausingLemmas
import Verif.Alloc.PropsMore
/-! Helper lemmas: whole calls of the function of `Pausing.lean`, and what holds between calls. -/
namespace Verif.Alloc
open Verif.History Verif.Res Verif.Sched

/-- The parts of an answer. -/
structure PsParts (c : Ctx) (o : PsOpts) (q : PsInfo) (s : Sched) (a : PsAns) (sims gens : WorkD) (ws wg : List Nat) : Prop where
  simw : availIds c.W none false none (some false) = .ok ws
  genw : availIds c.W none false none (some true) = .ok wg
  work : a.work = puts [] (sims ++ gens)
  simk : (keys sims).Sublist ws
  shape : ∀ e ∈ sims, SimShape c false e.2 ∧ ∃ r, e.2.rows = [r]
  genk : (keys gens).Sublist wg
  gen : ∀ e ∈ gens, GenShape c.genIn (List.range c.H.length) false none e.2
  nodup : (rowsOf sims).flatten.Nodup
  need : ∀ i, i ∈ a.q.need ↔ i ∈ (psUpdate c.H q).need ∧ i ∉ a.marks ∧ i ∉ (rowsOf sims).flatten
  needNodup : a.q.need.Nodup
  given : ∀ i ∈ (rowsOf sims).flatten, i ∈ (psUpdate c.H q).need ∧ i ∉ a.marks
  paused : (a.marks = [] ∧ a.q.already = q.already ∧ (sims = [] ∨ ∀ x ∈ (psFind c.H o q).1, x ∈ q.already)) ∨
    (a.marks = psRows c.H o (psFind c.H o q).1 ∧ a.q.already = q.already ++ (psFind c.H o q).1)
  hLen : a.q.hLen = c.H.length
  last : a.q.lastSize = if gens = [] then q.lastSize else some c.H.length
  count : ∀ n, o.numActive = some n → gens = [] ∨ countGens c.W + gens.length ≤ n
  batch : gens ≠ [] → o.batch = true → c.H = [] ∨ psSettled c.H o a.marks q.lastSize = true
  busy : c.manage = false → a.q.need = [] ∨ keys sims = ws
  free : c.manage = false → o.numActive = none → (o.batch = true → c.H = [] ∨ psSettled c.H o a.marks q.lastSize = true) → keys gens = wg
  best : ∀ P : Option Int → Prop, P q.best → (∀ q : PsInfo, P q.best → P (psNote c.H o q).best) → P a.q.best
  steps : ∃ s', Steps c s (sims ++ gens) s'

theorem psUpdate_rest {o : PsOpts} (H : List Row) (q : PsInfo) : (psUpdate H q).already = q.already ∧ (psUpdate H q).lastSize = q.lastSize ∧
    (psUpdate H q).best = q.best ∧ (psUpdate H q).hLen = H.length ∧ (psFind H o (psUpdate H q)).1 = (psFind H o q).1 := by
  unfold psUpdate
  split
  · exact ⟨rfl, rfl, rfl, rfl, rfl⟩
  · rename_i h
    exact ⟨rfl, rfl, rfl, (Decidable.not_not.mp h).symm, rfl⟩

theorem ps_spec {c : Ctx} {o : PsOpts} {p : PInfo} {q : PsInfo} {s : Sched} {a : PsAns} (hn : (psUpdate c.H q).need.Nodup)
    (h : psAlloc c o p q s = .ok a) :
    (a = ⟨[], q, []⟩ ∧ (c.simMaxGiven = true ∨ c.anyIdle = false)) ∨
    (c.simMaxGiven = false ∧ c.anyIdle = true ∧ (o.single = true → o.batch = true) ∧ ∃ sims gens ws wg, PsParts c o q s a sims gens ws wg) := by
  unfold psAlloc at h
  split at h
  · rename_i hg; cases h; exact .inl ⟨rfl, by simpa using hg⟩
  · rename_i hg
    have hg' : c.simMaxGiven = false ∧ c.anyIdle = true := by
      revert hg; cases c.simMaxGiven <;> cases c.anyIdle <;> simp
    split at h
    · cases h
    · rename_i hb
      split at h
      · rename_i ws wg hws hwg
        split at h
        · cases h
        · rename_i st hst
          split at h
          · cases h
          · rename_i st' hst'
            cases h
            obtain ⟨sims, m, hs⟩ := psSims_spec c o p _ _ _ hn hst
            obtain ⟨gens, hgs⟩ := psGens_spec c o p _ _ _ hst'
            obtain ⟨u1, u2, u3, u4, u5⟩ := psUpdate_rest (o := o) c.H q
            have hm : st'.marks = m := by rw [hgs.marks, hs.marks]; rfl
            have hq : st'.q.need = st.q.need ∧ st'.q.already = st.q.already ∧ st'.q.hLen = st.q.hLen ∧ st'.q.best = st.q.best := by
              rw [hgs.q]; split <;> exact ⟨rfl, rfl, rfl, rfl⟩
            have hmm : st.marks = m := by rw [← hm, hgs.marks]
            have hl : st.q.lastSize = q.lastSize := by rw [hs.last]; exact u2
            have hcount : st.gens = countGens c.W := hs.gens
            refine .inr ⟨hg'.1, hg'.2, ?_, sims, gens, ws, wg, hws, hwg, ?_, hs.key, hs.shape, hgs.key, hgs.shape, hs.nodup, ?_, ?_, ?_, ?_, ?_, ?_,
              ?_, ?_, ?_, ?_, ?_, ⟨_, hs.steps.trans hgs.steps⟩⟩
            · intro h1; rw [h1] at hb; simpa using hb
            · simp only; rw [hgs.work, hs.work, puts_append]
            · intro i; simp only; rw [hq.1, hm]; exact hs.need i
            · simp only; rw [hq.1]; exact hs.needNodup
            · simp only; rw [hm]; exact hs.given
            · simp only; rw [hm, hq.2.1]
              have := hs.paused
              simp only at this
              rw [u1, u5] at this
              exact this
            · simp only; rw [hq.2.2.1, hs.hLen]; exact u4
            · simp only; rw [hgs.q]; split
              · exact hl
              · rfl
            · rw [← hcount]; exact hgs.count
            · simp only; rw [hm, ← hl, ← hmm]; exact hgs.batch
            · simp only; rw [hq.1]; exact hs.busy
            · simp only; rw [hm, ← hl, ← hmm]; exact hgs.free
            · intro P h0 hP
              simp only; rw [hq.2.2.2]
              exact hs.best P (by simp only; rw [u3]; exact h0) hP
      · cases h
      · cases h

/-- Rows waiting at the beginning of a call. -/
theorem psUpdate_need {H : List Row} (hid : IdsAreRows H) {q : PsInfo} (hnd : q.need.Nodup) (hlt : ∀ i ∈ q.need, i < q.hLen)
    (hle : q.hLen ≤ H.length) : (psUpdate H q).need.Nodup ∧ ∀ i, i ∈ (psUpdate H q).need ↔ i ∈ q.need ∨ q.hLen ≤ i ∧ i < H.length := by
  have hnew : ∀ i, i ∈ (H.drop q.hLen).map (fun r => Val.nat (r .simId)) ↔ q.hLen ≤ i ∧ i < H.length := by
    intro i
    rw [List.mem_map]
    constructor
    · rintro ⟨r, hr, e⟩
      obtain ⟨k, hk, e2⟩ := List.mem_iff_getElem.mp hr
      rw [List.getElem_drop] at e2
      rw [List.length_drop] at hk
      have := hid (q.hLen + k) r (by rw [List.getElem?_eq_getElem (by omega), e2])
      rw [this] at e
      have e' : q.hLen + k = i := by
        rw [← e]
        show q.hLen + k = Int.toNat ((q.hLen + k : Nat) : Int)
        rw [Int.toNat_natCast]
      omega
    · rintro ⟨h1, h2⟩
      refine ⟨H[i], ?_, ?_⟩
      · rw [List.mem_iff_getElem]
        refine ⟨i - q.hLen, by rw [List.length_drop]; omega, ?_⟩
        rw [List.getElem_drop]
        congr 1; omega
      · rw [hid i H[i] (List.getElem?_eq_getElem h2)]; simp [Val.nat]
  unfold psUpdate
  split
  · refine ⟨?_, ?_⟩
    · simp only
      rw [List.nodup_append]
      refine ⟨hnd, List.Pairwise.filter _ (nodup_eraseDups _), ?_⟩
      intro a ha b hb e
      subst e
      rw [List.mem_filter] at hb
      simp at hb
      exact hb.2 ha
    · intro i
      simp only [List.mem_append, List.mem_filter, List.mem_eraseDups, decide_eq_true_eq]
      rw [hnew]
      constructor
      · rintro (h | h)
        · exact .inl h
        · exact .inr h.1
      · rintro (h | h)
        · exact .inl h
        · exact .inr ⟨h, fun hm => by have := hlt i hm; omega⟩
  · rename_i he
    have he' : H.length = q.hLen := Decidable.not_not.mp he
    refine ⟨hnd, fun i => ⟨.inl, ?_⟩⟩
    rintro (h | h)
    · exact h
    · omega

theorem PsParts.keysNodup {c : Ctx} {o : PsOpts} {q : PsInfo} {s : Sched} {a : PsAns} {sims gens : WorkD} {ws wg : List Nat}
    (h : PsParts c o q s a sims gens ws wg) (hW : IdsOk c.W) : (keys sims).Nodup ∧ (keys gens).Nodup :=
  ⟨h.simk.nodup (availIds_nodup hW h.simw), h.genk.nodup (availIds_nodup hW h.genw)⟩

theorem PsParts.mem {c : Ctx} {o : PsOpts} {q : PsInfo} {s : Sched} {a : PsAns} {sims gens : WorkD} {ws wg : List Nat}
    (h : PsParts c o q s a sims gens ws wg) {e : Nat × Work} (he : e ∈ a.work) : e ∈ sims ∨ e ∈ gens := by
  rw [h.work] at he
  obtain ⟨l, h1, h2⟩ := puts_sub (sims ++ gens)
  exact List.mem_append.mp (h2.subset (h1.mem_iff.mp he))

/-- Simulation orders are among those made; the other way when no generator order replaces them. -/
theorem PsParts.sim {c : Ctx} {o : PsOpts} {q : PsInfo} {s : Sched} {a : PsAns} {sims gens : WorkD} {ws wg : List Nat}
    (h : PsParts c o q s a sims gens ws wg) {w : Nat} {wk : Work} (he : (w, wk) ∈ a.work) (ht : wk.tag = EVAL_SIM) : (w, wk) ∈ sims := by
  rcases h.mem he with h1 | h1
  · exact h1
  · have := (h.gen _ h1).tag
    rw [show ((w, wk) : Nat × Work).2 = wk from rfl, ht] at this
    cases this

theorem PsParts.given_iff {c : Ctx} {o : PsOpts} {q : PsInfo} {s : Sched} {a : PsAns} {sims gens : WorkD} {ws wg : List Nat}
    (h : PsParts c o q s a sims gens ws wg) {i : Nat} (hg : GivenOut a.work i) : i ∈ (rowsOf sims).flatten := by
  obtain ⟨w, wk, h1, h2, h3⟩ := hg
  rw [List.mem_flatten]
  exact ⟨wk.rows, List.mem_map.mpr ⟨(w, wk), h.sim h1 h2, rfl⟩, h3⟩

theorem PsParts.keep {c : Ctx} {o : PsOpts} {q : PsInfo} {s : Sched} {a : PsAns} {sims gens : WorkD} {ws wg : List Nat}
    (h : PsParts c o q s a sims gens ws wg) (hW : IdsOk c.W) (hd : gens = [] ∨ ∀ w ∈ keys sims, w ∉ keys gens) {i : Nat}
    (hi : i ∈ (rowsOf sims).flatten) : GivenOut a.work i := by
  obtain ⟨rows, h1, h2⟩ := List.mem_flatten.mp hi
  obtain ⟨⟨w, wk⟩, h3, h4⟩ := List.mem_map.mp h1
  subst h4
  obtain ⟨n1, n2⟩ := h.keysNodup hW
  refine ⟨w, wk, ?_, (h.shape _ h3).1.tag, h2⟩
  rw [h.work, puts_append, puts_nil_left n1]
  rw [(puts_perm (d := sims) (es := gens) n1 n2).mem_iff]
  apply List.mem_append_left
  rw [List.mem_filter, decide_eq_true_eq]
  refine ⟨h3, ?_⟩
  rcases hd with e | e
  · subst e; simp
  · exact e w (List.mem_map.mpr ⟨_, h3, rfl⟩)

/-- What holds between the calls. -/
structure PsInv (o : PsOpts) (past : List (Ctx × PsAns)) (q : PsInfo) : Prop where
  nodup : q.need.Nodup
  lt : ∀ i ∈ q.need, i < q.hLen
  fresh : ∀ i ∈ q.need, ∀ z ∈ past, ¬GivenOut z.2.work i ∧ i ∉ z.2.marks
  old : ∀ z ∈ past, ∀ i, GivenOut z.2.work i ∨ i ∈ z.2.marks → i < q.hLen

theorem PsInv.init (o : PsOpts) : PsInv o [] {} := by
  refine ⟨List.nodup_nil, ?_, ?_, ?_⟩
  · intro i hi; cases hi
  · intro i hi; cases hi
  · intro z hz; cases hz

theorem psRows_lt {H : List Row} {o : PsOpts} {ids : List Int} {i : Nat} (h : i ∈ psRows H o ids) : i < H.length := by
  obtain ⟨r, h1, _⟩ := mem_rowsWhere.mp h
  exact (List.getElem?_eq_some_iff.mp h1).1

theorem PsParts.marks_lt {c : Ctx} {o : PsOpts} {q : PsInfo} {s : Sched} {a : PsAns} {sims gens : WorkD} {ws wg : List Nat}
    (h : PsParts c o q s a sims gens ws wg) {i : Nat} (hi : i ∈ a.marks) : i < c.H.length := by
  rcases h.paused with h1 | h1
  · rw [h1.1] at hi; cases hi
  · rw [h1.1] at hi; exact psRows_lt hi

theorem PsInv.step {o : PsOpts} {past : List (Ctx × PsAns)} {q : PsInfo} (hi : PsInv o past q) {c : Ctx} {p : PInfo} {s : Sched} {a : PsAns}
    (hid : IdsAreRows c.H) (hle : q.hLen ≤ c.H.length) (h : psAlloc c o p q s = .ok a) :
    PsInv o (past ++ [(c, a)]) a.q ∧ (a.q.hLen = q.hLen ∨ a.q.hLen = c.H.length) ∧
    ∀ i, GivenOut a.work i → i < c.H.length ∧ i ∉ a.marks ∧ ∀ z ∈ past, ¬GivenOut z.2.work i ∧ i ∉ z.2.marks := by
  obtain ⟨u1, u2⟩ := psUpdate_need hid hi.nodup hi.lt hle
  have hnew : ∀ i, i ∈ (psUpdate c.H q).need → i < c.H.length ∧ ∀ z ∈ past, ¬GivenOut z.2.work i ∧ i ∉ z.2.marks := by
    intro i hn
    rcases (u2 i).mp hn with h1 | h1
    · exact ⟨Nat.lt_of_lt_of_le (hi.lt i h1) hle, hi.fresh i h1⟩
    · refine ⟨h1.2, fun z hz => ⟨fun hg => ?_, fun hm => ?_⟩⟩
      · have := hi.old z hz i (.inl hg); omega
      · have := hi.old z hz i (.inr hm); omega
  rcases ps_spec u1 h with ⟨e, _⟩ | ⟨_, _, _, sims, gens, ws, wg, hp⟩
  · subst e
    refine ⟨⟨hi.nodup, hi.lt, ?_, ?_⟩, .inl rfl, ?_⟩
    · intro i hn z hz
      rcases List.mem_append.mp hz with hz | hz
      · exact hi.fresh i hn z hz
      · rw [List.mem_singleton] at hz; subst hz
        exact ⟨fun ⟨_, _, hh, _⟩ => (by cases hh), by simp⟩
    · intro z hz i hg
      rcases List.mem_append.mp hz with hz | hz
      · exact hi.old z hz i hg
      · rw [List.mem_singleton] at hz; subst hz
        rcases hg with ⟨_, _, hh, _⟩ | hg
        · cases hh
        · cases hg
    · rintro i ⟨_, _, hh, _⟩; cases hh
  · refine ⟨⟨hp.needNodup, ?_, ?_, ?_⟩, .inr hp.hLen, ?_⟩
    · intro i hn
      rw [hp.hLen]
      exact (hnew i ((hp.need i).mp hn).1).1
    · intro i hn z hz
      obtain ⟨n1, n2, n3⟩ := (hp.need i).mp hn
      rcases List.mem_append.mp hz with hz | hz
      · exact (hnew i n1).2 z hz
      · rw [List.mem_singleton] at hz; subst hz
        exact ⟨fun hg => n3 (hp.given_iff hg), n2⟩
    · intro z hz i hg
      rw [hp.hLen]
      rcases List.mem_append.mp hz with hz | hz
      · exact Nat.lt_of_lt_of_le (hi.old z hz i hg) hle
      · rw [List.mem_singleton] at hz; subst hz
        rcases hg with hg | hg
        · exact (hnew i (hp.given i (hp.given_iff hg)).1).1
        · exact hp.marks_lt hg
    · intro i hg
      obtain ⟨g1, g2⟩ := hp.given i (hp.given_iff hg)
      exact ⟨(hnew i g1).1, g2, (hnew i g1).2⟩

/-- The calls of a run: worker tables with distinct ids, rows numbered by `sim_id`, histories that do not shrink. -/
structure PsCallsOk (cs : List (Ctx × PInfo × Sched)) : Prop where
  ids : ∀ x ∈ cs, IdsOk x.1.W
  rows : ∀ x ∈ cs, IdsAreRows x.1.H
  grow : cs.Pairwise fun x y => x.1.H.length ≤ y.1.H.length

/-- A property kept by every call holds at every call of a run. -/
theorem ps_run {o : PsOpts} {I : List (Ctx × PsAns) → PsInfo → Prop}
    (hI : ∀ past q c p s a, I past q → PsInv o past q → IdsOk c.W → IdsAreRows c.H → q.hLen ≤ c.H.length → psAlloc c o p q s = .ok a →
      I (past ++ [(c, a)]) a.q) :
    ∀ (cs : List (Ctx × PInfo × Sched)) (past : List (Ctx × PsAns)) (q : PsInfo), PsCallsOk cs → (∀ x ∈ cs, q.hLen ≤ x.1.H.length) →
      PsInv o past q → I past q → ∀ pre y post, psRun o q cs = pre ++ y :: post →
        ∃ q' p s, PsInv o (past ++ pre) q' ∧ I (past ++ pre) q' ∧ IdsOk y.1.W ∧ IdsAreRows y.1.H ∧ q'.hLen ≤ y.1.H.length ∧
          psAlloc y.1 o p q' s = .ok y.2 ∧ PsInv o (past ++ pre ++ [y]) y.2.q ∧ I (past ++ pre ++ [y]) y.2.q := by
  intro cs
  induction cs with
  | nil => intro past q _ _ _ _ pre y post h; simp [psRun] at h
  | cons x cs ih =>
    intro past q hok hle hi h0 pre y post h
    obtain ⟨c, p, s⟩ := x
    rw [psRun] at h
    have hW := hok.ids (c, p, s) List.mem_cons_self
    have hid := hok.rows (c, p, s) List.mem_cons_self
    have hl := hle (c, p, s) List.mem_cons_self
    cases ha : psAlloc c o p q s with
    | error e => rw [ha] at h; simp at h
    | ok a =>
      rw [ha] at h
      obtain ⟨s1, s2, _⟩ := hi.step hid hl ha
      have hI' := hI _ _ _ _ _ _ h0 hi hW hid hl ha
      cases pre with
      | nil =>
        simp only [List.nil_append, List.cons.injEq] at h
        obtain ⟨e, _⟩ := h
        subst e
        refine ⟨q, p, s, by simpa using hi, by simpa using h0, hW, hid, hl, ha, by simpa using s1, by simpa using hI'⟩
      | cons z pre =>
        simp only [List.cons_append, List.cons.injEq] at h
        obtain ⟨e, h⟩ := h
        subst e
        have hg := List.pairwise_cons.mp hok.grow
        obtain ⟨q', p', s', r⟩ := ih (past ++ [(c, a)]) a.q ⟨fun x hx => hok.ids x (List.mem_cons_of_mem _ hx),
          fun x hx => hok.rows x (List.mem_cons_of_mem _ hx), hg.2⟩ (fun x hx => by
            rcases s2 with e | e
            · rw [e]; exact hle x (List.mem_cons_of_mem _ hx)
            · rw [e]; exact hg.1 x hx) s1 hI' pre y post h
        refine ⟨q', p', s', ?_⟩
        simpa using r

theorem nodup_flatten_key {es : WorkD} : (rowsOf es).flatten.Nodup → ∀ {w w' : Nat} {wk wk' : Work} {i : Nat}, (w, wk) ∈ es → (w', wk') ∈ es →
    i ∈ wk.rows → i ∈ wk'.rows → w = w' := by
  induction es with
  | nil => intro _ w w' wk wk' i h1; cases h1
  | cons e es ih =>
    intro g1 w w' wk wk' i h1 h2 hi hi'
    have g2 : (e.2.rows ++ (rowsOf es).flatten).Nodup := g1
    rw [List.nodup_append] at g2
    have hin : ∀ {x : Nat × Work}, x ∈ es → i ∈ x.2.rows → i ∈ (rowsOf es).flatten := fun hx hi =>
      List.mem_flatten.mpr ⟨_, List.mem_map.mpr ⟨_, hx, rfl⟩, hi⟩
    rcases List.mem_cons.mp h1 with h1 | h1 <;> rcases List.mem_cons.mp h2 with h2 | h2
    · rw [← h1] at h2; exact ((Prod.mk.inj h2).1).symm
    · rw [← h1] at g2; exact absurd rfl (g2.2.2 i hi i (hin (x := (w', wk')) h2 hi'))
    · rw [← h2] at g2; exact absurd rfl (g2.2.2 i hi' i (hin (x := (w, wk)) h1 hi))
    · exact ih g2.2.1 h1 h2 hi hi'

/-- Workers reserved for generators are not given simulations. -/
theorem availIds_reserved {W : List Wrk} (hW : IdsOk W) (hg : ∃ k ∈ W, k.genWorker = true) {ws wg : List Nat}
    (h1 : availIds W none false none (some false) = .ok ws) (h2 : availIds W none false none (some true) = .ok wg) :
    ∀ w ∈ ws, w ∉ wg := by
  intro w hw hw'
  have hany : W.any (·.genWorker) = true := by
    obtain ⟨k, k1, k2⟩ := hg
    exact List.any_eq_true.mpr ⟨k, k1, k2⟩
  rw [(availIds_ok h1).2, List.mem_map] at hw
  rw [(availIds_ok h2).2, List.mem_map] at hw'
  obtain ⟨k, hk, e⟩ := hw
  obtain ⟨k', hk', e'⟩ := hw'
  rw [List.mem_filter, hany] at hk hk'
  have : k = k' := same_wrk hW hk.1 hk'.1 (by rw [e, e'])
  subst this
  have a1 := hk.2
  have a2 := hk'.2
  simp at a1 a2
  rw [a1.2] at a2
  cases a2.2

theorem minBest_le {l : List (Option Int)} : ∀ {b : Option Int} {v : Int}, (some v ∈ l ∨ b = some v) →
    ∃ b', l.foldl minBest b = some b' ∧ b' ≤ v := by
  induction l with
  | nil =>
    intro b v h
    rcases h with h | h
    · cases h
    · exact ⟨v, h, Int.le_refl _⟩
  | cons x l ih =>
    intro b v h
    rw [List.foldl_cons]
    have key : some v ∈ l ∨ ∃ v', minBest b x = some v' ∧ v' ≤ v := by
      rcases h with h | h
      · rcases List.mem_cons.mp h with e | h
        · right
          subst e
          cases b with
          | none => exact ⟨v, rfl, Int.le_refl _⟩
          | some b =>
            refine ⟨if v < b then v else b, rfl, ?_⟩
            split <;> omega
        · exact .inl h
      · right
        subst h
        cases x with
        | none => exact ⟨v, rfl, Int.le_refl _⟩
        | some x =>
          refine ⟨if x < v then x else v, rfl, ?_⟩
          split <;> omega
    rcases key with h1 | ⟨v', h1, h2⟩
    · exact ih (.inl h1)
    · obtain ⟨b', e1, e2⟩ := ih (b := minBest b x) (v := v') (.inr h1)
      exact ⟨b', e1, Int.le_trans e2 h2⟩

theorem minBest_mem {l : List (Option Int)} : ∀ {b : Option Int} {v : Int}, l.foldl minBest b = some v → b = some v ∨ some v ∈ l := by
  induction l with
  | nil => intro b v h; exact .inl h
  | cons x l ih =>
    intro b v h
    rw [List.foldl_cons] at h
    rcases ih h with h | h
    · cases b with
      | none =>
        cases x with
        | none => cases h
        | some x => right; rw [← h]; exact List.mem_cons_self
      | some b =>
        cases x with
        | none => exact .inl h
        | some x =>
          simp only [minBest] at h
          split at h
          · right; rw [← h]; exact List.mem_cons_self
          · exact .inl h
    · exact .inr (List.mem_cons_of_mem _ h)

end Verif.Alloc
