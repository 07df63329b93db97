import Verif.Aposmm.Joint

/-
Property C64: the class `APOSMM` hands out its generator's points once each and passes on the results it is given.

`CReach` (ClassInv.lean) are all sequences of calls of the class with any messages of a generator; `JReach` (Joint.lean) those with the model of APOSMM's own
generator, for callers that give results once each.  Both leave out `suggest(0)` while a message is partly handed out (`C64_again_witness` in
ClassExamples.lean), so theorems about them are partial.
-/
namespace Verif.Aposmm

variable {α β : Type}

/-- The points that are not marked as minima, and the minima. -/
def pointsOf (ms : List (List Sug)) : List Sug := ms.flatten.filter fun p => !p.lmin
def minimaOf (ms : List (List Sug)) : List Sug := ms.flatten.filter fun p => p.lmin

/-- **C64** The points handed out are those received from the generator, in order and each once, as far as they have been asked for; no other message is
received before all are handed out.  The minima are those received, in order and each once, as far as updates have been asked for. -/
theorem C64_handed_partial {k : IdField} {n : Nat} {s : Cls β} (h : CReach k n s) :
    (∃ rest, s.handed ++ rest = pointsOf s.taken ∧ ∀ j l s', s.suggest j = .ok (l, s') → s'.taken ≠ s.taken → rest = []) ∧
    s.updates ++ s.minima.flatten = minimaOf s.taken := by
  refine ⟨⟨s.rest, h.handed.pts, fun j l s' hs hne => ?_⟩, h.handed.mins⟩
  unfold Cls.suggest at hs
  split at hs
  · cases hs
  · exfalso
    have e := Except.ok.inj hs
    have e2 : s' = (s.hand j).2 := by rw [e]
    subst e2
    refine hne ?_
    unfold Cls.hand; dsimp only; split <;> rfl
  · rename_i hr; exact ready_rest hr

/-- **C64** A call of `suggest` adds what it returns to the points handed out: all points of a message, or at most the number asked for. -/
theorem C64_suggest {k : IdField} {n : Nat} {s s' : Cls β} {j : Nat} {l : List Sug} (h : CReach k n s)
    (hn : j = 0 → s.last = none ∨ s.idx = 0 ∨ s.ready = .ok true) (hs : s.suggest j = .ok (l, s')) :
    s'.handed = s.handed ++ l ∧ (0 < j → l.length ≤ j) ∧ (j = 0 → s'.handed = pointsOf s'.taken) ∧ s'.taken ++ s'.inbox = s.taken ++ s.inbox := by
  obtain ⟨h1, h2⟩ := h.handed.suggest hn hs
  refine ⟨h2, fun hj => ?_, fun hj => ?_, (suggest_frame hs).2.2.2.2.2.2⟩
  · have : ∀ t : Cls β, (t.hand j).1.length ≤ j := by
      intro t; unfold Cls.hand; dsimp only; rw [if_pos hj]; simp [List.length_take]; omega
    unfold Cls.suggest at hs
    split at hs
    · cases hs
    · have e : l = (s.hand j).1 := by rw [Except.ok.inj hs]
      rw [e]; exact this s
    · split at hs
      · cases hs
      · rename_i t _
        have e : l = (t.hand j).1 := by rw [Except.ok.inj hs]
        rw [e]; exact this t
  · subst hj
    have : ∀ t : Cls β, (t.hand 0).2.last = none := by intro t; unfold Cls.hand; simp
    have hl : s'.last = none := by
      unfold Cls.suggest at hs
      split at hs
      · cases hs
      · have e : s' = (s.hand 0).2 := by rw [Except.ok.inj hs]
        rw [e]; exact this s
      · split at hs
        · cases hs
        · rename_i t _
          have e : s' = (t.hand 0).2 := by rw [Except.ok.inj hs]
          rw [e]; exact this t
    have := h1.pts
    rw [Cls.rest, hl, List.append_nil] at this
    exact this

/-- **C64** When `suggest` cannot answer: there is no message, or results have to be given first. -/
theorem C64_suggest_errors {k : IdField} {n : Nat} {s : Cls β} {j : Nat} {e : ClsErr} (_h : CReach k n s) (hs : s.suggest j = .error e) :
    (e = .blocked ∧ s.inbox = []) ∨ (e = .expecting ∧ j = 0 ∧ s.lastNum = 0 ∧ s.lastSug = true) ∨
    (e = .noBuffer ∧ s.told = false ∧ s.buf = none ∧ ∃ l, s.last = some l ∧ l ≠ []) := by
  unfold Cls.suggest at hs
  split at hs
  · rename_i e' hr
    cases hs
    unfold Cls.ready at hr
    split at hr
    · cases hr
    · rename_i l hl
      split at hr
      · cases hr
      · rename_i ht
        split at hr
        · rename_i hb
          split at hr
          · cases hr
          · rename_i hne
            cases hr
            exact .inr (.inr ⟨rfl, by simpa using ht, hb, l, hl, hne⟩)
        · cases hr
  · cases hs
  · split at hs
    · rename_i e' hf
      cases hs
      unfold Cls.fetch at hf
      split at hf
      · rename_i hc
        cases hf
        simp only [Bool.and_eq_true, decide_eq_true_eq] at hc
        exact .inr (.inl ⟨rfl, hc.1.2, hc.2, hc.1.1⟩)
      · split at hf
        · rename_i hi; cases hf; exact .inl ⟨rfl, hi⟩
        · cases hf
    · cases hs

/-- **C64** Nothing is passed to the generator before `initial_sample_size` results are given.  Then they are passed on together, in the order in which they
were given, and later results as they are given.  In the first batch, `sim_id` is the position, `_id` is kept. -/
theorem C64_passed {k : IdField} {n : Nat} {s : Cls β} (hn : 0 < n) (h : CReach k n s) :
    (s.given.length < n → s.out = []) ∧
    (n ≤ s.given.length → ∃ b os, s.out = b :: os ∧
      b = ((s.given.take n).mapIdx fun i r => (match k with | .simId => i | .underId => r.1 | .missing => 0, some r.2)) ∧
      os.flatten = (s.given.drop n).map fun r => (r.1, some r.2)) := by
  have hp := h.passed hn
  cases ht : s.told with
  | false =>
    obtain ⟨h1, h2, h3, _⟩ := hp.before ht
    exact ⟨fun _ => h1, fun hl => by omega⟩
  | true =>
    obtain ⟨b, os, h1, h2, h3, h4, h5⟩ := hp.after ht
    refine ⟨fun hl => by omega, fun _ => ⟨b, os, h1, List.ext_getElem? fun i => ?_, h5⟩⟩
    rw [List.getElem?_mapIdx, List.getElem?_take]
    by_cases hi : i < n
    · rw [if_pos hi, h4 i hi]
      cases k <;> simp [numOf]
    · rw [if_neg hi, List.getElem?_eq_none (by omega)]; rfl

/-- **C64** `ingest` fails exactly if more results come than are missing in the initial sample, or if later results have no `sim_id`. -/
theorem C64_ingest_errors {k : IdField} {n : Nat} {s : Cls β} {rs : List (Nat × β)} (hn : 0 < n) (h : CReach k n s) (e : ClsErr) :
    s.ingest k rs = .error e ↔ (e = .shape ∧ s.given.length < n ∧ n < s.given.length + rs.length) ∨ (e = .noId ∧ n ≤ s.given.length ∧ k ≠ .simId) := by
  have hp := h.passed hn
  have hz := hp.size
  unfold Cls.ingest
  cases ht : s.told with
  | false =>
    obtain ⟨_, h2, h3, _⟩ := hp.before ht
    simp only [Bool.false_eq_true, if_false]
    rw [if_pos (by omega), hz]
    split
    · rename_i hlt
      constructor
      · intro he; cases he; exact .inl ⟨rfl, by omega, by omega⟩
      · rintro (⟨rfl, _⟩ | ⟨_, hl, _⟩)
        · rfl
        · omega
    · rename_i hlt
      constructor
      · intro he; split at he <;> cases he
      · rintro (⟨_, _, hl⟩ | ⟨_, hl, _⟩) <;> omega
  | true =>
    obtain ⟨_, _, _, _, h3, _⟩ := hp.after ht
    simp only [if_true]
    split
    · rename_i hk
      constructor
      · intro he; cases he
      · rintro (⟨_, hl, _⟩ | ⟨_, _, hne⟩)
        · omega
        · exact absurd hk hne
    · rename_i hk
      constructor
      · intro he; cases he; exact .inr ⟨rfl, h3, hk⟩
      · rintro (⟨_, hl, _⟩ | ⟨rfl, _, _⟩)
        · omega
        · rfl

/-! ### With the generator -/

/-- The local optimizers end only at minima.  Otherwise the last point of a run is handed out twice (`C64_twice_witness`). -/
def AllMinima (cf : Cfg α) : Prop := ∀ c k x b, cf.ans c k = .conv x b → b = true

theorem JReach.pos {cf : Cfg α} {s : JS α} {g : St α} (h : JReach cf s) (hg : s.g = some g) : 0 < cf.initial := by
  have : ∀ {t : JS α}, JReach cf t → t.g.isSome = true → 0 < cf.initial := by
    intro t ht
    induction ht with
    | init => intro e; cases e
    | start _ _ hb _ => intro _; exact (begin_nil hb).1
    | suggest _ _ _ _ ih => exact ih
    | ingest _ _ _ _ ih => exact ih
    | updates _ ih => exact ih
    | gen _ hg _ _ ih => intro _; exact ih (by rw [hg]; rfl)
  exact this h (by rw [hg]; rfl)

/-- **C64** The points handed out are numbered 0, 1, 2, … without gaps and repetitions, and each is a row of the generator. -/
theorem C64_numbers_partial {cf : Cfg α} {s : JS α} (hm : AllMinima cf) (h : JReach cf s) :
    s.c.handed.map (·.id) = List.range s.c.handed.length ∧ ∀ g, s.g = some g → s.c.handed.length ≤ g.rows.length := by
  have hi := h.inv hm
  cases hg : s.g with
  | none =>
    obtain ⟨h1, _, _⟩ := hi.off hg
    have := h.cls.handed.pts
    rw [h1] at this
    have h2 : s.c.handed = [] := (List.append_eq_nil_iff.mp (by simpa using this)).1
    rw [h2]
    exact ⟨rfl, nofun⟩
  | some g =>
    have hp := hi.pts g hg
    rw [JS.msgs, List.flatten_append, List.filter_append, ← h.cls.handed.pts, List.append_assoc, List.map_append] at hp
    have hl : s.c.handed.length ≤ g.rows.length := by
      have := congrArg List.length hp
      simp only [List.length_append, List.length_map, List.length_range] at this
      omega
    refine ⟨?_, fun g' e => by cases e; exact hl⟩
    have := congrArg (List.take s.c.handed.length) hp
    rw [List.take_left' (by simp)] at this
    rw [this, List.take_range, Nat.min_eq_left hl]

/-- **C64** The generator handles every batch without an error unless a local optimizer fails: the results are for rows that have none. -/
theorem C64_generator_partial {cf : Cfg α} {s : JS α} {g : St α} {b : List (Nat × Option FVal)} (hm : AllMinima cf) (h : JReach cf s) (hg : s.g = some g)
    (hb : s.c.out[s.done]? = some b) :
    Reach cf [] g ∧ Fresh g.rows (valsOf b) ∧ ∀ e, pass cf g (.work (valsOf b)) = .error e → e = .optimizer ∨ e = .badStart := by
  have hi := h.inv hm
  have hf := hi.fresh h (h.pos hg) hg hb
  exact ⟨(hi.reach g hg).1, hf, fun e he => C63_errors (hi.reach g hg).1 (fun _ => hf) e he⟩

/-- **C64** The values of the generator's rows are those given to the class for the points with these numbers: a row has a value exactly if its result has been
given and is in a batch the generator has handled. -/
theorem C64_values_partial {cf : Cfg α} {s : JS α} {g : St α} (hm : AllMinima cf) (h : JReach cf s) (hg : s.g = some g) (i : Nat) (r : ARow α)
    (hr : g.rows[i]? = some r) :
    (r.ended = true → (i, r.f) ∈ s.c.given ∧ ∃ p ∈ s.c.handed, p.id = i) ∧
    (∀ v, (i, v) ∈ s.c.given → s.done = s.c.out.length → cf.initial ≤ s.c.given.length → r.ended = true ∧ r.f = v) := by
  have hi := h.inv hm
  have hp := h.cls.passed (h.pos hg)
  have hf := h.fair
  have hmade := ((hi.reach g hg).1.vals.made i r (Nat.zero_le _) hr).2
  have told : s.c.out ≠ [] → s.c.told = true := by
    intro hne
    cases ht : s.c.told with
    | true => rfl
    | false => exact absurd (hp.before ht).1 hne
  refine ⟨fun he => ?_, fun v hv hd hn => ?_⟩
  · rcases hmade with ⟨_, h2, _⟩ | ⟨_, _, h3⟩
    · rw [he] at h2; cases h2
    · have h4 := (hi.got g hg _).mp h3
      have hne : s.c.out ≠ [] := by intro e; rw [e] at h4; simp at h4
      have h5 : (i, r.f) ∈ s.c.given := by
        rw [← sent_given hp hf (told hne)]
        obtain ⟨l, hl, hm2⟩ := List.mem_flatten.mp h4
        obtain ⟨b, hb, rfl⟩ := List.mem_map.mp hl
        exact List.mem_flatten.mpr ⟨_, List.mem_map.mpr ⟨b, List.mem_of_mem_take hb, rfl⟩, hm2⟩
      exact ⟨h5, hf.asked _ h5⟩
  · have ht : s.c.told = true := by
      cases ht : s.c.told with
      | true => rfl
      | false => obtain ⟨_, h2, h3, _⟩ := hp.before ht; omega
    have h1 : (i, v) ∈ gotVals g.tr := by
      rw [hi.got g hg, hd, List.take_length, sent_given hp hf ht]; exact hv
    have hin : i ∈ (gotVals g.tr).map (·.1) := List.mem_map.mpr ⟨_, h1, rfl⟩
    rcases hmade with ⟨h2, _⟩ | ⟨_, h3, h4⟩
    · exact absurd hin h2
    · refine ⟨h3, ?_⟩
      have hnd := (hi.reach g hg).1.vals.once
      generalize gotVals g.tr = L at hnd h1 h4
      induction L with
      | nil => cases h1
      | cons a L ih =>
        rw [List.map_cons, List.nodup_cons] at hnd
        rcases List.mem_cons.mp h1 with e1 | m1
        · rcases List.mem_cons.mp h4 with e4 | m4
          · exact (Prod.mk.inj (e4.trans e1.symm)).2
          · exact absurd (List.mem_map.mpr ⟨_, m4, by rw [← e1]⟩) hnd.1
        · rcases List.mem_cons.mp h4 with e4 | m4
          · exact absurd (List.mem_map.mpr ⟨_, m1, by rw [← e4]⟩) hnd.1
          · exact ih hnd.2 m1 m4

/-- **C64** The generator sends one message at the start and one for each batch it has handled; so when a call of `suggest` waits and every batch has been
handled, the class has received an answer to everything it has been given. -/
theorem C64_answers_partial {cf : Cfg α} {s : JS α} {g : St α} (hm : AllMinima cf) (h : JReach cf s) (hg : s.g = some g) :
    s.c.taken.length + s.c.inbox.length = s.done + 1 ∧ s.done ≤ s.c.out.length ∧
    (∀ j, s.c.suggest j = .error .blocked → s.done = s.c.out.length → s.c.taken.length = s.c.out.length + 1) := by
  have hi := h.inv hm
  refine ⟨hi.count g hg, hi.done, fun j hs hd => ?_⟩
  have hc := hi.count g hg
  rcases C64_suggest_errors h.cls hs with ⟨_, h1⟩ | ⟨h1, _⟩ | ⟨h1, _⟩
  · rw [h1] at hc; simp at hc; omega
  · cases h1
  · cases h1

end Verif.Aposmm
