import Verif.Aposmm.Class

/-
What the class has handed out and passed on, for every sequence of calls.
-/
namespace Verif.Aposmm

variable {β : Type}

/-- Every state of the class, for results whose number is in the field `k`; messages of the generator arrive at any time.  A call for all points
(`suggest(0)`) comes when no point or every point of the last message has been handed out and the generator can be asked. -/
inductive CReach (k : IdField) (n : Nat) : Cls β → Prop
  | init : CReach k n { size := n }
  | arrive {s : Cls β} (m : List Sug) : CReach k n s → CReach k n { s with inbox := s.inbox ++ [m] }
  | suggest {s s' : Cls β} {j : Nat} {l : List Sug} : CReach k n s → (j = 0 → s.last = none ∨ s.idx = 0 ∨ s.ready = .ok true) →
      s.suggest j = .ok (l, s') → CReach k n s'
  | ingest {s s' : Cls β} {rs : List (Nat × β)} : CReach k n s → s.ingest k rs = .ok s' → CReach k n s'
  | updates {s : Cls β} : CReach k n s → CReach k n s.takeUpdates

/-- Points received that have not been handed out. -/
def Cls.rest (s : Cls β) : List Sug := match s.last with
  | none => []
  | some l => l.drop s.idx

structure Handed (s : Cls β) : Prop where
  pts : s.handed ++ s.rest = s.taken.flatten.filter fun p => !p.lmin
  mins : s.updates ++ s.minima.flatten = s.taken.flatten.filter fun p => p.lmin

theorem ready_rest {s : Cls β} (h : s.ready = .ok true) : s.rest = [] := by
  unfold Cls.ready at h
  unfold Cls.rest
  split at h
  · rename_i e; rw [e]
  · rename_i l e
    rw [e]
    split at h
    · have h1 : decide (l.length ≤ s.idx) = true := Except.ok.inj h
      exact List.drop_eq_nil_of_le (by simpa using h1)
    · split at h
      · split at h
        · rename_i e2; simp [e2]
        · cases h
      · have h1 := Except.ok.inj h
        simp only [Bool.and_eq_true, decide_eq_true_eq] at h1
        exact List.drop_eq_nil_of_le h1.2

theorem Handed.fetch {s s' : Cls β} {n : Nat} (h : Handed s) (hr : s.rest = []) (hf : s.fetch n = .ok s') :
    Handed s' ∧ s'.idx = 0 ∧ s'.last.isSome = true := by
  unfold Cls.fetch at hf
  split at hf
  · cases hf
  · split at hf
    · cases hf
    · rename_i m ms e
      cases hf
      refine ⟨⟨?_, ?_⟩, rfl, rfl⟩
      · have := h.pts
        rw [hr, List.append_nil] at this
        show s.handed ++ (m.filter fun p => !p.lmin).drop 0 = (s.taken ++ [m]).flatten.filter _
        rw [List.flatten_append, List.filter_append, ← this]
        simp
      · show s.updates ++ (if m.any (·.lmin) then s.minima ++ [m.filter (·.lmin)] else s.minima).flatten = (s.taken ++ [m]).flatten.filter _
        rw [List.flatten_append, List.filter_append, ← h.mins]
        split
        · simp [List.append_assoc]
        · rename_i hn
          have : m.filter (fun p => p.lmin) = [] := by
            rw [List.filter_eq_nil_iff]
            intro p hp hl
            exact hn (List.any_eq_true.mpr ⟨p, hp, hl⟩)
          simp [this]

theorem Handed.hand {s : Cls β} {n : Nat} (h : Handed s) (hn : n = 0 → s.last = none ∨ s.idx = 0) : Handed (s.hand n).2 := by
  unfold Cls.hand
  dsimp only
  by_cases hz : n > 0
  · rw [if_pos hz]
    refine ⟨?_, h.mins⟩
    have := h.pts
    unfold Cls.rest at this ⊢
    cases hl : s.last with
    | none => rw [hl] at this; simpa using this
    | some l =>
      rw [hl] at this
      dsimp only at this ⊢
      simp only [Option.getD_some]
      rw [← this, List.append_assoc, ← List.drop_drop, List.take_append_drop]
  · rw [if_neg hz]
    refine ⟨?_, h.mins⟩
    have := h.pts
    unfold Cls.rest at this ⊢
    cases hl : s.last with
    | none => rw [hl] at this; simpa using this
    | some l =>
      rw [hl] at this
      rcases hn (by omega) with h1 | h1
      · rw [hl] at h1; cases h1
      · rw [h1] at this; simpa using this

theorem Handed.suggest {s s' : Cls β} {n : Nat} {l : List Sug} (h : Handed s) (hn : n = 0 → s.last = none ∨ s.idx = 0 ∨ s.ready = .ok true)
    (hs : s.suggest n = .ok (l, s')) : Handed s' ∧ s'.handed = s.handed ++ l := by
  have hh : ∀ t : Cls β, (t.hand n).2.handed = t.handed ++ (t.hand n).1 := by
    intro t; unfold Cls.hand; dsimp only; split <;> rfl
  unfold Cls.suggest at hs
  split at hs
  · cases hs
  · rename_i hr
    have e := Except.ok.inj hs
    have e1 : l = (s.hand n).1 := by rw [e]
    have e2 : s' = (s.hand n).2 := by rw [e]
    subst e1 e2
    refine ⟨h.hand fun hz => ?_, hh s⟩
    rcases hn hz with h1 | h1 | h1
    · exact .inl h1
    · exact .inr h1
    · rw [hr] at h1; cases h1
  · rename_i hr
    split at hs
    · cases hs
    · rename_i t ht
      obtain ⟨h1, h2, h3⟩ := h.fetch (ready_rest hr) ht
      have e := Except.ok.inj hs
      have e1 : l = (t.hand n).1 := by rw [e]
      have e2 : s' = (t.hand n).2 := by rw [e]
      subst e1 e2
      refine ⟨h1.hand fun _ => .inr h2, ?_⟩
      rw [hh t]
      congr 1
      unfold Cls.fetch at ht
      split at ht
      · cases ht
      · split at ht
        · cases ht
        · cases ht; rfl

/-! ### Results -/

theorem slotIn_length (k : IdField) (rs : List (Nat × β)) (b : List (Nat × Option β)) (j : Nat) : (slotIn k b j rs).length = b.length := by
  induction rs generalizing b j with
  | nil => rfl
  | cons r rs ih => rw [slotIn, ih]; simp

/-- The number under which a result is kept. -/
def numOf (k : IdField) (i : Nat) : Nat := if k = .missing then 0 else i

theorem slotIn_get (k : IdField) (rs : List (Nat × β)) (b : List (Nat × Option β)) (j i : Nat) (hb : j + rs.length ≤ b.length) :
    (slotIn k b j rs)[i]? = if j ≤ i ∧ i < j + rs.length then
      (rs[i - j]?).map (fun r => (if k = .missing then ((b[i]?).map (·.1)).getD 0 else r.1, some r.2)) else b[i]? := by
  induction rs generalizing b j with
  | nil =>
    rw [slotIn, if_neg]
    simp only [List.length_nil]; omega
  | cons r rs ih =>
    simp only [List.length_cons] at hb
    rw [slotIn, ih _ _ (by simp; omega)]
    simp only [List.length_cons, List.getElem?_modify]
    by_cases h1 : j + 1 ≤ i ∧ i < j + 1 + rs.length
    · rw [if_pos h1, if_pos (by omega)]
      have : i - j = (i - (j + 1)) + 1 := by omega
      rw [this, List.getElem?_cons_succ]
      have hne : ¬ j = i := by omega
      simp [hne]
    · rw [if_neg h1]
      by_cases h2 : j = i
      · subst h2
        rw [if_pos (by omega)]
        have hj : j < b.length := by omega
        simp [List.getElem?_eq_getElem hj]
      · rw [if_neg (by omega)]
        simp [h2]

structure Passed (k : IdField) (n : Nat) (s : Cls β) : Prop where
  size : s.size = n
  before : s.told = false → s.out = [] ∧ s.nbuf = s.given.length ∧ s.nbuf < n ∧
    (0 < s.nbuf → ∃ b, s.buf = some b ∧ b.length = n ∧ (∀ i, i < s.nbuf → b[i]? = (s.given[i]?).map fun r => (numOf k r.1, some r.2)) ∧
      ∀ i, s.nbuf ≤ i → i < n → b[i]? = some (0, none))
  after : s.told = true → ∃ b os, s.out = b :: os ∧ b.length = n ∧ n ≤ s.given.length ∧
    (∀ i, i < n → b[i]? = (s.given[i]?).map fun r => (if k = .simId then i else numOf k r.1, some r.2)) ∧
    os.flatten = (s.given.drop n).map fun r => (r.1, some r.2)

theorem Passed.ingest {k : IdField} {n : Nat} {s s' : Cls β} {rs : List (Nat × β)} (h : Passed k n s) (hi : s.ingest k rs = .ok s') : Passed k n s' := by
  have hsz := h.size
  unfold Cls.ingest at hi
  cases ht : s.told with
  | true =>
    rw [ht] at hi
    simp only [if_true] at hi
    split at hi
    · cases hi
      refine ⟨hsz, fun hf => Bool.noConfusion hf, fun _ => ?_⟩
      obtain ⟨b, os, h1, h2, h3, h4, h5⟩ := h.after ht
      refine ⟨b, os ++ [rs.map fun r => (r.1, some r.2)], by show s.out ++ _ = _; rw [h1]; rfl, h2, ?_, fun i hin => ?_, ?_⟩
      · show n ≤ (s.given ++ rs).length
        simp; omega
      · show b[i]? = ((s.given ++ rs)[i]?).map _
        rw [List.getElem?_append_left (by omega)]; exact h4 i hin
      · show (os ++ [_]).flatten = ((s.given ++ rs).drop n).map _
        rw [List.drop_append_of_le_length h3, List.map_append, ← h5]
        simp
    · cases hi
  | false =>
    obtain ⟨h1, h2, h3, h4⟩ := h.before ht
    rw [ht] at hi
    simp only [Bool.false_eq_true, if_false] at hi
    rw [if_pos (by rw [hsz]; exact h3)] at hi
    generalize hb : s.base = b0 at hi
    unfold Cls.base at hb
    have hb0 : b0.length = n ∧ (∀ i, i < s.nbuf → b0[i]? = (s.given[i]?).map fun r => (numOf k r.1, some r.2)) ∧
        ∀ i, s.nbuf ≤ i → i < n → b0[i]? = some (0, none) := by
      by_cases hz : s.nbuf = 0
      · rw [if_pos hz] at hb
        subst hb
        refine ⟨by simp [hsz], fun i hi => by omega, fun i _ hin => ?_⟩
        rw [List.getElem?_replicate, if_pos (by omega)]
      · obtain ⟨b, e1, e2, e3, e4⟩ := h4 (by omega)
        rw [if_neg hz, e1] at hb
        have : b0 = b := hb.symm
        subst this
        exact ⟨e2, e3, e4⟩
    obtain ⟨b1, b2, b3⟩ := hb0
    split at hi
    · cases hi
    · rename_i hfit
      have hfit' : s.nbuf + rs.length ≤ n := by omega
      have hg := slotIn_get k rs b0 s.nbuf
      have hlen : (slotIn k b0 s.nbuf rs).length = n := by rw [slotIn_length, b1]
      have get : ∀ i, i < s.nbuf + rs.length → (slotIn k b0 s.nbuf rs)[i]? = ((s.given ++ rs)[i]?).map fun r => (numOf k r.1, some r.2) := by
        intro i hi
        rw [hg i (by omega)]
        by_cases hin : s.nbuf ≤ i
        · rw [if_pos ⟨hin, hi⟩, List.getElem?_append_right (by omega), ← h2, b3 i hin (by omega)]
          congr 1
        · rw [if_neg (by omega), List.getElem?_append_left (by omega)]
          exact b2 i (by omega)
      split at hi
      · rename_i hfull
        cases hi
        refine ⟨hsz, by simp, fun _ => ?_⟩
        have hn : n = s.nbuf + rs.length := by omega
        refine ⟨_, [], by show s.out ++ _ = _; rw [h1]; rfl, ?_, ?_, fun i hin => ?_, ?_⟩
        · split
          · simp [renumber, hlen]
          · exact hlen
        · show n ≤ (s.given ++ rs).length
          simp; omega
        · show _ = ((s.given ++ rs)[i]?).map _
          have hgi := get i (by omega)
          split
          · rename_i hk
            rw [renumber, List.getElem?_mapIdx, hgi, Option.map_map]
            congr 1
          · exact hgi
        · show [] = ((s.given ++ rs).drop n).map _
          rw [List.drop_eq_nil_of_le (by simp; omega)]; rfl
      · rename_i hnot
        cases hi
        refine ⟨hsz, fun _ => ⟨h1, by show _ = (s.given ++ rs).length; simp; omega, by show s.nbuf + rs.length < n; omega, fun _ => ?_⟩,
          fun hf => Bool.noConfusion hf⟩
        refine ⟨_, rfl, hlen, fun i hi => get i hi, fun i h5 h6 => ?_⟩
        have h5 : s.nbuf + rs.length ≤ i := h5
        rw [hg i (by omega), if_neg (by omega)]
        exact b3 i (by have : s.nbuf + rs.length ≤ i := h5; omega) h6

theorem suggest_frame {s s' : Cls β} {n : Nat} {l : List Sug} (h : s.suggest n = .ok (l, s')) :
    s'.size = s.size ∧ s'.told = s.told ∧ s'.out = s.out ∧ s'.nbuf = s.nbuf ∧ s'.given = s.given ∧ s'.buf = s.buf ∧
      s'.taken ++ s'.inbox = s.taken ++ s.inbox := by
  have hh : ∀ t : Cls β, (t.hand n).2.size = t.size ∧ (t.hand n).2.told = t.told ∧ (t.hand n).2.out = t.out ∧ (t.hand n).2.nbuf = t.nbuf ∧
      (t.hand n).2.given = t.given ∧ (t.hand n).2.buf = t.buf ∧ (t.hand n).2.taken ++ (t.hand n).2.inbox = t.taken ++ t.inbox := by
    intro t; unfold Cls.hand; dsimp only; split <;> exact ⟨rfl, rfl, rfl, rfl, rfl, rfl, rfl⟩
  unfold Cls.suggest at h
  split at h
  · cases h
  · have e := Except.ok.inj h
    have e2 : s' = (s.hand n).2 := by rw [e]
    subst e2
    exact hh s
  · split at h
    · cases h
    · rename_i t ht
      have e := Except.ok.inj h
      have e2 : s' = (t.hand n).2 := by rw [e]
      subst e2
      have hht := hh t
      clear e h
      revert hht
      generalize (t.hand n).2 = u
      rintro ⟨a1, a2, a3, a4, a5, a6, a7⟩
      rw [a1, a2, a3, a4, a5, a6, a7]
      unfold Cls.fetch at ht
      split at ht
      · cases ht
      · split at ht
        · cases ht
        · rename_i m ms e
          cases ht
          exact ⟨rfl, rfl, rfl, rfl, rfl, rfl, by rw [e]; simp⟩

theorem Passed.frame {k : IdField} {n : Nat} {s s' : Cls β} (h : Passed k n s) (h1 : s'.size = s.size) (h2 : s'.told = s.told) (h3 : s'.out = s.out)
    (h4 : s'.nbuf = s.nbuf) (h5 : s'.given = s.given) (h6 : s'.buf = s.buf) : Passed k n s' := by
  refine ⟨h1.trans h.size, fun ht => ?_, fun ht => ?_⟩
  · rw [h3, h4, h5, h6]; exact h.before (h2.symm.trans ht)
  · rw [h3, h5]; exact h.after (h2.symm.trans ht)

theorem CReach.handed {k : IdField} {n : Nat} {s : Cls β} (h : CReach k n s) : Handed s := by
  induction h with
  | init => exact ⟨rfl, rfl⟩
  | arrive m _ ih => exact ⟨ih.pts, ih.mins⟩
  | suggest _ hn hs ih => exact (ih.suggest hn hs).1
  | @ingest s s' rs _ hi ih =>
    have : s'.handed = s.handed ∧ s'.last = s.last ∧ s'.idx = s.idx ∧ s'.taken = s.taken ∧ s'.updates = s.updates ∧ s'.minima = s.minima := by
      unfold Cls.ingest at hi
      dsimp only at hi
      (repeat' split at hi) <;> cases hi <;> exact ⟨rfl, rfl, rfl, rfl, rfl, rfl⟩
    obtain ⟨a1, a2, a3, a4, a5, a6⟩ := this
    exact ⟨by rw [Cls.rest, a1, a2, a3, a4]; exact ih.pts, by rw [a4, a5, a6]; exact ih.mins⟩
  | updates _ ih => exact ⟨ih.pts, by show (_ ++ _) ++ List.flatten [] = _; rw [List.flatten_nil, List.append_nil]; exact ih.mins⟩

theorem CReach.passed {k : IdField} {n : Nat} {s : Cls β} (hn : 0 < n) (h : CReach k n s) : Passed k n s := by
  induction h with
  | init => exact ⟨rfl, fun _ => ⟨rfl, rfl, hn, fun h => absurd h (by simp)⟩, by simp⟩
  | arrive m _ ih => exact ih.frame rfl rfl rfl rfl rfl rfl
  | suggest _ _ hs ih =>
    obtain ⟨a1, a2, a3, a4, a5, a6, _⟩ := suggest_frame hs
    exact ih.frame a1 a2 a3 a4 a5 a6
  | ingest _ hi ih => exact ih.ingest hi
  | updates _ ih => exact ih.frame rfl rfl rfl rfl rfl rfl

end Verif.Aposmm
