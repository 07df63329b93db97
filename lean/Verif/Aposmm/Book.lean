import Verif.Aposmm.Frame

/-
The bookkeeping of the local optimization runs.
-/
namespace Verif.Aposmm

variable {α : Type}

/-- The rows passed to run `c`, oldest first. -/
def passed : List Ev → Nat → List Nat
  | [], _ => []
  | .iter d i :: t, c => if d = c then passed t c ++ [i] else passed t c
  | .start _ _ :: t, c => passed t c
  | .conv _ :: t, c => passed t c
  | .send _ _ :: t, c => passed t c
  | .got _ :: t, c => passed t c

/-- `run_order` of run `c`. -/
def ordOf (s : St α) (c : Nat) : List Nat := (s.order[c]?).getD []

/-- A row whose value has not been passed to its run: it is not evaluated, or its value has just been received. -/
def Live (s : St α) (P : List Nat) (i : Nat) : Prop := (∃ r, s.rows[i]? = some r ∧ r.ended = false) ∨ i ∈ P

/-- Run `c` waits for a value; `w` is a run that has been asked for its next point. -/
def Waits (s : St α) (w : Option Nat) (c : Nat) : Prop := c ∈ s.opters ∧ w ≠ some c

structure Book (cf : Cfg α) (H : List (ARow α)) (s : St α) (P : List Nat) (w : Option Nat) : Prop where
  lt : ∀ c ∈ s.opters, c < s.order.length
  nodup : s.opters.Nodup
  endd : ∀ c, c ∈ s.endedRuns ↔ c < s.order.length ∧ c ∉ s.opters
  enodup : s.endedRuns.Nodup
  lim : ∀ m, cf.maxActive = some m → s.opters.length ≤ m
  adv : ∀ c, w = some c → c ∈ s.opters
  live : ∀ c, Waits s w c → ∃ p, ordOf s c = passed s.tr c ++ [p] ∧ Live s P p ∧ s.child p = [c]
  done : ∀ c, ¬ Waits s w c → ordOf s c = passed s.tr c
  sole : ∀ i, s.child i = [] ∨ ∃ c, s.child i = [c]
  owner : ∀ i c, s.child i = [c] ↔ i ∈ (ordOf s c).tail
  asks : ∀ i c, Live s P i → s.child i = [c] → Waits s w c ∧ (ordOf s c).getLast? = some i
  bound : ∀ c i, i ∈ ordOf s c → i < s.rows.length
  incr : ∀ c, (ordOf s c).Pairwise (· < ·)
  heads : ∀ c i, (ordOf s c).head? = some i → ∃ r, s.rows[i]? = some r ∧ r.started = true
  nact1 : ∀ (i : Nat) (r : ARow α), s.rows[i]? = some r → r.started = false → ∀ c ∈ s.opters, i ∈ (ordOf s c).tail → r.nact = 1
  nact0 : ∀ (i : Nat) (r : ARow α), s.rows[i]? = some r → r.started = false → (∀ c ∈ s.opters, i ∉ (ordOf s c).tail) → r.nact = 0
  first : ∀ c, c < s.order.length → ordOf s c ≠ []
  calls : ∀ c, s.calls c = (passed s.tr c).length
  points : ∀ (c k i : Nat), (ordOf s c)[k + 1]? = some i → ∃ r, s.rows[i]? = some r ∧ cf.ans c k = .point r.x ∧ r.isLocal = true
  concl : ∀ c ∈ s.endedRuns, ∃ x flag, cf.ans c (s.calls c - 1) = .conv x flag
  mins : ∀ (i : Nat) (r : ARow α), s.rows[i]? = some r → r.lmin = true → (∃ r0, H[i]? = some r0 ∧ r0.lmin = true) ∨
    ∃ c ∈ s.endedRuns, i ∈ ordOf s c ∧ ∃ x, cf.ans c (s.calls c - 1) = .conv x true

/-- A row without a run. -/
theorem Book.skip {cf : Cfg α} {H : List (ARow α)} {s : St α} {i : Nat} {P : List Nat} (h : Book cf H s (i :: P) none) (hc : s.child i = []) :
    Book cf H s P none := by
  refine { h with live := ?_, asks := ?_ }
  · intro c hw
    obtain ⟨p, h1, h2, h3⟩ := h.live c hw
    refine ⟨p, h1, ?_, h3⟩
    rcases h2 with h2 | h2
    · exact .inl h2
    · rcases List.mem_cons.mp h2 with rfl | h2
      · rw [hc] at h3; cases h3
      · exact .inr h2
  · intro j c hl hj
    refine h.asks j c ?_ hj
    rcases hl with hl | hl
    · exact .inl hl
    · exact .inr (List.mem_cons_of_mem _ hl)

/-- The value of row `i` is passed to its run. -/
theorem Book.ask {cf : Cfg α} {H : List (ARow α)} {s : St α} {i c : Nat} {P : List Nat} (h : Book cf H s (i :: P) none) (hc : s.child i = [c])
    (hP : i ∉ P) (he : ∀ r, s.rows[i]? = some r → r.ended = true) :
    c ∈ s.opters ∧ Book cf H (ask cf s c i).2 P (some c) := by
  obtain ⟨hw, hlast⟩ := h.asks i c (.inr List.mem_cons_self) hc
  obtain ⟨p, hp, _, _⟩ := h.live c hw
  have hpi : p = i := by rw [hp] at hlast; simpa using hlast
  subst hpi
  have pa : ∀ d, passed (Ev.iter c p :: s.tr) d = if c = d then passed s.tr d ++ [p] else passed s.tr d := fun d => rfl
  refine ⟨hw.1, { h with adv := ?_, live := ?_, done := ?_, asks := ?_, calls := ?_, concl := ?_, mins := ?_ }⟩
  · intro d hd; cases hd; exact hw.1
  · rintro d ⟨hd1, hd2⟩
    have hne : c ≠ d := fun e => hd2 (by rw [e])
    obtain ⟨q, h1, h2, h3⟩ := h.live d ⟨hd1, by simp⟩
    refine ⟨q, ?_, ?_, h3⟩
    · show ordOf s d = passed (Ev.iter c p :: s.tr) d ++ [q]
      rw [pa, if_neg hne]; exact h1
    · rcases h2 with h2 | h2
      · exact .inl h2
      · rcases List.mem_cons.mp h2 with rfl | h2
        · have : s.child q = [d] := h3
          rw [hc] at this; cases this; exact absurd rfl hne
        · exact .inr h2
  · intro d hd
    show ordOf s d = passed (Ev.iter c p :: s.tr) d
    rw [pa]
    split
    · rename_i e; subst e; exact hp
    · rename_i e
      refine h.done d fun hw' => hd ⟨hw'.1, fun e' => e ?_⟩
      cases e'; rfl
  · intro j d hl hj
    have hl' : Live s (p :: P) j := by
      rcases hl with hl | hl
      · exact .inl hl
      · exact .inr (List.mem_cons_of_mem _ hl)
    obtain ⟨⟨h1, _⟩, h2⟩ := h.asks j d hl' hj
    refine ⟨⟨h1, fun e => ?_⟩, h2⟩
    cases e
    have hjp : j = p := by
      have : (ordOf s c).getLast? = some j := h2
      rw [hlast] at this; cases this; rfl
    subst hjp
    rcases hl with ⟨r, hr, hre⟩ | hl
    · have := he r hr
      rw [hre] at this; cases this
    · exact hP hl
  · intro d
    show (if d = c then s.calls d + 1 else s.calls d) = (passed (Ev.iter c p :: s.tr) d).length
    rw [pa]
    by_cases e : d = c
    · subst e; simp [h.calls]
    · have e' : ¬ c = d := fun x => e x.symm
      simp [e, e', h.calls]
  · intro d hd
    have hne : d ≠ c := fun e => ((h.endd d).mp hd).2 (by rw [e]; exact hw.1)
    show ∃ x flag, cf.ans d ((if d = c then s.calls d + 1 else s.calls d) - 1) = .conv x flag
    rw [if_neg hne]; exact h.concl d hd
  · intro j r hr hm
    rcases h.mins j r hr hm with h1 | ⟨d, hd, h2, x, h3⟩
    · exact .inl h1
    · have hne : d ≠ c := fun e => ((h.endd d).mp hd).2 (by rw [e]; exact hw.1)
      refine .inr ⟨d, hd, h2, x, ?_⟩
      show cf.ans d ((if d = c then s.calls d + 1 else s.calls d) - 1) = .conv x true
      rw [if_neg hne]; exact h3

theorem ordOf_addPoint (s : St α) (c : Nat) (x : α) (d : Nat) (hc : c < s.order.length) :
    ordOf (addPoint s c x) d = if d = c then ordOf s c ++ [s.rows.length] else ordOf s d := by
  simp only [ordOf, addPoint, List.getElem?_modify]
  by_cases e : d = c
  · subst e; simp [List.getElem?_eq_getElem hc]
  · have : ¬ c = d := fun e' => e e'.symm
    cases s.order[d]? <;> simp [e, this]

/-- The run that has been asked answers a point. -/
theorem Book.addPoint {cf : Cfg α} {H : List (ARow α)} {s : St α} {c : Nat} {P : List Nat} {x : α} (h : Book cf H s P (some c))
    (hP : ∀ i ∈ P, i < s.rows.length) (ha : cf.ans c (s.calls c - 1) = .point x) (hp : 0 < s.calls c) :
    Book cf H (addPoint s c x) P none := by
  have hcop := h.adv c rfl
  have hcl := h.lt c hcop
  have ord := fun d => ordOf_addPoint s c x d hcl
  have hdone := h.done c (fun hw => hw.2 rfl)
  have hne := h.first c hcl
  have hnew : s.child s.rows.length = [] := by
    rcases h.sole s.rows.length with e | ⟨d, e⟩
    · exact e
    · exact absurd (h.bound d _ (List.mem_of_mem_tail ((h.owner _ d).mp e))) (by omega)
  have child : ∀ j, (Aposmm.addPoint s c x).child j = if j = s.rows.length then [c] else s.child j := by
    intro j
    show (if j = s.rows.length then s.child j ++ [c] else s.child j) = _
    split
    · rename_i e; rw [e, hnew]; rfl
    · rfl
  have rget : ∀ j, (Aposmm.addPoint s c x).rows[j]? = if j = s.rows.length then
      some { x := x, isLocal := true, nact := 1, sid := s.rows.length } else s.rows[j]? := by
    intro j; exact addRow_get s.rows x true j
  have hlen : (Aposmm.addPoint s c x).rows.length = s.rows.length + 1 := by simp [Aposmm.addPoint, addRow]
  have rold : ∀ (j : Nat) (r : ARow α), s.rows[j]? = some r → (Aposmm.addPoint s c x).rows[j]? = some r := by
    intro j r hr
    rw [rget, if_neg (by have := (List.getElem?_eq_some_iff.mp hr).1; omega)]; exact hr
  have tl : ∀ d j, j ∈ (ordOf (Aposmm.addPoint s c x) d).tail ↔ (d = c ∧ j = s.rows.length) ∨ j ∈ (ordOf s d).tail := by
    intro d j
    rw [ord]
    by_cases e : d = c
    · subst e
      rw [if_pos rfl, List.tail_append_of_ne_nil hne]
      simp only [List.mem_append, List.mem_singleton]
      constructor
      · rintro (h | h)
        · exact .inr h
        · exact .inl ⟨by trivial, h⟩
      · rintro (⟨_, h⟩ | h)
        · exact .inr h
        · exact .inl h
    · rw [if_neg e]; simp [e]
  have liven : ∀ j, Live (Aposmm.addPoint s c x) P j ↔ j = s.rows.length ∨ Live s P j := by
    intro j
    unfold Live
    rw [rget]
    by_cases e : j = s.rows.length
    · rw [if_pos e]
      constructor
      · intro _; exact .inl e
      · intro _; exact .inl ⟨_, rfl, rfl⟩
    · rw [if_neg e]
      constructor
      · intro h; exact .inr h
      · rintro (h | h)
        · exact absurd h e
        · exact h
  have nolive : ¬ Live s P s.rows.length := by
    rintro (⟨r, hr, _⟩ | hm)
    · simp at hr
    · have := hP _ hm; omega
  refine ⟨?_, h.nodup, ?_, h.enodup, h.lim, ?_, ?_, ?_, ?_, ?_, ?_, ?_, ?_, ?_, ?_, ?_, ?_, h.calls, ?_, h.concl, ?_⟩
  · intro d hd
    show d < (s.order.modify c _).length
    rw [List.length_modify]; exact h.lt d hd
  · intro d
    show d ∈ s.endedRuns ↔ d < (s.order.modify c _).length ∧ d ∉ s.opters
    rw [List.length_modify]; exact h.endd d
  · intro d hd; cases hd
  · rintro d ⟨hd, _⟩
    by_cases e : d = c
    · subst e
      refine ⟨s.rows.length, ?_, (liven _).mpr (.inl rfl), by rw [child, if_pos rfl]⟩
      rw [ord, if_pos rfl, hdone]; rfl
    · obtain ⟨p, h1, h2, h3⟩ := h.live d ⟨hd, fun e' => e (by cases e'; rfl)⟩
      refine ⟨p, ?_, (liven _).mpr (.inr h2), ?_⟩
      · rw [ord, if_neg e]; exact h1
      · rw [child, if_neg]
        · exact h3
        · intro e'; rw [e'] at h2; exact nolive h2
  · intro d hd
    have hd' : d ∉ s.opters := fun hm => hd ⟨hm, by simp⟩
    rw [ord, if_neg (fun e => hd' (by rw [e]; exact hcop))]
    exact h.done d fun hw => hd' hw.1
  · intro j
    rw [child]
    split
    · exact .inr ⟨c, rfl⟩
    · exact h.sole j
  · intro j d
    rw [child, tl]
    by_cases e : j = s.rows.length
    · rw [if_pos e]
      constructor
      · intro e'; cases e'; exact .inl ⟨rfl, e⟩
      · rintro (⟨rfl, _⟩ | hm)
        · rfl
        · exact absurd (h.bound d j (List.mem_of_mem_tail hm)) (by omega)
    · rw [if_neg e, h.owner]; simp [e]
  · intro j d hl hj
    rw [child] at hj
    by_cases e : j = s.rows.length
    · rw [if_pos e] at hj; cases hj
      refine ⟨⟨hcop, by simp⟩, ?_⟩
      rw [ord, if_pos rfl, e]; simp
    · rw [if_neg e] at hj
      obtain ⟨⟨h1, h2⟩, h3⟩ := h.asks j d (((liven j).mp hl).resolve_left e) hj
      refine ⟨⟨h1, by simp⟩, ?_⟩
      rw [ord, if_neg (fun e' => h2 (by rw [e']))]; exact h3
  · intro d j hj
    rw [hlen]
    rw [ord] at hj
    split at hj
    · rcases List.mem_append.mp hj with hj | hj
      · have := h.bound c j hj; omega
      · simp at hj; omega
    · have := h.bound d j hj; omega
  · intro d
    rw [ord]
    split
    · rw [List.pairwise_append]
      refine ⟨h.incr c, by simp, fun a ha b hb => ?_⟩
      rw [List.mem_singleton] at hb
      rw [hb]; exact h.bound c a ha
    · exact h.incr d
  · intro d j hj
    rw [ord] at hj
    have : (ordOf s d).head? = some j := by
      split at hj
      · rename_i e; subst e
        obtain ⟨a, l, hl⟩ := List.exists_cons_of_ne_nil hne
        rw [hl] at hj ⊢; exact hj
      · exact hj
    obtain ⟨r, h1, h2⟩ := h.heads d j this
    exact ⟨r, rold j r h1, h2⟩
  · intro j r hr hs d hd hj
    rw [rget] at hr
    split at hr
    · cases hr; rfl
    · rename_i e
      exact h.nact1 j r hr hs d hd (((tl d j).mp hj).resolve_left fun h' => e h'.2)
  · intro j r hr hs hno
    rw [rget] at hr
    split at hr
    · rename_i e
      exact absurd ((tl c j).mpr (.inl ⟨rfl, e⟩)) (hno c hcop)
    · exact h.nact0 j r hr hs fun d hd hm => hno d hd ((tl d j).mpr (.inr hm))
  · intro d hd
    rw [ord]
    split
    · simp
    · refine h.first d ?_
      have : d < (s.order.modify c _).length := hd
      rwa [List.length_modify] at this
  · intro d k j hj
    rw [ord] at hj
    split at hj
    · rename_i e; subst e
      rw [List.getElem?_append] at hj
      split at hj
      · obtain ⟨r, h1, h2⟩ := h.points d k j hj
        exact ⟨r, rold j r h1, h2⟩
      · rename_i hl
        have hk : k + 1 - (ordOf s d).length = 0 ∧ s.rows.length = j := by
          cases hq : k + 1 - (ordOf s d).length with
          | zero => rw [hq] at hj; simp at hj; exact ⟨rfl, hj⟩
          | succ q => rw [hq] at hj; simp at hj
        have hk2 : k = s.calls d - 1 := by
          have := h.calls d
          rw [hdone] at hk hl
          omega
        refine ⟨{ x := x, isLocal := true, nact := 1, sid := s.rows.length }, by rw [rget, if_pos hk.2.symm], ?_, rfl⟩
        rw [hk2]; exact ha
    · obtain ⟨r, h1, h2⟩ := h.points d k j hj
      exact ⟨r, rold j r h1, h2⟩
  · intro j r hr hm
    rw [rget] at hr
    split at hr
    · cases hr; cases hm
    · rcases h.mins j r hr hm with h1 | ⟨d, hd, h2, h3⟩
      · exact .inl h1
      · refine .inr ⟨d, hd, ?_, h3⟩
        rw [ord, if_neg]
        · exact h2
        · intro e; exact ((h.endd d).mp hd).2 (by rw [e]; exact hcop)

/-! ### The end of a run -/

theorem foldl_max_ge (l : List Nat) (m : Nat) : m ≤ l.foldl max m ∧ ∀ i ∈ l, i ≤ l.foldl max m := by
  induction l generalizing m with
  | nil => simp
  | cons a l ih =>
    rw [List.foldl_cons]
    obtain ⟨h1, h2⟩ := ih (max m a)
    refine ⟨by omega, fun i hi => ?_⟩
    rcases List.mem_cons.mp hi with rfl | hi
    · omega
    · exact h2 i hi

theorem mem_uniq {l : List Nat} {i : Nat} : i ∈ uniq l ↔ i ∈ l := by
  simp only [uniq, List.mem_filter, List.mem_range, decide_eq_true_eq]
  constructor
  · exact fun h => h.2
  · intro h; exact ⟨by have := (foldl_max_ge l 0).2 i h; omega, h⟩

/-- The row found for the minimum: a row of the run, none closer. -/
theorem closestTo_spec (cf : Cfg α) (rows : List (ARow α)) (x : α) (run : List Nat) (hne : run ≠ []) (hb : ∀ i ∈ run, i < rows.length) :
    ∃ o r, closestTo cf rows x run = some o ∧ o ∈ run ∧ rows[o]? = some r ∧
      ∀ i ∈ run, ∀ q, rows[i]? = some q → cf.geo.dist r.x x ≤ cf.geo.dist q.x x := by
  have mem : ∀ i ∈ run, ∀ q, rows[i]? = some q →
      (i, cf.geo.dist q.x x) ∈ (uniq run).filterMap fun i => (rows[i]?).map fun r => (i, cf.geo.dist r.x x) := by
    intro i hi q hq
    exact List.mem_filterMap.mpr ⟨i, mem_uniq.mpr hi, by simp [hq]⟩
  obtain ⟨i0, l, hl⟩ := List.exists_cons_of_ne_nil hne
  have h0 : i0 ∈ run := by rw [hl]; exact List.mem_cons_self
  obtain ⟨a, ha, _⟩ := nearest_le (mem i0 h0 _ (List.getElem?_eq_getElem (hb i0 h0)))
  obtain ⟨o, ho, hoa⟩ := List.mem_filterMap.mp (nearest_mem ha)
  obtain ⟨r, hr, he⟩ := Option.map_eq_some_iff.mp hoa
  refine ⟨o, r, by rw [closestTo, ha, ← he]; rfl, mem_uniq.mp ho, hr, fun i hi q hq => ?_⟩
  obtain ⟨b, hb1, hb2⟩ := nearest_le (mem i hi q hq)
  rw [ha] at hb1; cases hb1
  rw [← he] at hb2; exact hb2

/-- The rows after the end of a run. -/
theorem optimal_spec (cf : Cfg α) (rows : List (ARow α)) (x : α) (flag : Bool) (run : List Nat) (hne : run ≠ []) (hb : ∀ i ∈ run, i < rows.length) :
    ∃ o r rows', optimal cf rows x flag run = some (o, rows') ∧ o ∈ run ∧ rows[o]? = some r ∧
      (∀ i ∈ run, ∀ q, rows[i]? = some q → cf.geo.dist r.x x ≤ cf.geo.dist q.x x) ∧ rows'.length = rows.length ∧
      (∀ (i : Nat) (q : ARow α), rows'[i]? = some q → ∃ p, rows[i]? = some p ∧ Core p q ∧ q.started = p.started ∧ q.paused = p.paused ∧
        q.nact = (if i ∈ run then p.nact - 1 else p.nact) ∧ (q.lmin = true → p.lmin = true ∨ (flag = true ∧ i ∈ run)) ∧
        (p.lmin = true → q.lmin = true) ∧ (flag = true → i = o → q.lmin = true)) := by
  obtain ⟨o, r, h1, h2, h3, h4⟩ := closestTo_spec cf rows x run hne hb
  refine ⟨o, r, _, by rw [optimal, h1], h2, h3, h4, by simp, ?_⟩
  intro i q hq
  simp only [List.getElem?_mapIdx, Option.map_map, Option.map_eq_some_iff, Function.comp] at hq
  obtain ⟨p, hp, rfl⟩ := hq
  refine ⟨p, hp, ?_⟩
  by_cases c : (flag && (decide (i = o) || (decide (i ∈ run) && FVal.lt p.f (valueAt rows o) && decide (cf.geo.dist p.x x < cf.tol)))) = true
  · have hfl : flag = true ∧ i ∈ run := by
      simp only [Bool.and_eq_true, Bool.or_eq_true, decide_eq_true_eq] at c
      refine ⟨c.1, ?_⟩
      rcases c.2 with e | e
      · rw [e]; exact h2
      · exact e.1.1
    simp only [c, if_true]
    simp only [hfl.2, if_true]
    exact ⟨⟨rfl, rfl, rfl, rfl, rfl, rfl, rfl, rfl, rfl, rfl, rfl⟩, (by trivial), (by trivial), (by trivial), fun _ => .inr ⟨hfl.1, trivial⟩, fun _ => (by trivial), fun _ _ => (by trivial)⟩
  · have hno : flag = true → i ≠ o := by
      intro hf e
      apply c; simp [hf, e]
    rw [if_neg c]
    by_cases hi : i ∈ run
    · simp only [hi, if_true]
      exact ⟨⟨rfl, rfl, rfl, rfl, rfl, rfl, rfl, rfl, rfl, rfl, rfl⟩, (by trivial), (by trivial), (by trivial), fun e => .inl e, fun e => e, fun hf e => absurd e (hno hf)⟩
    · simp only [hi, if_false]
      exact ⟨Core.refl _, (by trivial), (by trivial), (by trivial), fun e => .inl e, fun e => e, fun hf e => absurd e (hno hf)⟩

/-- The state after the end of run `c`. -/
def endRun (s : St α) (c : Nat) (rows : List (ARow α)) : St α :=
  { s with rows := rows, opters := s.opters.erase c, endedRuns := s.endedRuns ++ [c], tr := .conv c :: s.tr }

theorem Book.endRun {cf : Cfg α} {H : List (ARow α)} {s : St α} {c : Nat} {P : List Nat} {x : α} {flag : Bool} {o : Nat} {rows' : List (ARow α)}
    (h : Book cf H s P (some c)) (ha : cf.ans c (s.calls c - 1) = .conv x flag) (ho : optimal cf s.rows x flag (ordOf s c) = some (o, rows')) :
    Book cf H (endRun s c rows') P none := by
  have hcop := h.adv c rfl
  have hcl := h.lt c hcop
  obtain ⟨o2, r2, rows2, e2, hor, _, _, hlen, hrow⟩ := optimal_spec cf s.rows x flag (ordOf s c) (h.first c hcl) (fun i hi => h.bound c i hi)
  rw [ho] at e2
  simp only [Option.some.injEq, Prod.mk.injEq] at e2
  obtain ⟨rfl, rfl⟩ := e2
  have back : ∀ (j : Nat) (p : ARow α), s.rows[j]? = some p → ∃ q, rows'[j]? = some q ∧ Core p q ∧ q.started = p.started := by
    intro j p hp
    have hl : j < rows'.length := by rw [hlen]; exact (List.getElem?_eq_some_iff.mp hp).1
    obtain ⟨p2, hp2, c2, s2, _⟩ := hrow j _ (List.getElem?_eq_getElem hl)
    rw [hp] at hp2; cases hp2
    exact ⟨_, List.getElem?_eq_getElem hl, c2, s2⟩
  have mem : ∀ d, d ∈ s.opters.erase c ↔ d ≠ c ∧ d ∈ s.opters := fun d => h.nodup.mem_erase_iff
  have livee : ∀ j, Live (Aposmm.endRun s c rows') P j ↔ Live s P j := by
    intro j
    unfold Live
    constructor
    · rintro (⟨r, hr, he⟩ | hm)
      · obtain ⟨p, hp, cc, _⟩ := hrow j r hr
        exact .inl ⟨p, hp, by rw [← cc.ended]; exact he⟩
      · exact .inr hm
    · rintro (⟨r, hr, he⟩ | hm)
      · obtain ⟨q, hq, cc, _⟩ := back j r hr
        exact .inl ⟨q, hq, by rw [cc.ended]; exact he⟩
      · exact .inr hm
  have wts : ∀ d, Waits (Aposmm.endRun s c rows') none d ↔ Waits s (some c) d := by
    intro d
    show (d ∈ s.opters.erase c ∧ none ≠ some d) ↔ (d ∈ s.opters ∧ some c ≠ some d)
    rw [mem]
    constructor
    · rintro ⟨⟨h1, h2⟩, _⟩; exact ⟨h2, fun e => h1 (by cases e; rfl)⟩
    · rintro ⟨h1, h2⟩; exact ⟨⟨fun e => h2 (by rw [e]), h1⟩, by simp⟩
  refine ⟨?_, h.nodup.erase c, ?_, ?_, ?_, ?_, ?_, ?_, h.sole, h.owner, ?_, ?_, h.incr, ?_, ?_, ?_, h.first, h.calls, ?_, ?_, ?_⟩
  · intro d hd; exact h.lt d ((mem d).mp hd).2
  · intro d
    show d ∈ s.endedRuns ++ [c] ↔ d < s.order.length ∧ d ∉ s.opters.erase c
    rw [List.mem_append, List.mem_singleton, h.endd, mem]
    constructor
    · rintro (⟨h1, h2⟩ | rfl)
      · exact ⟨h1, fun e => h2 e.2⟩
      · exact ⟨hcl, fun e => e.1 rfl⟩
    · rintro ⟨h1, h2⟩
      by_cases e : d = c
      · exact .inr e
      · exact .inl ⟨h1, fun h3 => h2 ⟨e, h3⟩⟩
  · show (s.endedRuns ++ [c]).Nodup
    rw [List.nodup_append]
    refine ⟨h.enodup, by simp, ?_⟩
    intro a ha' b hb
    rw [List.mem_singleton] at hb
    intro e; subst e; subst hb
    exact ((h.endd a).mp ha').2 hcop
  · intro m hm
    have h1 := h.lim m hm
    show (s.opters.erase c).length ≤ m
    have := List.length_erase_le (a := c) (l := s.opters)
    omega
  · intro d hd; cases hd
  · intro d hw
    obtain ⟨p, h1, h2, h3⟩ := h.live d ((wts d).mp hw)
    exact ⟨p, h1, (livee p).mpr h2, h3⟩
  · intro d hw
    exact h.done d fun hw' => hw ((wts d).mpr hw')
  · intro j d hl hj
    obtain ⟨h1, h2⟩ := h.asks j d ((livee j).mp hl) hj
    exact ⟨(wts d).mpr h1, h2⟩
  · intro d j hj
    show j < rows'.length
    rw [hlen]; exact h.bound d j hj
  · intro d j hj
    obtain ⟨r, h1, h2⟩ := h.heads d j hj
    obtain ⟨q, hq, _, e⟩ := back j r h1
    exact ⟨q, hq, by rw [e]; exact h2⟩
  · intro j q hq hs d hd hj
    obtain ⟨p, hp, _, es, _, en, _⟩ := hrow j q hq
    have hd' := (mem d).mp hd
    have hnin : j ∉ ordOf s c := by
      intro hm
      cases hol : ordOf s c with
      | nil => rw [hol] at hm; simp at hm
      | cons a l =>
        rw [hol] at hm
        rcases List.mem_cons.mp hm with rfl | hm
        · obtain ⟨r, hr, hst⟩ := h.heads c j (by rw [hol]; rfl)
          rw [hp] at hr; cases hr
          rw [es, hst] at hs; cases hs
        · have h1 : s.child j = [c] := (h.owner j c).mpr (by rw [hol]; exact hm)
          have h2 : s.child j = [d] := (h.owner j d).mpr hj
          rw [h1] at h2; cases h2; exact hd'.1 rfl
    rw [en, if_neg hnin]
    exact h.nact1 j p hp (by rw [← es]; exact hs) d hd'.2 hj
  · intro j q hq hs hno
    obtain ⟨p, hp, _, es, _, en, _⟩ := hrow j q hq
    have hs' : p.started = false := by rw [← es]; exact hs
    rw [en]
    split
    · rename_i hm
      have htl : j ∈ (ordOf s c).tail := by
        cases hol : ordOf s c with
        | nil => rw [hol] at hm; simp at hm
        | cons a l =>
          rw [hol] at hm
          rcases List.mem_cons.mp hm with rfl | hm
          · obtain ⟨r, hr, hst⟩ := h.heads c j (by rw [hol]; rfl)
            rw [hp] at hr; cases hr
            rw [hst] at hs'; cases hs'
          · exact hm
      have := h.nact1 j p hp hs' c hcop htl
      omega
    · rename_i hm
      refine h.nact0 j p hp hs' fun d hd hj => ?_
      by_cases e : d = c
      · subst e; exact hm (List.mem_of_mem_tail hj)
      · exact hno d ((mem d).mpr ⟨e, hd⟩) hj
  · intro d k j hj
    obtain ⟨r, h1, h2, h3⟩ := h.points d k j hj
    obtain ⟨q, hq, cc, _⟩ := back j r h1
    exact ⟨q, hq, by rw [cc.x]; exact h2, by rw [cc.loc]; exact h3⟩
  · intro d hd
    rcases List.mem_append.mp hd with hd | hd
    · exact h.concl d hd
    · rw [List.mem_singleton] at hd; subst hd; exact ⟨x, flag, ha⟩
  · intro j q hq hm
    obtain ⟨p, hp, _, _, _, _, el, _⟩ := hrow j q hq
    rcases el hm with h1 | ⟨h1, h2⟩
    · rcases h.mins j p hp h1 with h3 | ⟨d, hd, h4, h5⟩
      · exact .inl h3
      · exact .inr ⟨d, List.mem_append_left _ hd, h4, h5⟩
    · subst h1
      exact .inr ⟨c, List.mem_append_right _ (List.mem_singleton.mpr rfl), h2, x, ha⟩

end Verif.Aposmm
