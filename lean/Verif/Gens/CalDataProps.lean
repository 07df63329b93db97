import Verif.Gens.CalData
/-!
Property C104: each pair of a place and a parameter is sent once, and observations have a variance.
-/
namespace Verif.Gens.CalData
open Verif.Sampling.Uniform (Stream)

theorem load_eq {X T : Type} (ths : List T) : ∀ (xs : List X) (i : Nat) (a b : List (X × T)), a.length = i * ths.length → b.length = xs.length * ths.length →
    load ths 0 i xs (a ++ b) = some (a ++ xs.flatMap fun x => ths.map (x, ·)) := by
  intro xs
  induction xs with
  | nil =>
    intro i a b _ hb
    have : b = [] := List.eq_nil_of_length_eq_zero (by simpa using hb)
    simp [load, this]
  | cons x xs ih =>
    intro i a b ha hb
    rw [List.length_cons, Nat.succ_mul] at hb
    have hf : fill (a ++ b) ((i + 0) * ths.length) x ths = some ((a ++ ths.map (x, ·)) ++ b.drop ths.length) := by
      rw [Nat.add_zero, ← ha]
      unfold fill
      rw [if_pos (by rw [List.length_append]; omega)]
      simp [List.drop_append]
    simp only [load, hf]
    rw [ih (i + 1) _ _ (by simp [ha, Nat.succ_mul]) (by rw [List.length_drop]; omega)]
    simp

/-- The rows of a batch are the pairs of a place and a parameter, place by place. -/
theorem C104_batch {X T : Type} (z : X × T) (xs : List X) (ths : List T) :
    batch z xs ths = some (xs.flatMap fun x => ths.map (x, ·)) := by
  simpa [batch] using load_eq ths xs 0 [] (List.replicate (xs.length * ths.length) z) (by simp) (by simp)

theorem flat_get {X T : Type} (ths : List T) : ∀ (xs : List X) (i t : Nat) (x : X) (y : T), xs[i]? = some x → ths[t]? = some y →
    (xs.flatMap fun x => ths.map (x, ·))[i * ths.length + t]? = some (x, y) := by
  intro xs
  induction xs with
  | nil => intro i t x y h; simp at h
  | cons a xs ih =>
    intro i t x y hx hy
    have ht : t < ths.length := (List.getElem?_eq_some_iff.1 hy).1
    rw [List.flatMap_cons]
    cases i with
    | zero =>
      simp only [List.getElem?_cons_zero, Option.some.injEq] at hx
      subst hx
      rw [List.getElem?_append_left (by simp; omega)]
      simp [hy]
    | succ i =>
      rw [List.getElem?_cons_succ] at hx
      rw [List.getElem?_append_right (by simp [Nat.succ_mul]; omega), List.length_map,
        show (i + 1) * ths.length + t - ths.length = i * ths.length + t by rw [Nat.succ_mul]; omega]
      exact ih i t x y hx hy

/-- No exception; as many rows as pairs; the `t`-th parameter at the `i`-th place is in row `i k + t`; and if places and parameters are
different, so are the rows: each pair is sent once. -/
theorem C104_pairs {X T : Type} (z : X × T) (xs : List X) (ths : List T) : ∃ h, batch z xs ths = some h ∧ h.length = xs.length * ths.length ∧
    (∀ (i t : Nat) (x : X) (y : T), xs[i]? = some x → ths[t]? = some y → h[i * ths.length + t]? = some (x, y)) ∧
    (∀ x y, (x, y) ∈ h ↔ x ∈ xs ∧ y ∈ ths) ∧ (xs.Nodup → ths.Nodup → h.Nodup) := by
  refine ⟨_, C104_batch z xs ths, ?_, fun i t x y => flat_get ths xs i t x y, fun x y => ?_, fun hx hy => ?_⟩
  · induction xs with
    | nil => simp
    | cons a xs ih => rw [List.flatMap_cons, List.length_append, ih, List.length_map, List.length_cons, Nat.succ_mul, Nat.add_comm]
  · simp only [List.mem_flatMap, List.mem_map, Prod.mk.injEq]
    constructor
    · rintro ⟨a, ha, b, hb, rfl, rfl⟩
      exact ⟨ha, hb⟩
    · rintro ⟨ha, hb⟩
      exact ⟨x, ha, y, hb, rfl, rfl⟩
  · induction xs with
    | nil => simp
    | cons a xs ih =>
      rw [List.nodup_cons] at hx
      rw [List.flatMap_cons, List.nodup_append]
      refine ⟨?_, ih hx.2, ?_⟩
      · exact List.pairwise_map.2 (hy.imp fun hn e => hn (Prod.mk.inj e).2)
      · intro p hp q hq e
        subst e
        obtain ⟨y, _, rfl⟩ := List.mem_map.1 hp
        obtain ⟨b, hb, hq⟩ := List.mem_flatMap.1 hq
        obtain ⟨y', _, hq⟩ := List.mem_map.1 hq
        exact hx.1 ((Prod.mk.inj hq).1 ▸ hb)

example : batch (0, 'z') [1, 2] ['a', 'b', 'c'] = some [(1, 'a'), (1, 'b'), (1, 'c'), (2, 'a'), (2, 'b'), (2, 'c')] := by decide

theorem load_short {X T : Type} (ths : List T) (off : Nat) (hk : 2 ≤ ths.length) : ∀ (xs : List X) (i : Nat) (h : List (X × T)),
    xs ≠ [] → h.length < (i + off + xs.length) * ths.length → load ths off i xs h = none := by
  intro xs
  induction xs with
  | nil => intro i h hn; exact absurd rfl hn
  | cons x xs ih =>
    intro i h _ hl
    rw [List.length_cons] at hl
    simp only [load]
    by_cases hs : (i + off) * ths.length + ths.length ≤ h.length
    · have hf : ∃ h', fill h ((i + off) * ths.length) x ths = some h' ∧ h'.length = h.length := by
        refine ⟨_, by unfold fill; rw [if_pos hs], ?_⟩
        simp only [List.length_append, List.length_take, List.length_map, List.length_drop]
        omega
      obtain ⟨h', hf, hl'⟩ := hf
      simp only [hf]
      have hx : xs ≠ [] := by
        intro e
        subst e
        rw [List.length_nil, Nat.zero_add, Nat.succ_mul] at hl
        omega
      exact ih (i + 1) h' hx (by rw [hl', show i + 1 + off + xs.length = i + off + (xs.length + 1) by omega]; exact hl)
    · have hf : fill h ((i + off) * ths.length) x ths = none := by
        unfold fill
        rw [if_neg hs, if_neg (by omega)]
      simp only [hf]

/-- An array that is too short for the places after the offset is an exception, not a smaller batch, if there are several parameters. -/
theorem C104_short {X T : Type} (xs : List X) (ths : List T) (off : Nat) (h : List (X × T)) (hk : 2 ≤ ths.length) (hx : xs ≠ [])
    (hl : h.length < (off + xs.length) * ths.length) : load ths off 0 xs h = none :=
  load_short ths off hk xs 0 h hx (by rw [Nat.zero_add]; exact hl)

example : load ['a', 'b'] 1 0 [1] [(0, 'z'), (0, 'z')] = none := by decide
/-- With one parameter there is no exception, and the place is not sent. -/
example : load ['a'] 1 0 [1] [(0, 'z')] = some [(0, 'z')] := by decide

/-- The first batch has each place once, with the true parameter. -/
theorem C104_truth {X T : Type} (xs : List X) (t : T) : (truth xs t).length = xs.length ∧ ∀ (i : Nat) (x : X), xs[i]? = some x → (truth xs t)[i]? = some (x, t) := by
  refine ⟨by simp [truth], fun i x h => by simp [truth, h]⟩

/-- Whatever the shuffle, each priority below the number of points is given to exactly one point. -/
theorem C104_priority (sh : List Nat → List Nat) (hsh : ∀ l, (sh l).Perm l) (nx k : Nat) : (priorities sh nx k).length = nx * k ∧
    (priorities sh nx k).Nodup ∧ ∀ q, q ∈ priorities sh nx k ↔ q < nx * k := by
  have h := hsh (List.range (nx * k))
  refine ⟨by simpa [priorities] using h.length_eq, h.nodup_iff.2 List.nodup_range, fun q => by rw [priorities, h.mem_iff, List.mem_range]⟩

example : priorities List.reverse 2 2 = [3, 2, 1, 0] := by decide

/-- As many places as asked for, with three coordinates: two in the unit interval, the third exactly 0 or 1, and 1 if the number drawn is
above one half. -/
theorem C104_places (s : Stream) (p n : Nat) : (genXs s p n).length = n ∧ ∀ i < n, ∃ a b c, (genXs s p n)[i]? = some [a, b, c] ∧
    0 ≤ a ∧ a < s.D ∧ 0 ≤ b ∧ b < s.D ∧ (c = 0 ∨ c = s.D) ∧ (c = s.D ↔ s.D < 2 * s.u (p + i * 3 + 2)) ∧
    a = s.u (p + i * 3) ∧ b = s.u (p + i * 3 + 1) := by
  refine ⟨by simp [genXs], fun i hi => ?_⟩
  have hD : 0 < s.D := by have := s.low 0; have := s.high 0; omega
  refine ⟨s.u (p + i * 3), s.u (p + i * 3 + 1), if s.D < 2 * s.u (p + i * 3 + 2) then s.D else 0, by simp [genXs, hi], s.low _, s.high _, s.low _, s.high _, ?_, ?_, rfl, rfl⟩
  · split
    · exact .inr rfl
    · exact .inl rfl
  · split
    · simp_all
    · constructor
      · intro h; omega
      · intro h; contradiction

/-- For two places or more (or none) there is an observation of each value, with its own noise, and the variance is at least 5. -/
theorem C104_observe_partial (g : Nat → Int) (c : Int) (f : List Int) (h : f.length ≠ 1) : ∃ o : List Obs, observe g c f = some o ∧ o.length = f.length ∧
    ∀ (i : Nat) (y : Int), f[i]? = some y → ∃ v, o[i]? = some (Obs.mk y (g i) v) ∧ 5 ≤ v ∧ c * y ≤ v ∧ (v = 5 ∨ v = c * y) := by
  refine ⟨_, by unfold observe; rw [if_neg h], by simp, fun i y hy => ?_⟩
  refine ⟨max (c * y) 5, by simp [List.getElem?_zipIdx, hy], by omega, by omega, by omega⟩

example : observe (fun i => (i : Int) - 1) 2 [1, 4] = some [⟨1, -1, 5⟩, ⟨4, 0, 8⟩] := by decide

/-- Missing above: for one place the generator raises, whatever the value, after the evaluation of the true value. -/
theorem C104_one (g : Nat → Int) (c : Int) (y : Int) : observe g c [y] = none := rfl

end Verif.Gens.CalData
