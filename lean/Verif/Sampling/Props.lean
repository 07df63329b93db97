import Verif.Sampling.Model

/-!
# C88: samples are what they are called
-/

namespace Verif.Sampling

/-- Latin hypercube: in every dimension each of the `k` intervals of the same length holds exactly one of the `k` points. -/
theorem C88_strata (D : Int) (k : Nat) (u : Nat → Nat → Int) (perm : Nat → List Nat) (hu : ∀ t j, 0 ≤ u t j ∧ u t j < D)
    (hp : ∀ j, (perm j).Perm (List.range k)) (j t : Nat) (ht : t < k) :
    (lhsColumn D u perm j).length = k ∧
    ∃ (i : Nat) (s : Int), (lhsColumn D u perm j)[i]? = some s ∧ t * D ≤ s ∧ s < (t + 1) * D ∧
      ∀ (i' : Nat) (s' : Int), (lhsColumn D u perm j)[i']? = some s' → t * D ≤ s' → s' < (t + 1) * D → i' = i := by
  have hD : 0 < D := by have := hu 0 0; omega
  have hlen : (perm j).length = k := by rw [(hp j).length_eq, List.length_range]
  refine ⟨by rw [lhsColumn, List.length_map, hlen], ?_⟩
  obtain ⟨i, hi⟩ := List.mem_iff_getElem?.mp ((hp j).mem_iff.mpr (List.mem_range.mpr ht))
  have hut := hu t j
  refine ⟨i, randPt D u t j, by rw [lhsColumn, List.getElem?_map, hi]; rfl, ?_, ?_, ?_⟩
  · unfold randPt; omega
  · unfold randPt; rw [Int.add_mul]; omega
  · intro i' s' h1 h2 h3
    rw [lhsColumn, List.getElem?_map] at h1
    cases hi' : (perm j)[i']? with
    | none => rw [hi'] at h1; cases h1
    | some t' =>
      rw [hi'] at h1
      cases h1
      have hut' := hu t' j
      dsimp only [randPt] at h2 h3
      rw [Int.add_mul] at h3
      have e : t' = t := by
        rcases Nat.lt_trichotomy t' t with h | h | h
        · exfalso
          have h4 : ((t' : Int) + 1) * D ≤ t * D := Int.mul_le_mul_of_nonneg_right (by omega) (by omega)
          rw [Int.add_mul] at h4
          omega
        · exact h
        · exfalso
          have h4 : ((t : Int) + 1) * D ≤ t' * D := Int.mul_le_mul_of_nonneg_right (by omega) (by omega)
          rw [Int.add_mul] at h4
          omega
      subst e
      have hnd : (perm j).Nodup := (hp j).nodup_iff.mpr List.nodup_range
      have hlt : i < (perm j).length := by
        rcases Nat.lt_or_ge i (perm j).length with h | h
        · exact h
        · rw [List.getElem?_eq_none h] at hi; cases hi
      exact ((List.getElem?_inj hlt hnd).mp (hi.trans hi'.symm)).symm

/-- Every point of the sample is in the domain. -/
theorem C88_bounds (D : Int) (k : Nat) (u : Nat → Nat → Int) (perm : Nat → List Nat) (lb ub : Nat → Int) (hu : ∀ t j, 0 ≤ u t j ∧ u t j < D)
    (hp : ∀ j, (perm j).Perm (List.range k)) (j : Nat) (hb : lb j ≤ ub j) :
    (latinColumn D k u perm lb ub j).length = k ∧ ∀ x ∈ latinColumn D k u perm lb ub j, lb j * (k * D) ≤ x ∧ x ≤ ub j * (k * D) := by
  have hlen : (perm j).length = k := by rw [(hp j).length_eq, List.length_range]
  refine ⟨by simp [latinColumn, lhsColumn, hlen], ?_⟩
  intro x hx
  rw [latinColumn, List.mem_map] at hx
  obtain ⟨s, hs, rfl⟩ := hx
  rw [lhsColumn, List.mem_map] at hs
  obtain ⟨t, ht, rfl⟩ := hs
  have htk : t < k := List.mem_range.mp ((hp j).mem_iff.mp ht)
  have hut := hu t j
  have h0 : 0 ≤ randPt D u t j := by
    unfold randPt
    have : (0 : Int) ≤ t * D := Int.mul_nonneg (by omega) (by omega)
    omega
  have h1 : randPt D u t j ≤ k * D := by
    unfold randPt
    have : ((t : Int) + 1) * D ≤ k * D := Int.mul_le_mul_of_nonneg_right (by omega) (by omega)
    rw [Int.add_mul] at this
    omega
  have h2 : 0 ≤ randPt D u t j * (ub j - lb j) := Int.mul_nonneg h0 (by omega)
  have h3 : randPt D u t j * (ub j - lb j) ≤ (k * D) * (ub j - lb j) := Int.mul_le_mul_of_nonneg_right h1 (by omega)
  refine ⟨by omega, ?_⟩
  rw [Int.mul_sub (k * D), Int.mul_comm _ (ub j), Int.mul_comm (k * D) (lb j)] at h3
  omega

example : latinColumn 10 3 (fun t _ => t) (fun _ => [2, 0, 1]) (fun _ => -1) (fun _ => 2) 0 = [36, -30, 3] ∧
    [2, 0, 1].Perm (List.range 3) := by decide

/-! ### One component at a time -/

theorem components_get {X : Type} {m h : Nat} (hm : 0 < m) : ∀ (xs : List X) (n q c : Nat), c < m →
    ((xs.zipIdx n).flatMap fun p => (List.range m).map fun c => (⟨p.1, c, h / m + p.2⟩ : Row X))[q * m + c]? =
      (xs[q]?).map (fun x => ⟨x, c, h / m + (n + q)⟩)
  | [], _, _, _, _ => by simp
  | x :: xs, n, q, c, hc => by
    rw [List.zipIdx_cons, List.flatMap_cons]
    cases q with
    | zero =>
      rw [List.getElem?_append_left (by simpa using hc)]
      simp [hc]
    | succ q =>
      have e : (q + 1) * m + c = m + (q * m + c) := by rw [Nat.succ_mul]; omega
      rw [e, List.getElem?_append_right (by simp)]
      simp only [List.length_map, List.length_range, Nat.add_sub_cancel_left]
      rw [components_get hm xs (n + 1) q c hc, List.getElem?_cons_succ]
      have : n + 1 + q = n + (q + 1) := by omega
      rw [this]

theorem components_length {X : Type} (m h : Nat) : ∀ (xs : List X) (n : Nat),
    ((xs.zipIdx n).flatMap fun p => (List.range m).map fun c => (⟨p.1, c, h / m + p.2⟩ : Row X)).length = xs.length * m
  | [], _ => by simp
  | x :: xs, n => by
    rw [List.zipIdx_cons, List.flatMap_cons, List.length_append, components_length m h xs (n + 1), List.length_cons, Nat.succ_mul]
    simp
    omega

/-- Calls one after the other on the whole history, with `m` components: the points of all calls are numbered without gaps from `h / m`, and the q-th of them has one row
for each component, all with this point and its number. -/
theorem C88_components {X : Type} (m : Nat) (hm : 0 < m) : ∀ (batches : List (List X)) (h : Nat), ∃ rows, calls m h batches = some rows ∧
    rows.length = batches.flatten.length * m ∧
    ∀ q c, c < m → rows[q * m + c]? = (batches.flatten[q]?).map (fun x => ⟨x, c, h / m + q⟩)
  | [], h => ⟨[], rfl, by simp, by simp⟩
  | xs :: rest, h => by
    have hc : components m h xs = some (xs.zipIdx.flatMap fun p => (List.range m).map fun c => ⟨p.1, c, h / m + p.2⟩) := by
      unfold components
      rw [if_neg (by omega)]
    have hl := components_length m h xs 0
    obtain ⟨rows, h1, h2, h3⟩ := C88_components m hm rest
      (h + (xs.zipIdx.flatMap fun p => (List.range m).map fun c => (⟨p.1, c, h / m + p.2⟩ : Row X)).length)
    refine ⟨(xs.zipIdx.flatMap fun p => (List.range m).map fun c => ⟨p.1, c, h / m + p.2⟩) ++ rows, ?_, ?_, ?_⟩
    · rw [calls, hc]
      simp only [h1, Option.map_some]
    · rw [List.length_append, hl, h2, List.flatten_cons, List.length_append, Nat.add_mul]
    · intro q c hcm
      rw [List.flatten_cons]
      rcases Nat.lt_or_ge q xs.length with hq | hq
      · have hlt : q * m + c < xs.length * m := by
          have : (q + 1) * m ≤ xs.length * m := Nat.mul_le_mul_right m hq
          rw [Nat.succ_mul] at this
          omega
        rw [List.getElem?_append_left (by rw [hl]; exact hlt), List.getElem?_append_left hq, components_get hm xs 0 q c hcm, Nat.zero_add]
      · obtain ⟨d, rfl⟩ := Nat.exists_eq_add_of_le hq
        have e : (xs.length + d) * m + c = xs.length * m + (d * m + c) := by rw [Nat.add_mul]; omega
        rw [e, List.getElem?_append_right (by rw [hl]; omega), List.getElem?_append_right (by omega), hl]
        simp only [Nat.add_sub_cancel_left]
        rw [h3 d c hcm, hl, Nat.add_mul_div_right _ _ hm]
        congr 1
        funext x
        congr 1
        omega

/-- Consequently rows with the same number have the same point. -/
theorem C88_same_point {X : Type} (m : Nat) (hm : 0 < m) (batches : List (List X)) (h : Nat) (rows : List (Row X)) (hr : calls m h batches = some rows)
    (r r' : Row X) (h1 : r ∈ rows) (h2 : r' ∈ rows) (he : r.pt = r'.pt) : r.x = r'.x := by
  obtain ⟨rows', e, hl, hg⟩ := C88_components m hm batches h
  rw [hr] at e
  cases e
  have key : ∀ r ∈ rows, ∃ q x, batches.flatten[q]? = some x ∧ r.x = x ∧ r.pt = h / m + q := by
    intro r hr
    obtain ⟨i, hi⟩ := List.mem_iff_getElem?.mp hr
    have hdm := Nat.div_add_mod i m
    rw [Nat.mul_comm] at hdm
    have := hg (i / m) (i % m) (Nat.mod_lt _ hm)
    rw [hdm, hi] at this
    cases hx : batches.flatten[i / m]? with
    | none => rw [hx] at this; cases this
    | some x =>
      rw [hx] at this
      simp only [Option.map_some, Option.some.injEq] at this
      exact ⟨i / m, x, hx, by rw [this], by rw [this]⟩
  obtain ⟨q, x, hx, h3, h4⟩ := key r h1
  obtain ⟨q', x', hx', h5, h6⟩ := key r' h2
  have : q = q' := by omega
  subst this
  rw [hx] at hx'
  cases hx'
  rw [h3, h5]

example : calls 2 0 [["a", "b"], ["c"]] =
    some [⟨"a", 0, 0⟩, ⟨"a", 1, 0⟩, ⟨"b", 0, 1⟩, ⟨"b", 1, 1⟩, ⟨"c", 0, 2⟩, ⟨"c", 1, 2⟩] := by decide

/-- Two calls that are given the same rows of the history give two points one number: when two generators run at a time, or in every call if `gen_specs["in"]` has no
fields (then no rows are given). -/
theorem C88_same_number_witness : ∃ (r r' : Row String), (components 2 0 ["a"]).map (·[0]?) = some (some r) ∧ (components 2 0 ["b"]).map (·[0]?) = some (some r') ∧
    r.pt = r'.pt ∧ r.comp = r'.comp ∧ r.x ≠ r'.x := ⟨⟨"a", 0, 0⟩, ⟨"b", 0, 0⟩, by decide, by decide, rfl, rfl, by decide⟩

end Verif.Sampling
