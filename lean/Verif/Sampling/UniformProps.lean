import Verif.Sampling.Uniform
/-!
C100: uniform samples.
-/
namespace Verif.Sampling.Uniform

/-- A point of the domain, given by numerators over `D`: the lower bound belongs to it, the upper bound does not. -/
def Inside (D : Int) (d : Dom) (x : List Int) : Prop :=
  x.length = d.n ∧ ∀ (j : Nat) c, x[j]? = some c → d.lb j * D ≤ c ∧ c < d.ub j * D

/-- Each coordinate has a range. -/
def Proper (d : Dom) : Prop := ∀ j, j < d.n → d.lb j < d.ub j

theorem coord_inside {D lb ub u : Int} (h : lb < ub) (h0 : 0 ≤ u) (h1 : u < D) :
    lb * D ≤ lb * D + (ub - lb) * u ∧ lb * D + (ub - lb) * u < ub * D := by
  have h2 : 0 ≤ (ub - lb) * u := Int.mul_nonneg (by omega) h0
  have h3 : (ub - lb) * u < (ub - lb) * D := Int.mul_lt_mul_of_pos_left h1 (by omega)
  rw [Int.sub_mul] at h3
  rw [Int.sub_mul] at h2 ⊢
  rw [Int.sub_mul] at h3
  omega

theorem point_inside (s : Stream) (d : Dom) (hd : Proper d) (p : Nat) : Inside s.D d (point s d p) := by
  refine ⟨by simp [point], ?_⟩
  intro j c h
  by_cases hj : j < d.n
  · simp only [point, List.getElem?_map, List.getElem?_range hj, Option.map_some, Option.some.injEq] at h
    rw [← h]
    exact coord_inside (hd j hj) (s.low _) (s.high _)
  · simp [point, List.getElem?_eq_none (by simp; omega : (List.range d.n).length ≤ j)] at h

theorem points_inside (s : Stream) (d : Dom) (hd : Proper d) (p b : Nat) : ∀ x ∈ points s d p b, Inside s.D d x := by
  intro x hx
  simp only [points, List.mem_map] at hx
  obtain ⟨i, _, rfl⟩ := hx
  exact point_inside s d hd _

theorem points_add (s : Stream) (d : Dom) (p a b : Nat) : points s d p (a + b) = points s d p a ++ points s d (p + a * d.n) b := by
  unfold points
  rw [List.range_add, List.map_append, List.map_map]
  congr 1
  apply List.map_congr_left
  intro i _
  simp only [Function.comp]
  congr 1
  rw [Nat.add_mul, Nat.add_assoc]

/-- All points of all samples are in the domain, and there are as many as asked for. -/
theorem C100_inside (s : Stream) (d : Dom) (hd : Proper d) (b maxR h p : Nat) :
    ((sample s d b p).1.length = b ∧ ∀ r ∈ (sample s d b p).1, Inside s.D d r.x) ∧
    (∀ o, sampleRes s d b maxR p = some o → o.1.length = b ∧ ∀ r ∈ o.1, Inside s.D d r.x) ∧
    (∀ o, samplePri s d b maxR h p = some o → o.1.length = (if h = 0 then b else 1) ∧ ∀ r ∈ o.1, Inside s.D d r.x) ∧
    ((sampleCancel s d b p).1.length = b ∧ ∀ r ∈ (sampleCancel s d b p).1, Inside s.D d r.x) := by
  have hp := points_inside s d hd p b
  refine ⟨⟨by simp [sample, points], ?_⟩, ?_, ?_, ⟨by simp [sampleCancel, points], ?_⟩⟩
  · intro r hr
    simp only [sample, List.mem_map] at hr
    obtain ⟨x, hx, rfl⟩ := hr
    exact hp x hx
  · intro o ho
    unfold sampleRes at ho
    split at ho
    · exact nomatch ho
    · cases ho
      refine ⟨by simp [points], ?_⟩
      intro r hr
      simp only [List.mem_map] at hr
      obtain ⟨x, hx, rfl⟩ := hr
      exact hp x.1 (List.fst_mem_of_mem_zipIdx hx)
  · intro o ho
    unfold samplePri at ho
    split at ho
    · rename_i h0
      cases ho
      refine ⟨by simp [points, h0], ?_⟩
      intro r hr
      simp only [List.mem_map] at hr
      obtain ⟨x, hx, rfl⟩ := hr
      exact hp x hx
    · rename_i h0
      split at ho
      · exact nomatch ho
      · cases ho
        refine ⟨by simp [h0], ?_⟩
        intro r hr
        rw [List.mem_singleton.mp hr]
        exact point_inside s d hd p
  · intro r hr
    simp only [sampleCancel, List.mem_map] at hr
    obtain ⟨x, hx, rfl⟩ := hr
    exact hp x.1 (List.fst_mem_of_mem_zipIdx hx)

/-- The points of a run do not depend on the sizes of the batches. -/
theorem C100_batches (s : Stream) (d : Dom) (bs : List Nat) (p : Nat) : runs (sample s d) bs p = sample s d bs.sum p := by
  induction bs generalizing p with
  | nil => simp [runs, sample, points]
  | cons b bs ih =>
    simp only [runs, ih]
    simp only [sample, List.sum_cons]
    rw [points_add, List.map_append, Nat.add_mul, Nat.add_assoc]

/-- Each point asks for at least one resource set and for at most as many as there may be; the call raises exactly if there may be none. -/
theorem C100_resources (s : Stream) (d : Dom) (b maxR p : Nat) :
    (sampleRes s d b maxR p = none ↔ maxR = 0 ∧ b ≠ 0) ∧
    (∀ o, sampleRes s d b maxR p = some o → ∀ r ∈ o.1, 1 ≤ r.rsets ∧ r.rsets ≤ maxR) := by
  constructor
  · unfold sampleRes; split <;> simp_all
  · intro o ho r hr
    unfold sampleRes at ho
    split at ho
    · exact nomatch ho
    · rename_i hm
      cases ho
      simp only [List.mem_map] at hr
      obtain ⟨x, hx, rfl⟩ := hr
      have hb : b ≠ 0 := by
        rintro rfl
        simp [points] at hx
      have := s.among (p + b * d.n + x.2) maxR (by omega)
      dsimp only
      omega

/-- The first batch asks for one set each, with priority one; each later point for one to `maxR` sets, with ten times this number as priority.  So
every later point is preferred to every point of the first batch. -/
theorem C100_priorities (s : Stream) (d : Dom) (b maxR h p : Nat) (o : List Row × Nat) (ho : samplePri s d b maxR h p = some o) :
    (h = 0 → ∀ r ∈ o.1, r.rsets = 1 ∧ r.priority = 1) ∧
    (h ≠ 0 → ∃ r, o.1 = [r] ∧ 1 ≤ r.rsets ∧ r.rsets ≤ maxR ∧ r.priority = 10 * r.rsets ∧
      ∀ p' o', samplePri s d b maxR 0 p' = some o' → ∀ r' ∈ o'.1, r'.priority < r.priority) := by
  have first : ∀ p' o', samplePri s d b maxR 0 p' = some o' → ∀ r ∈ o'.1, r.rsets = 1 ∧ r.priority = 1 := by
    intro p' o' h r hr
    simp only [samplePri, if_true, Option.some.injEq] at h
    subst h
    simp only [List.mem_map] at hr
    obtain ⟨x, _, rfl⟩ := hr
    exact ⟨rfl, rfl⟩
  constructor
  · rintro rfl
    exact first p o ho
  · intro h0
    unfold samplePri at ho
    rw [if_neg h0] at ho
    split at ho
    · exact nomatch ho
    · rename_i hm
      cases ho
      have := s.among (p + d.n) maxR (by omega)
      refine ⟨_, rfl, by dsimp only; omega, by dsimp only; omega, rfl, ?_⟩
      intro p' o' h' r' hr'
      rw [(first p' o' h' r' hr').2]
      dsimp only
      omega

theorem count_ten (b : Nat) : ((List.range b).filter (fun i => i % 10 == 0)).length = (b + 9) / 10 := by
  induction b with
  | zero => rfl
  | succ b ih =>
    rw [List.range_succ, List.filter_append, List.length_append, ih]
    by_cases h : b % 10 = 0
    · simp [h]; omega
    · simp [h]; omega

/-- Every tenth point is cancelled, beginning with the first one. -/
theorem C100_cancel (s : Stream) (d : Dom) (b p : Nat) :
    (∀ (i : Nat) r, (sampleCancel s d b p).1[i]? = some r → (r.cancel = true ↔ 10 ∣ i)) ∧
    ((sampleCancel s d b p).1.filter (·.cancel)).length = (b + 9) / 10 ∧
    (sampleCancel s d b p).1.map (·.x) = (sample s d b p).1.map (·.x) := by
  refine ⟨?_, ?_, ?_⟩
  · intro i r h
    simp only [sampleCancel, List.getElem?_map, List.getElem?_zipIdx, Option.map_map, Option.map_eq_some_iff] at h
    obtain ⟨x, _, rfl⟩ := h
    simp only [Function.comp, Nat.zero_add, beq_iff_eq]
    omega
  · rw [← count_ten]
    simp only [sampleCancel, List.filter_map, List.length_map]
    have : ∀ (l : List (List Int)) (k : Nat),
        (List.filter (fun x : List Int × Nat => x.2 % 10 == 0) (l.zipIdx k)).length =
        (List.filter (fun i => i % 10 == 0) (List.range' k l.length)).length := by
      intro l
      induction l with
      | nil => intro k; rfl
      | cons a l ih =>
        intro k
        rw [List.zipIdx_cons, List.length_cons, List.range'_succ, List.filter_cons, List.filter_cons]
        dsimp only
        split <;> simp [ih]
    have h2 := this (points s d p b) 0
    have h3 : (points s d p b).length = b := by simp [points]
    rw [h3, ← List.range_eq_range'] at h2
    exact h2
  · simp only [sampleCancel, sample, List.map_map, Function.comp_def]
    rw [show (fun x : List Int × Nat => x.1) = Prod.fst from rfl]
    simp [List.zipIdx_map_fst]

/-- With batches of one point all points of a run are cancelled. -/
theorem C100_cancel_all (s : Stream) (d : Dom) (k p : Nat) :
    (runs (sampleCancel s d) (List.replicate k 1) p).1.length = k ∧
    ∀ r ∈ (runs (sampleCancel s d) (List.replicate k 1) p).1, r.cancel = true := by
  induction k generalizing p with
  | zero => simp [runs]
  | succ k ih =>
    obtain ⟨h1, h2⟩ := ih ((sampleCancel s d 1 p).2)
    rw [List.replicate_succ]
    simp only [runs, List.length_append, h1]
    refine ⟨by simp [sampleCancel, points]; omega, ?_⟩
    intro r hr
    rcases List.mem_append.mp hr with hr | hr
    · simp [sampleCancel, points, List.range_succ] at hr
      rw [hr]
    · exact h2 r hr

/-- The sample of `uniform_or_localopt` has the points of `uniform_random_sample`, though it draws them one by one. -/
theorem C100_local (s : Stream) (d : Dom) (b p : Nat) :
    (localLoop s d b p).1.map (·.x) = (sample s d b p).1.map (·.x) ∧ (localLoop s d b p).2 = (sample s d b p).2 ∧
    (localLoop s d b p).1.length = b := by
  have key : (localLoop s d b p).1.map (·.x) = points s d p b ∧ (localLoop s d b p).2 = p + b * d.n := by
    induction b generalizing p with
    | zero => simp [localLoop, points]
    | succ b ih =>
      obtain ⟨h1, h2⟩ := ih (p + d.n)
      simp only [localLoop, List.map_cons, h1, h2]
      refine ⟨?_, by rw [Nat.succ_mul]; omega⟩
      rw [Nat.add_comm b 1, points_add]
      simp [points, addToOut]
  refine ⟨?_, key.2, ?_⟩
  · rw [key.1]; simp [sample, Function.comp_def]
  · have := congrArg List.length key.1
    simpa [points] using this

/-- Its rows: each point with its place in the unit cube, which is in [0, 1) and is the point scaled; distances are infinite, and no better point
is known; no row is marked as part of a run. -/
theorem C100_local_rows (s : Stream) (d : Dom) (hd : Proper d) (b p : Nat) :
    ∀ r ∈ (localLoop s d b p).1, Inside s.D d r.x ∧ r.dist = none ∧ r.better = -1 ∧ r.localPt = false ∧ r.active = 0 ∧
      r.cube.length = d.n ∧
      ∀ (j : Nat) c, r.x[j]? = some c → ∃ a q, r.cube[j]? = some (some (a, q)) ∧ 0 ≤ a ∧ a < q ∧ d.lb j * s.D + a = c ∧ q = (d.ub j - d.lb j) * s.D := by
  induction b generalizing p with
  | zero => simp [localLoop]
  | succ b ih =>
    intro r hr
    simp only [localLoop] at hr
    rcases List.mem_cons.mp hr with rfl | hr
    · have hi := point_inside s d hd p
      refine ⟨hi, rfl, rfl, rfl, rfl, by simp [addToOut, point], ?_⟩
      intro j c hc
      obtain ⟨h1, h2⟩ := hi.2 j c hc
      have hj : j < d.n := by
        have h := (List.getElem?_eq_some_iff.mp hc).1
        have e : (addToOut s.D d (point s d p) false false).x.length = d.n := hi.1
        omega
      have hne := hd j hj
      refine ⟨c - d.lb j * s.D, (d.ub j - d.lb j) * s.D, ?_, by omega, ?_, by omega, rfl⟩
      · have hc' : (point s d p)[j]? = some c := hc
        simp only [addToOut, List.getElem?_map, List.getElem?_zipIdx, hc', Option.map_some, Nat.zero_add]
        unfold onCube
        rw [if_neg (by omega)]
      · rw [Int.sub_mul]; omega
    · exact ih (p + d.n) r hr

/-- A row that a local optimization run sends: the same with the marks of a run. -/
theorem addToOut_marks (D : Int) (d : Dom) (x : List Int) (l a : Bool) :
    (addToOut D d x l a).x = x ∧ (addToOut D d x l a).localPt = l ∧ (addToOut D d x l a).active = (if a then 1 else 0) ∧
    (addToOut D d x l a).dist = none ∧ (addToOut D d x l a).better = -1 ∧
    (addToOut D d x l a).cube = (addToOut D d x false false).cube := ⟨rfl, rfl, rfl, rfl, rfl, rfl⟩

/-- A coordinate that is fixed by its bounds has no place in the unit cube. -/
theorem C100_local_fixed (s : Stream) (d : Dom) (p j : Nat) (hj : j < d.n) (h : d.ub j = d.lb j) :
    (addToOut s.D d (point s d p) false false).cube[j]? = some none := by
  have hc : (point s d p)[j]? = some (d.lb j * s.D + (d.ub j - d.lb j) * s.u (p + j)) := by
    simp [point, hj]
  simp only [addToOut, List.getElem?_map, List.getElem?_zipIdx, hc, Option.map_some, Nat.zero_add]
  simp [onCube, h]

/-- A stream for examples. -/
def stream : Stream where
  D := 7
  u p := (p * 3 % 7 : Nat)
  pick p m := p % m
  low p := by omega
  high p := by omega
  among p m h := Nat.mod_lt p h

def box : Dom := ⟨2, fun _ => -1, fun _ => 1⟩

example : Proper box ∧ (sample stream box 2 0).1.map (·.x) = [[-7, -1], [5, -3]] ∧ (runs (sample stream box) [1, 1] 0).1.map (·.x) = [[-7, -1], [5, -3]] ∧
    ((samplePri stream box 2 3 5 0).map (fun o => o.1.map (fun r => (r.rsets, r.priority)))) = some [(3, 30)] ∧
    ((sampleRes stream box 3 2 0).map (fun o => o.1.map (·.rsets))) = some [1, 2, 1] :=
  ⟨fun _ _ => by simp [box], by decide, by decide, by decide, by decide⟩

end Verif.Sampling.Uniform
