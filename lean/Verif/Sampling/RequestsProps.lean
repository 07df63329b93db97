import Verif.Sampling.Requests
import Verif.Sampling.UniformProps
/-!
C101: requests for resources.
-/
namespace Verif.Sampling.Uniform

theorem integers_some {s : Stream} {m b p : Nat} {l : List Nat} (h : integers s m b p = some l) :
    l.length = b ∧ ∀ k ∈ l, 1 ≤ k ∧ k ≤ m := by
  unfold integers at h
  split at h
  · exact nomatch h
  · rename_i hm
    cases h
    refine ⟨by simp, ?_⟩
    intro k hk
    simp only [List.mem_map, List.mem_range] at hk
    obtain ⟨i, hi, rfl⟩ := hk
    have := s.among (p + i) m (by omega)
    omega

theorem mem_zipWith {α β γ : Type} (f : α → β → γ) (l : List α) (k : List β) (c : γ) (h : c ∈ List.zipWith f l k) :
    ∃ a ∈ l, ∃ b ∈ k, f a b = c := by
  induction l generalizing k with
  | nil => simp at h
  | cons a l ih =>
    cases k with
    | nil => simp at h
    | cons b k =>
      rw [List.zipWith_cons_cons] at h
      rcases List.mem_cons.mp h with rfl | h
      · exact ⟨a, by simp, b, by simp, rfl⟩
      · obtain ⟨a', ha, b', hb, e⟩ := ih k h
        exact ⟨a', by simp [ha], b', by simp [hb], e⟩

theorem points_length (s : Stream) (d : Dom) (p b : Nat) : (points s d p b).length = b := by simp [points]

/-- The sizes of the batches: the first is given, each other one is the length of the answer before it, or that of the batch before. -/
def sizes (b : Nat) : List (Option Nat) → List Nat
  | [] => [b]
  | a :: as => b :: sizes (a.getD b) as

/-- What all batches of a loop have, if every batch has it. -/
theorem rounds_all (batch : Nat → Nat → Option (List Req × Nat)) (P : Req → Prop)
    (h : ∀ b p o, batch b p = some o → o.1.length = b ∧ ∀ r ∈ o.1, P r) (b p : Nat) (as : List (Option Nat)) (out : List (List Req))
    (hr : rounds batch b p as = some out) : out.map List.length = sizes b as ∧ ∀ l ∈ out, ∀ r ∈ l, P r := by
  induction as generalizing b p out with
  | nil =>
    simp only [rounds, Option.map_eq_some_iff] at hr
    obtain ⟨o, ho, rfl⟩ := hr
    obtain ⟨h1, h2⟩ := h b p o ho
    exact ⟨by simp [sizes, h1], by simpa using h2⟩
  | cons a as ih =>
    simp only [rounds] at hr
    split at hr
    · exact nomatch hr
    · rename_i o ho
      simp only [Option.map_eq_some_iff] at hr
      obtain ⟨rest, hrest, rfl⟩ := hr
      obtain ⟨h1, h2⟩ := h b p o ho
      obtain ⟨h3, h4⟩ := ih (a.getD b) o.2 rest hrest
      refine ⟨by simp [sizes, h1, h3], ?_⟩
      intro l hl
      rcases List.mem_cons.mp hl with rfl | hl
      · exact h2
      · exact h4 l hl

theorem rsetsBatch_ok {s : Stream} {d : Dom} {m : Nat} (hd : Proper d) {b p : Nat} {o : List Req × Nat} (h : rsetsBatch s d m b p = some o) :
    o.1.length = b ∧ ∀ r ∈ o.1, Inside s.D d r.x ∧ 1 ≤ r.rsets ∧ r.rsets ≤ m := by
  simp only [rsetsBatch, Option.map_eq_some_iff] at h
  obtain ⟨l, hl, rfl⟩ := h
  obtain ⟨h1, h2⟩ := integers_some hl
  refine ⟨by simp [points_length, h1], ?_⟩
  intro r hr
  obtain ⟨x, hx, k, hk, rfl⟩ := mem_zipWith _ _ _ _ hr
  exact ⟨points_inside s d hd p b x hx, h2 k hk⟩

/-- `uniform_sample`: all points of a run are in the domain and ask for one to `m` resource sets; each batch replaces the points that came back. -/
theorem C101_rsets (s : Stream) (d : Dom) (hd : Proper d) (m b p : Nat) (as : List (Option Nat)) (out : List (List Req))
    (h : rounds (rsetsBatch s d m) b p as = some out) :
    out.map List.length = sizes b as ∧ ∀ l ∈ out, ∀ r ∈ l, Inside s.D d r.x ∧ 1 ≤ r.rsets ∧ r.rsets ≤ m :=
  rounds_all _ _ (fun _ _ _ => rsetsBatch_ok hd) b p as out h

theorem procsBatch_ok {s : Stream} {d : Dom} {m : Nat} (hd : Proper d) {b p : Nat} {o : List Req × Nat} (h : procsBatch s d m b p = some o) :
    o.1.length = b ∧ ∀ r ∈ o.1, Inside s.D d r.x ∧ 1 ≤ r.procs ∧ r.procs ≤ m ∧ r.gpus = r.procs := by
  simp only [procsBatch, Option.map_eq_some_iff] at h
  obtain ⟨l, hl, rfl⟩ := h
  obtain ⟨h1, h2⟩ := integers_some hl
  refine ⟨by simp [points_length, h1], ?_⟩
  intro r hr
  obtain ⟨x, hx, k, hk, rfl⟩ := mem_zipWith _ _ _ _ hr
  exact ⟨points_inside s d hd p b x hx, (h2 k hk).1, (h2 k hk).2, rfl⟩

/-- `uniform_sample_with_procs_gpus`: one to `m` processes, and one GPU for each. -/
theorem C101_procs (s : Stream) (d : Dom) (hd : Proper d) (m b p : Nat) (as : List (Option Nat)) (out : List (List Req))
    (h : rounds (procsBatch s d m) b p as = some out) :
    out.map List.length = sizes b as ∧ ∀ l ∈ out, ∀ r ∈ l, Inside s.D d r.x ∧ 1 ≤ r.procs ∧ r.procs ≤ m ∧ r.gpus = r.procs :=
  rounds_all _ _ (fun _ _ _ => procsBatch_ok hd) b p as out h

theorem diffBatch_ok {s : Stream} {d : Dom} {m : Nat} (hd : Proper d) {b p : Nat} {o : List Req × Nat} (h : diffBatch s d m b p = some o) :
    o.1.length = b ∧ ∀ r ∈ o.1, Inside s.D d r.x ∧ 1 ≤ r.procs ∧ r.procs ≤ m ∧ (r.gpus = if r.gpuApp then r.procs else 0) := by
  simp only [diffBatch, Option.map_eq_some_iff] at h
  obtain ⟨l, hl, rfl⟩ := h
  obtain ⟨h1, h2⟩ := integers_some hl
  refine ⟨by simp [points_length, h1], ?_⟩
  intro r hr
  obtain ⟨x, hx, k, hk, rfl⟩ := mem_zipWith _ _ _ _ hr
  exact ⟨points_inside s d hd p b x.1 (List.fst_mem_of_mem_zipIdx hx), (h2 k hk).1, (h2 k hk).2, rfl⟩

/-- `uniform_sample_diff_simulations`: one to `m` processes, and one GPU for each exactly if the program is the one that uses GPUs. -/
theorem C101_diff (s : Stream) (d : Dom) (hd : Proper d) (m b p : Nat) (as : List (Option Nat)) (out : List (List Req))
    (h : rounds (diffBatch s d m) b p as = some out) :
    out.map List.length = sizes b as ∧
    ∀ l ∈ out, ∀ r ∈ l, Inside s.D d r.x ∧ 1 ≤ r.procs ∧ r.procs ≤ m ∧ (r.gpus = if r.gpuApp then r.procs else 0) :=
  rounds_all _ _ (fun _ _ _ => diffBatch_ok hd) b p as out h

theorem prioBatch_ok {s : Stream} {d : Dom} {m : Nat} (hd : Proper d) {b p : Nat} {o : List Req × Nat} (h : prioBatch s d m b p = some o) :
    o.1.length = b ∧ ∀ r ∈ o.1, Inside s.D d r.x ∧ 1 ≤ r.rsets ∧ r.rsets ≤ m ∧ r.priority = 10 * r.rsets := by
  simp only [prioBatch, Option.map_eq_some_iff] at h
  obtain ⟨l, hl, rfl⟩ := h
  obtain ⟨h1, h2⟩ := integers_some hl
  refine ⟨by simp [points_length, h1], ?_⟩
  intro r hr
  obtain ⟨x, hx, k, hk, rfl⟩ := mem_zipWith _ _ _ _ hr
  exact ⟨points_inside s d hd p b x hx, (h2 k hk).1, (h2 k hk).2, rfl⟩

/-- `uniform_sample_with_var_priorities`: the first batch has one set and priority one, all others as many sets as they ask for and ten times
this priority. -/
theorem C101_priorities (s : Stream) (d : Dom) (hd : Proper d) (m b p : Nat) (as : List (Option Nat)) (out : List (List Req))
    (h : prioRounds s d m b p as = some out) :
    out.map List.length = sizes b as ∧ ∃ first rest, out = first :: rest ∧
      (∀ r ∈ first, Inside s.D d r.x ∧ r.rsets = 1 ∧ r.priority = 1) ∧
      ∀ l ∈ rest, ∀ r ∈ l, Inside s.D d r.x ∧ 1 ≤ r.rsets ∧ r.rsets ≤ m ∧ r.priority = 10 * r.rsets := by
  have hf : (firstBatch s d b p).1.length = b ∧ ∀ r ∈ (firstBatch s d b p).1, Inside s.D d r.x ∧ r.rsets = 1 ∧ r.priority = 1 := by
    refine ⟨by simp [firstBatch, points_length], ?_⟩
    intro r hr
    simp only [firstBatch, List.mem_map] at hr
    obtain ⟨x, hx, rfl⟩ := hr
    exact ⟨points_inside s d hd p b x hx, rfl, rfl⟩
  cases as with
  | nil =>
    simp only [prioRounds, Option.some.injEq] at h
    subst h
    exact ⟨by simp [sizes, hf.1], _, [], rfl, hf.2, by simp⟩
  | cons a as =>
    simp only [prioRounds, Option.map_eq_some_iff] at h
    obtain ⟨rest, hr, rfl⟩ := h
    obtain ⟨h1, h2⟩ := rounds_all _ _ (fun _ _ _ => prioBatch_ok hd) _ _ _ _ hr
    exact ⟨by simp [sizes, hf.1, h1], _, rest, rfl, hf.2, h2⟩

/-- The parts of the range: a point gets `k` GPUs exactly if it is in the k-th of `m` parts of equal length (the bounds are multiplied by
`m` here, to have integers). -/
theorem bucket_iff {D lb ub c : Int} {m k : Nat} (hD : 0 < D) (h : lb < ub) (h0 : lb * D ≤ c) :
    bucket D lb ub m c = k + 1 ↔ (k : Int) * ((ub - lb) * D) ≤ (c - lb * D) * m ∧ (c - lb * D) * m < (k + 1) * ((ub - lb) * D) := by
  have hw : 0 < (ub - lb) * D := Int.mul_pos (by omega) hD
  have hn : 0 ≤ (c - lb * D) * m := Int.mul_nonneg (by omega) (by omega)
  have hq : 0 ≤ (c - lb * D) * m / ((ub - lb) * D) := Int.ediv_nonneg hn (by omega)
  unfold bucket
  generalize (c - lb * D) * m = y at *
  generalize (ub - lb) * D = w at *
  have e : (y / w).toNat + 1 = k + 1 ↔ y / w = k := by omega
  rw [e]
  constructor
  · intro h
    have h1 := Int.mul_ediv_self_le (x := y) (k := w) (by omega)
    have h2 := Int.lt_mul_ediv_self_add (x := y) hw
    rw [h, Int.mul_comm] at h1 h2
    rw [Int.add_mul, Int.one_mul]
    omega
  · intro ⟨h1, h2⟩
    have a : (k : Int) ≤ y / w := (Int.le_ediv_iff_mul_le hw).mpr h1
    have b : y / w < k + 1 := (Int.ediv_lt_iff_lt_mul hw).mpr h2
    omega

theorem bucket_range {D lb ub c : Int} {m : Nat} (hD : 0 < D) (h : lb < ub) (h0 : lb * D ≤ c) (h1 : c < ub * D) (hm : 0 < m) :
    1 ≤ bucket D lb ub m c ∧ bucket D lb ub m c ≤ m := by
  have hw : 0 < (ub - lb) * D := Int.mul_pos (by omega) hD
  have hlt : (c - lb * D) * m < m * ((ub - lb) * D) := by
    rw [Int.mul_comm (c - lb * D)]
    refine Int.mul_lt_mul_of_pos_left ?_ (by omega)
    rw [Int.sub_mul]; omega
  have b : (c - lb * D) * m / ((ub - lb) * D) < m := (Int.ediv_lt_iff_lt_mul hw).mpr hlt
  unfold bucket
  omega

theorem stream_pos (s : Stream) : 0 < s.D := by
  have h1 := s.low 0
  have h2 := s.high 0
  omega

theorem gpusBatch_ok {s : Stream} {d : Dom} {m : Nat} (hd : Proper d) (hm : 0 < m) {b p : Nat} {o : List Req × Nat}
    (h : gpusBatch s d m b p = some o) :
    o.1.length = b ∧ ∀ r ∈ o.1, Inside s.D d r.x ∧ 1 ≤ r.gpus ∧ r.gpus ≤ m ∧ ∃ c, r.x.head? = some c ∧
      ((r.gpus : Int) - 1) * ((d.ub 0 - d.lb 0) * s.D) ≤ (c - d.lb 0 * s.D) * m ∧
      (c - d.lb 0 * s.D) * m < r.gpus * ((d.ub 0 - d.lb 0) * s.D) := by
  unfold gpusBatch at h
  split at h
  · exact nomatch h
  · rename_i hn
    cases h
    refine ⟨by simp [points_length], ?_⟩
    intro r hr
    simp only [List.mem_map] at hr
    obtain ⟨x, hx, rfl⟩ := hr
    have hi := points_inside s d hd p b x hx
    have hn0 : 0 < d.n := by omega
    have hlt := hd 0 hn0
    cases x with
    | nil => exact absurd hi.1 (by simp; omega)
    | cons c x =>
      obtain ⟨h0, h1⟩ := hi.2 0 c rfl
      have hr := bucket_range (stream_pos s) hlt h0 h1 hm
      refine ⟨hi, hr.1, hr.2, c, rfl, ?_⟩
      dsimp only [List.head?_cons, Option.getD_some]
      obtain ⟨k, hk⟩ : ∃ k, bucket s.D (d.lb 0) (d.ub 0) m c = k + 1 := ⟨bucket s.D (d.lb 0) (d.ub 0) m c - 1, by omega⟩
      have := (bucket_iff (stream_pos s) hlt h0).mp hk
      rw [hk]
      have e1 : (((k + 1 : Nat) : Int) - 1) = k := by omega
      have e2 : ((k + 1 : Nat) : Int) = (k : Int) + 1 := by omega
      rw [e1, e2]
      exact this

/-- `uniform_sample_with_var_gpus`: one to `m` GPUs; `k` exactly in the k-th of the `m` equal parts of the range of the first coordinate. -/
theorem C101_gpus_partial (s : Stream) (d : Dom) (hd : Proper d) (m b p : Nat) (hm : 0 < m) (as : List (Option Nat)) (out : List (List Req))
    (h : rounds (gpusBatch s d m) b p as = some out) :
    out.map List.length = sizes b as ∧ ∀ l ∈ out, ∀ r ∈ l, Inside s.D d r.x ∧ 1 ≤ r.gpus ∧ r.gpus ≤ m ∧ ∃ c, r.x.head? = some c ∧
      ((r.gpus : Int) - 1) * ((d.ub 0 - d.lb 0) * s.D) ≤ (c - d.lb 0 * s.D) * m ∧
      (c - d.lb 0 * s.D) * m < r.gpus * ((d.ub 0 - d.lb 0) * s.D) :=
  rounds_all _ _ (fun _ _ _ => gpusBatch_ok hd hm) b p as out h

/-- If no GPUs may be asked for, each point asks for one. -/
theorem C101_gpus_zero (s : Stream) (d : Dom) (b p : Nat) (o : List Req × Nat) (h : gpusBatch s d 0 b p = some o) :
    ∀ r ∈ o.1, r.gpus = 1 := by
  unfold gpusBatch at h
  split at h
  · exact nomatch h
  · cases h
    intro r hr
    simp only [List.mem_map] at hr
    obtain ⟨x, _, rfl⟩ := hr
    simp [bucket]

/-- When the generators raise: with a limit of zero at the first batch that is not empty; for GPUs if the first coordinate has no range. -/
theorem C101_raises (s : Stream) (d : Dom) (m b p : Nat) :
    (rsetsBatch s d m b p = none ↔ m = 0 ∧ b ≠ 0) ∧ (procsBatch s d m b p = none ↔ m = 0 ∧ b ≠ 0) ∧
    (prioBatch s d m b p = none ↔ m = 0 ∧ b ≠ 0) ∧ (diffBatch s d m b p = none ↔ m = 0 ∧ b ≠ 0) ∧
    (gpusBatch s d m b p = none ↔ d.n = 0 ∨ (b ≠ 0 ∧ d.ub 0 = d.lb 0)) := by
  have hi : ∀ q, integers s m b q = none ↔ m = 0 ∧ b ≠ 0 := by
    intro q; unfold integers; split <;> simp_all
  refine ⟨?_, ?_, ?_, ?_, ?_⟩
  · simp [rsetsBatch, hi]
  · simp [procsBatch, hi]
  · simp [prioBatch, hi]
  · simp [diffBatch, hi]
  · unfold gpusBatch; split <;> simp_all

/-- The points of `uniform_sample_with_var_gpus` are those of `uniform_random_sample`, whatever the sizes of the batches. -/
theorem C101_gpus_points (s : Stream) (d : Dom) (m b p : Nat) (as : List (Option Nat)) (out : List (List Req))
    (h : rounds (gpusBatch s d m) b p as = some out) :
    out.flatten.map (·.x) = (sample s d (sizes b as).sum p).1.map (·.x) := by
  have hs : ∀ b p, (sample s d b p).1.map (·.x) = points s d p b := by
    intro b p; simp [sample, Function.comp_def]
  have hb : ∀ b p o, gpusBatch s d m b p = some o → o.1.map (·.x) = points s d p b ∧ o.2 = p + b * d.n := by
    intro b p o h
    unfold gpusBatch at h
    split at h
    · exact nomatch h
    · cases h; simp [Function.comp_def]
  rw [hs]
  induction as generalizing b p out with
  | nil =>
    simp only [rounds, Option.map_eq_some_iff] at h
    obtain ⟨o, ho, rfl⟩ := h
    simp [sizes, (hb b p o ho).1]
  | cons a as ih =>
    simp only [rounds] at h
    split at h
    · exact nomatch h
    · rename_i o ho
      simp only [Option.map_eq_some_iff] at h
      obtain ⟨rest, hrest, rfl⟩ := h
      obtain ⟨h1, h2⟩ := hb b p o ho
      rw [List.flatten_cons, List.map_append, ih _ _ _ hrest, h1, h2, sizes, List.sum_cons, points_add]

/-- Where batch number `i` begins in the stream, if each point takes `c` places. -/
def place (c p b : Nat) (as : List (Option Nat)) (i : Nat) : Nat := p + c * ((sizes b as).take i).sum

theorem rounds_at (batch : Nat → Nat → Option (List Req × Nat)) (c : Nat) (h : ∀ b p o, batch b p = some o → o.2 = p + c * b)
    (b p : Nat) (as : List (Option Nat)) (out : List (List Req)) (hr : rounds batch b p as = some out) (i : Nat) (l : List Req)
    (hl : out[i]? = some l) : ∃ n o, (sizes b as)[i]? = some n ∧ batch n (place c p b as i) = some o ∧ o.1 = l := by
  induction as generalizing b p out i with
  | nil =>
    simp only [rounds, Option.map_eq_some_iff] at hr
    obtain ⟨o, ho, rfl⟩ := hr
    cases i with
    | zero =>
      simp only [List.getElem?_cons_zero, Option.some.injEq] at hl
      exact ⟨b, o, rfl, by simpa [place] using ho, hl⟩
    | succ i => simp at hl
  | cons a as ih =>
    simp only [rounds] at hr
    split at hr
    · exact nomatch hr
    · rename_i o ho
      simp only [Option.map_eq_some_iff] at hr
      obtain ⟨rest, hrest, rfl⟩ := hr
      cases i with
      | zero =>
        simp only [List.getElem?_cons_zero, Option.some.injEq] at hl
        exact ⟨b, o, rfl, by simpa [place] using ho, hl⟩
      | succ i =>
        rw [List.getElem?_cons_succ] at hl
        obtain ⟨n, o', h1, h2, h3⟩ := ih _ _ _ hrest i hl
        refine ⟨n, o', by rw [sizes, List.getElem?_cons_succ]; exact h1, ?_, h3⟩
        rw [← h2, h b p o ho]
        unfold place
        rw [sizes, List.take_succ_cons, List.sum_cons, Nat.mul_add, Nat.add_assoc]

theorem zipWith_left {α β γ : Type} (f : α → β → γ) (g : γ → α) (h : ∀ a b, g (f a b) = a) (l : List α) (k : List β)
    (e : l.length = k.length) : (List.zipWith f l k).map g = l := by
  induction l generalizing k with
  | nil => rfl
  | cons a l ih =>
    cases k with
    | nil => simp at e
    | cons b k => rw [List.zipWith_cons_cons, List.map_cons, h, ih k (by simpa using e)]

theorem zipWith_right {α β γ : Type} (f : α → β → γ) (g : γ → β) (h : ∀ a b, g (f a b) = b) (l : List α) (k : List β)
    (e : l.length = k.length) : (List.zipWith f l k).map g = k := by
  induction l generalizing k with
  | nil => cases k with
    | nil => rfl
    | cons b k => simp at e
  | cons a l ih =>
    cases k with
    | nil => simp at e
    | cons b k => rw [List.zipWith_cons_cons, List.map_cons, h, ih k (by simpa using e)]

/-- No number is used twice: each point takes the numbers of its coordinates and one for its request, in the order of batches; in a batch
first all points, then all requests.  So a run is given by the stream and the sizes of the answers. -/
theorem C101_stream (s : Stream) (d : Dom) (m b p : Nat) (as : List (Option Nat)) (out : List (List Req)) (i : Nat) (l : List Req)
    (hl : out[i]? = some l) :
    (rounds (rsetsBatch s d m) b p as = some out → ∃ n, (sizes b as)[i]? = some n ∧
      l.map (·.x) = points s d (place (d.n + 1) p b as i) n ∧
      l.map (·.rsets) = (List.range n).map (fun j => 1 + s.pick (place (d.n + 1) p b as i + n * d.n + j) m)) ∧
    (rounds (procsBatch s d m) b p as = some out → ∃ n, (sizes b as)[i]? = some n ∧
      l.map (·.x) = points s d (place (d.n + 1) p b as i) n ∧
      l.map (·.procs) = (List.range n).map (fun j => 1 + s.pick (place (d.n + 1) p b as i + n * d.n + j) m)) := by
  have hi : ∀ n q k, integers s m n q = some k → k = (List.range n).map (fun j => 1 + s.pick (q + j) m) := by
    intro n q k h
    unfold integers at h
    split at h
    · exact nomatch h
    · cases h; rfl
  have hc : ∀ b p : Nat, p + b * d.n + b = p + (d.n + 1) * b := by
    intro b p; rw [Nat.add_mul, Nat.one_mul, Nat.mul_comm, Nat.add_assoc]
  refine ⟨?_, ?_⟩
  · intro hr
    obtain ⟨n, o, h1, h2, h3⟩ := rounds_at _ (d.n + 1) (by
      intro b p o h
      simp only [rsetsBatch, Option.map_eq_some_iff] at h
      obtain ⟨k, _, rfl⟩ := h
      exact hc b p) b p as out hr i l hl
    refine ⟨n, h1, ?_⟩
    simp only [rsetsBatch, Option.map_eq_some_iff] at h2
    obtain ⟨k, hk, rfl⟩ := h2
    subst h3
    have e : (points s d (place (d.n + 1) p b as i) n).length = k.length := by rw [points_length, (integers_some hk).1]
    dsimp only
    rw [zipWith_left _ _ (fun _ _ => rfl) _ _ e, zipWith_right _ _ (fun _ _ => rfl) _ _ e]
    exact ⟨rfl, hi _ _ _ hk⟩
  · intro hr
    obtain ⟨n, o, h1, h2, h3⟩ := rounds_at _ (d.n + 1) (by
      intro b p o h
      simp only [procsBatch, Option.map_eq_some_iff] at h
      obtain ⟨k, _, rfl⟩ := h
      exact hc b p) b p as out hr i l hl
    refine ⟨n, h1, ?_⟩
    simp only [procsBatch, Option.map_eq_some_iff] at h2
    obtain ⟨k, hk, rfl⟩ := h2
    subst h3
    have e : (points s d (place (d.n + 1) p b as i) n).length = k.length := by rw [points_length, (integers_some hk).1]
    dsimp only
    rw [zipWith_left _ _ (fun _ _ => rfl) _ _ e, zipWith_right _ _ (fun _ _ => rfl) _ _ e]
    exact ⟨rfl, hi _ _ _ hk⟩

/-- The same for two programs: a third number of each point chooses the program. -/
theorem C101_stream_diff (s : Stream) (d : Dom) (m b p : Nat) (as : List (Option Nat)) (out : List (List Req)) (i : Nat) (l : List Req)
    (hl : out[i]? = some l) (hr : rounds (diffBatch s d m) b p as = some out) :
    ∃ n, (sizes b as)[i]? = some n ∧ l.map (·.x) = points s d (place (d.n + 2) p b as i) n ∧
      l.map (·.procs) = (List.range n).map (fun j => 1 + s.pick (place (d.n + 2) p b as i + n * d.n + j) m) ∧
      ∀ j r, l[j]? = some r → (r.gpuApp = true ↔ s.pick (place (d.n + 2) p b as i + n * d.n + n + j) 2 = 0) := by
  obtain ⟨n, o, h1, h2, h3⟩ := rounds_at _ (d.n + 2) (by
    intro b p o h
    simp only [diffBatch, Option.map_eq_some_iff] at h
    obtain ⟨k, _, rfl⟩ := h
    dsimp only
    rw [Nat.add_mul, Nat.mul_comm b]; omega) b p as out hr i l hl
  refine ⟨n, h1, ?_⟩
  simp only [diffBatch, Option.map_eq_some_iff] at h2
  obtain ⟨k, hk, rfl⟩ := h2
  subst h3
  have hkl := (integers_some hk).1
  generalize place (d.n + 2) p b as i = q at *
  have e : (points s d q n).zipIdx.length = k.length := by rw [List.length_zipIdx, points_length, hkl]
  have hk' : k = (List.range n).map (fun j => 1 + s.pick (q + n * d.n + j) m) := by
    unfold integers at hk
    split at hk
    · exact nomatch hk
    · cases hk; rfl
  refine ⟨?_, ?_, ?_⟩
  · apply List.ext_getElem?
    intro j
    simp only [List.getElem?_map, List.getElem?_zipWith, List.getElem?_zipIdx]
    have hl : (points s d q n).length = k.length := by rw [points_length, hkl]
    by_cases hj : j < k.length
    · rw [List.getElem?_eq_getElem (by omega), List.getElem?_eq_getElem hj]; rfl
    · rw [List.getElem?_eq_none (by omega), List.getElem?_eq_none (by omega)]; rfl
  · rw [← hk']
    exact zipWith_right _ _ (fun _ _ => rfl) _ _ e
  · intro j r hj
    simp only [List.getElem?_zipWith, List.getElem?_zipIdx] at hj
    split at hj
    · rename_i x y hx hy
      simp only [Option.map_eq_some_iff] at hx
      obtain ⟨z, _, rfl⟩ := hx
      cases hj
      simp [diffReq]
    · exact nomatch hj

/-- The same for priorities: the first batch takes the numbers of its points only. -/
theorem C101_stream_prio (s : Stream) (d : Dom) (m b p : Nat) (a : Option Nat) (as : List (Option Nat)) (first : List Req)
    (rest : List (List Req)) (hr : prioRounds s d m b p (a :: as) = some (first :: rest)) :
    first.map (·.x) = points s d p b ∧ ∀ (i : Nat) (l : List Req), rest[i]? = some l → ∃ n, (sizes (a.getD b) as)[i]? = some n ∧
      l.map (·.x) = points s d (place (d.n + 1) (p + b * d.n) (a.getD b) as i) n ∧
      l.map (·.rsets) = (List.range n).map (fun j => 1 + s.pick (place (d.n + 1) (p + b * d.n) (a.getD b) as i + n * d.n + j) m) := by
  simp only [prioRounds, Option.map_eq_some_iff] at hr
  obtain ⟨rest', hr, e⟩ := hr
  cases e
  refine ⟨by simp [firstBatch, Function.comp_def], ?_⟩
  intro i l hl
  obtain ⟨n, o, h1, h2, h3⟩ := rounds_at _ (d.n + 1) (by
    intro b p o h
    simp only [prioBatch, Option.map_eq_some_iff] at h
    obtain ⟨k, _, rfl⟩ := h
    dsimp only
    rw [Nat.add_mul, Nat.mul_comm b]; omega) _ _ as rest hr i l hl
  refine ⟨n, h1, ?_⟩
  simp only [prioBatch, Option.map_eq_some_iff] at h2
  obtain ⟨k, hk, rfl⟩ := h2
  subst h3
  have e : (points s d (place (d.n + 1) (p + b * d.n) (a.getD b) as i) n).length = k.length := by
    rw [points_length, (integers_some hk).1]
  dsimp only [firstBatch] at *
  rw [zipWith_left _ _ (fun _ _ => rfl) _ _ e, zipWith_right _ _ (fun _ _ => rfl) _ _ e]
  refine ⟨rfl, ?_⟩
  unfold integers at hk
  split at hk
  · exact nomatch hk
  · cases hk; rfl

/-- With the others the numbers for the requests come from the same stream, and the points depend on the sizes of the batches. -/
theorem C101_points_witness :
    ((rounds (rsetsBatch stream box 2) 1 0 [some 1]).map (fun o => o.flatten.map (·.x))) ≠
    ((rounds (rsetsBatch stream box 2) 2 0 []).map (fun o => o.flatten.map (·.x))) := by decide

/-- If every answer has all points of the batch, all batches have the size of the first one; an answer without rows ends the sampling: all
later batches are empty, unless an answer has rows. -/
theorem C101_sizes (b : Nat) (n : Nat) :
    sizes b (List.replicate n (some b)) = List.replicate (n + 1) b ∧ sizes b (List.replicate n none) = List.replicate (n + 1) b ∧
    sizes b (List.replicate n (some 0)) = b :: List.replicate n 0 := by
  refine ⟨?_, ?_, ?_⟩
  · induction n with
    | zero => rfl
    | succ n ih => rw [List.replicate_succ, sizes, Option.getD_some, ih, ← List.replicate_succ]
  · induction n with
    | zero => rfl
    | succ n ih => rw [List.replicate_succ, sizes, Option.getD_none, ih, ← List.replicate_succ]
  · have h0 : ∀ n, sizes 0 (List.replicate n (some 0)) = List.replicate (n + 1) 0 := by
      intro n
      induction n with
      | zero => rfl
      | succ n ih => rw [List.replicate_succ, sizes, Option.getD_some, ih, ← List.replicate_succ]
    cases n with
    | zero => rfl
    | succ n => rw [List.replicate_succ, sizes, Option.getD_some, h0]

example : ((rounds (gpusBatch stream box 2) 2 0 [some 1, none]).map (fun o => o.map (fun l => l.map (·.gpus)))) = some [[1, 2], [2], [2]] ∧
    ((prioRounds stream box 3 2 0 [some 1]).map (fun o => o.map (fun l => l.map (fun r => (r.rsets, r.priority))))) =
      some [[(1, 1), (1, 1)], [(1, 10)]] ∧
    ((rounds (diffBatch stream box 3) 2 0 [some 3]).map (fun o => o.map (fun l => l.map (fun r => (r.x, r.procs, r.gpus))))) =
      some [[([-7, -1], 2, 2), ([5, -3], 3, 0)], [([-1, 5], 3, 0), ([-3, 3], 1, 1), ([-5, 1], 2, 0)]] ∧
    ((rounds (procsBatch stream box 3) 2 0 [some 3]).map (fun o => o.map (fun l => l.map (fun r => (r.x, r.procs, r.gpus))))) =
      some [[([-7, -1], 2, 2), ([5, -3], 3, 3)], [([1, -7], 1, 1), ([-1, 5], 2, 2), ([-3, 3], 3, 3)]] := by decide

end Verif.Sampling.Uniform
