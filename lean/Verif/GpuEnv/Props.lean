import Verif.GpuEnv.Model
/-!
C103: variables for GPUs.
-/
namespace Verif.GpuEnv

/-- The number of an entry among the GPUs, or the tiles, of a node. -/
def Entry.number (e : Entry) (tiles : Nat) : Nat :=
  match e.tile with
  | none => e.gpu
  | some t => e.gpu * tiles + t

theorem mem_numbers {slots : List Nat} {n x : Nat} (hn : 0 < n) : x ∈ numbers slots n ↔ x / n ∈ slots := by
  unfold numbers
  simp only [List.mem_flatMap, List.mem_map, List.mem_range]
  constructor
  · rintro ⟨i, hi, k, hk, rfl⟩
    have : (i * n + k) / n = i := by
      rw [Nat.mul_comm, Nat.mul_add_div hn, Nat.div_eq_of_lt hk, Nat.add_zero]
    rw [this]; exact hi
  · intro h
    refine ⟨x / n, h, x % n, Nat.mod_lt _ hn, ?_⟩
    rw [Nat.mul_comm]; exact Nat.div_add_mod x n

theorem numbers_length (slots : List Nat) (n : Nat) : (numbers slots n).length = slots.length * n := by
  induction slots with
  | nil => simp [numbers]
  | cons i l ih =>
    have : numbers (i :: l) n = (List.range n).map (i * n + ·) ++ numbers l n := by simp [numbers]
    rw [this, List.length_append, ih, List.length_map, List.length_range, List.length_cons, Nat.add_mul, Nat.one_mul, Nat.add_comm]

theorem numbers_nodup {slots : List Nat} {n : Nat} (hn : 0 < n) (h : slots.Nodup) : (numbers slots n).Nodup := by
  induction slots with
  | nil => simp [numbers]
  | cons i l ih =>
    have e : numbers (i :: l) n = (List.range n).map (i * n + ·) ++ numbers l n := by simp [numbers]
    rw [List.nodup_cons] at h
    rw [e, List.nodup_append]
    refine ⟨?_, ih h.2, ?_⟩
    · rw [List.Nodup, List.pairwise_map]
      exact List.Pairwise.imp (fun hab => by omega) List.nodup_range
    · intro a ha b hb hab
      subst hab
      simp only [List.mem_map, List.mem_range] at ha
      obtain ⟨k, hk, rfl⟩ := ha
      have h1 := (mem_numbers hn).mp hb
      have : (i * n + k) / n = i := by
        rw [Nat.mul_comm, Nat.mul_add_div hn, Nat.div_eq_of_lt hk, Nat.add_zero]
      rw [this] at h1
      exact h.1 h1

theorem entries_number (slots : List Nat) (n : Nat) (limit : Option Nat) (tiles : Nat) :
    (entries slots n limit tiles).map (·.number tiles) =
      (match limit with | none => numbers slots n | some k => (numbers slots n).take k) := by
  have hf : ∀ i : Nat, (if 1 < tiles then (⟨i / tiles, some (i % tiles)⟩ : Entry) else ⟨i, none⟩).number tiles = i := by
    intro i
    split
    · simp only [Entry.number]; rw [Nat.mul_comm]; exact Nat.div_add_mod i tiles
    · rfl
  unfold entries
  rw [List.map_map]
  conv => rhs; rw [← List.map_id (match limit with | none => numbers slots n | some k => (numbers slots n).take k)]
  apply List.map_congr_left
  intro i _
  exact hf i

/-- The entries are the GPUs (or tiles) of the slots, each once, in order, and no more than the limit. -/
theorem C103_entries (slots : List Nat) (n : Nat) (limit : Option Nat) (tiles : Nat) (hn : 0 < n) (hs : slots.Nodup) :
    (∀ e ∈ entries slots n limit tiles, e.number tiles / n ∈ slots) ∧
    (limit = none → ∀ x, x / n ∈ slots → ∃ e ∈ entries slots n limit tiles, e.number tiles = x) ∧
    ((entries slots n limit tiles).map (·.number tiles)).Nodup ∧
    (entries slots n limit tiles).length = (match limit with | none => slots.length * n | some k => min k (slots.length * n)) := by
  have he := entries_number slots n limit tiles
  have hl := congrArg List.length he
  rw [List.length_map] at hl
  refine ⟨?_, ?_, ?_, ?_⟩
  · intro e h
    have hm : e.number tiles ∈ (entries slots n limit tiles).map (·.number tiles) := List.mem_map_of_mem h
    rw [he] at hm
    cases limit with
    | none => exact (mem_numbers hn).mp hm
    | some k => exact (mem_numbers hn).mp (List.mem_of_mem_take hm)
  · intro h x hx
    subst h
    have hm := (mem_numbers hn).mpr hx
    dsimp only at he
    rw [← he] at hm
    simpa using hm
  · rw [he]
    cases limit with
    | none => exact numbers_nodup hn hs
    | some k => exact (numbers_nodup hn hs).sublist (List.take_sublist k _)
  · rw [hl]
    cases limit with
    | none => exact numbers_length _ _
    | some k => simp [numbers_length]

/-- Tiles are numbered within their GPU; without tiles there are none. -/
theorem C103_tiles (slots : List Nat) (n : Nat) (limit : Option Nat) (tiles : Nat) :
    ∀ e ∈ entries slots n limit tiles, if 1 < tiles then ∃ t, e.tile = some t ∧ t < tiles else e.tile = none := by
  intro e h
  unfold entries at h
  rw [List.mem_map] at h
  obtain ⟨i, _, rfl⟩ := h
  split
  · exact ⟨_, rfl, Nat.mod_lt _ (by omega)⟩
  · rfl

/-- Workers with different slots of a node have no entry in common, whatever their limits. -/
theorem C103_disjoint (s s' : List Nat) (n : Nat) (l l' : Option Nat) (tiles : Nat) (hn : 0 < n) (hd : ∀ i ∈ s, i ∉ s') :
    ∀ e ∈ entries s n l tiles, e ∉ entries s' n l' tiles := by
  have key : ∀ (s : List Nat) l, ∀ e ∈ entries s n l tiles, e.number tiles / n ∈ s := by
    intro s l e h
    have hm : e.number tiles ∈ (entries s n l tiles).map (·.number tiles) := List.mem_map_of_mem h
    rw [entries_number] at hm
    cases l with
    | none => exact (mem_numbers hn).mp hm
    | some k => exact (mem_numbers hn).mp (List.mem_of_mem_take hm)
  intro e h h'
  exact hd _ (key s l e h) (key s' l' e h')

/-- The variable: the one given, else that of the platform if it sets variables, else its fallback, else that of CUDA. -/
theorem C103_name (p : Plat) (v : String) :
    varName (some v) none = some v ∧ varName (some v) (some p) = some v ∧ varName none none = some "CUDA_VISIBLE_DEVICES" ∧
    (p.env = true → varName none (some p) = p.name) ∧
    (p.env = false → p.fallback = some v → v ≠ "" → varName none (some p) = some v) ∧
    (p.env = false → (p.fallback = none ∨ p.fallback = some "") → varName none (some p) = some "CUDA_VISIBLE_DEVICES") := by
  refine ⟨rfl, rfl, rfl, ?_, ?_, ?_⟩
  · intro h; simp [varName, h]
  · intro h h1 h2; simp [varName, h, h1, h2]
  · intro h h1; rcases h1 with h1 | h1 <;> simp [varName, h, h1]

/-- With GPUs and matching slots the variable has the GPUs of the slots, and no other variable is changed.  Missing: workers without GPUs, and
platforms that set variables but do not name one. -/
theorem C103_set_partial (w : Worker) (given : Option String) (e : Env) (s : List Nat) (v : String) (hm : w.matching = true) (hg : w.gpus = true)
    (hs : w.slots = some s) (hv : varName given w.plat = some v) :
    ∃ e', setGpus w given e = .ok e' ∧ e' v = some (entries s w.per w.ngpus w.tiles) ∧ ∀ u, u ≠ v → e' u = e u := by
  refine ⟨e.put v (entries s w.per w.ngpus w.tiles), by simp [setGpus, hm, hg, hs, hv], by simp [Env.put], ?_⟩
  intro u hu
  simp [Env.put, hu]

/-- The same for slots, also if the worker has no GPUs. -/
theorem C103_slots (w : Worker) (e : Env) (s : List Nat) (v : String) (n : Nat) (hs : w.slots = some s) :
    ∃ e', setSlots w v n e = .ok e' ∧ e' v = some (entries s n none w.tiles) ∧ ∀ u, u ≠ v → e' u = e u := by
  refine ⟨e.put v (entries s n none w.tiles), by simp [setSlots, hs], by simp [Env.put], ?_⟩
  intro u hu
  simp [Env.put, hu]

/-- When the calls raise. -/
theorem C103_raises (w : Worker) (given : Option String) (e : Env) (v : String) (n : Nat) :
    (∀ x, setSlots w v n e = .error x ↔ x = .type ∧ w.slots = none) ∧
    (setGpus w given e = .error .assertion ↔ w.matching = false) ∧
    (setGpus w given e = .error .type ↔ w.matching = true ∧ w.gpus = true ∧ (w.slots = none ∨ varName given w.plat = none)) := by
  refine ⟨?_, ?_, ?_⟩
  · intro x
    unfold setSlots
    cases w.slots with
    | none => constructor
              · intro h; cases h; exact ⟨rfl, rfl⟩
              · rintro ⟨rfl, _⟩; rfl
    | some s => simp
  · unfold setGpus
    cases w.matching <;> cases w.gpus <;> cases w.slots <;> cases varName given w.plat <;> simp
  · unfold setGpus
    cases w.matching <;> cases w.gpus <;> cases w.slots <;> cases varName given w.plat <;> simp

/-- A platform that sets variables but names none: the call raises, though there would be the variable of CUDA. -/
theorem C103_unnamed (w : Worker) (p : Plat) (e : Env) (hm : w.matching = true) (hg : w.gpus = true) (hp : w.plat = some p) (he : p.env = true)
    (hn : p.name = none) : setGpus w none e = .error .type := by
  rw [(C103_raises w none e "" 0).2.2]
  exact ⟨hm, hg, .inr (by simp [varName, hp, he, hn])⟩

/-- A worker that has no GPUs keeps the variable of its last task: the GPUs can belong to another worker by now. -/
theorem C103_stale (w w' : Worker) (given : Option String) (e : Env) (s : List Nat) (v : String) (hm : w.matching = true) (hg : w.gpus = true)
    (hs : w.slots = some s) (hv : varName given w.plat = some v) (hm' : w'.matching = true) (hg' : w'.gpus = false) :
    ∃ e', setGpus w given e = .ok e' ∧ setGpus w' given e' = .ok e' ∧ e' v = some (entries s w.per w.ngpus w.tiles) := by
  obtain ⟨e', h1, h2, _⟩ := C103_set_partial w given e s v hm hg hs hv
  exact ⟨e', h1, by simp [setGpus, hm', hg'], h2⟩

/-- The limit is one for each node: on `k` nodes with the same slots `k` times as many GPUs are visible, and so more than the generator asked
for, unless the slots have just as many. -/
theorem C103_limit (s : List Nat) (n g k tiles : Nat) (hn : 0 < n) (hs : s.Nodup) (h0 : 0 < g) (hk : 2 ≤ k) (hg : g < k * (s.length * n)) :
    g < k * (entries s n (some g) tiles).length := by
  rw [(C103_entries s n (some g) tiles hn hs).2.2.2]
  dsimp only
  rcases Nat.le_total g (s.length * n) with h | h
  · rw [Nat.min_eq_left h]
    have : 2 * g ≤ k * g := Nat.mul_le_mul_right g hk
    omega
  · rw [Nat.min_eq_right h]; exact hg

/-- `set_env_to_slots` without multiplier (as in `CUDA_variable_resources`) lists the numbers of slots, which are GPUs of other slots if a slot
has several. -/
theorem C103_slots_witness :
    (entries [1] 1 none 1).map (·.gpu) = [1] ∧ (entries [1] 2 none 1).map (·.gpu) = [2, 3] ∧ (entries [0] 2 none 1).map (·.gpu) = [0, 1] := by decide

example : entries [1, 2] 2 (some 3) 4 = [⟨0, some 2⟩, ⟨0, some 3⟩, ⟨1, some 0⟩] := by decide

example : (setGpus { slots := some [0, 1], per := 2, ngpus := some 3 } none (fun _ => none)).map (fun e => e "CUDA_VISIBLE_DEVICES") =
    .ok (some [⟨0, none⟩, ⟨1, none⟩, ⟨2, none⟩]) := rfl

end Verif.GpuEnv
