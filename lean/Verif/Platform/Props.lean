import Verif.Platform.Model
/-
C77: the description of the platform: what the user says comes first, then what is known about the platform, then what is detected.
-/
namespace Verif.Platform

/-! ### Names -/

/-- C77: the name of the platform: the entry `platform` comes first, then `LIBE_PLATFORM`, then the domain, then the variables of the batch system. -/
theorem C77_name (p env : Option String) (s : Site) :
    (∀ n, p = some n → n ≠ "" → nameOf p env s = some n)
    ∧ (p = none → ∀ n, env = some n → n ≠ "" → nameOf p env s = some n)
    ∧ (p = none → env = none → ∀ d n, s.domain = some d → (d, n) ∈ detectSystems → nameOf p env s = some n)
    ∧ (p = none → env = none → (∀ d n, s.domain = some d → (d, n) ∉ detectSystems) → nameOf p env s = knownEnvs s) := by
  refine ⟨?_, ?_, ?_, ?_⟩
  · rintro n rfl hn
    simp [nameOf, truthy, hn]
  · rintro rfl n rfl hn
    simp [nameOf, truthy, hn]
  · rintro rfl rfl d n hd hm
    simp only [nameOf, truthy, Bool.false_eq_true, if_false, detect, hd, Option.bind_some]
    simp only [detectSystems, List.mem_cons, Prod.mk.injEq, List.not_mem_nil, or_false] at hm
    rcases hm with ⟨rfl, rfl⟩ | ⟨rfl, rfl⟩ | ⟨rfl, rfl⟩ | ⟨rfl, rfl⟩ <;> rfl
  · rintro rfl rfl hno
    simp only [nameOf, truthy, Bool.false_eq_true, if_false, detect]
    cases hd : s.domain with
    | none => rfl
    | some d =>
      simp only [Option.bind_some]
      cases hl : detectSystems.lookup d with
      | none => rfl
      | some n =>
        refine absurd ?_ (hno d n hd)
        revert hl
        generalize detectSystems = l
        induction l with
        | nil => nofun
        | cons q l ih =>
          obtain ⟨a, b⟩ := q
          intro hl
          simp only [List.lookup] at hl
          cases hk : d == a with
          | true => rw [hk] at hl; rw [beq_iff_eq] at hk; cases hl; rw [hk]; exact .head _
          | false => rw [hk] at hl; exact .tail _ (ih hl)

/-- C77: every name that is detected is that of a known platform: detection does not raise `PlatformException`. -/
theorem C77_detected {s : Site} {n : String} (h : detect s = some n) : ∃ g, known.lookup n = some g := by
  have hin : n ∈ ["frontier", "aurora", "polaris", "summit", "perlmutter", "perlmutter_c", "perlmutter_g", "lumi", "lumi_g"] := by
    unfold detect at h
    split at h
    · rename_i m hm
      cases h
      cases hd : s.domain with
      | none => rw [hd] at hm; cases hm
      | some d =>
        rw [hd] at hm
        simp only [Option.bind_some, detectSystems, List.lookup] at hm
        (repeat' split at hm) <;> simp_all
    · unfold knownEnvs at h
      dsimp only at h
      (repeat' split at h) <;> simp_all
  simp only [List.mem_cons, List.not_mem_nil, or_false] at hin
  rcases hin with rfl | rfl | rfl | rfl | rfl | rfl | rfl | rfl | rfl <;> exact ⟨_, rfl⟩

/-- C77: what the variables of the batch system say: on LUMI a partition that ends with "-g" has GPUs; on Perlmutter one with "gpu_", and without a partition only
the runner is known. -/
theorem C77_envs (s : Site) :
    (∀ p, s.cluster = some "lumi" → s.partition = some p → p ≠ "" → knownEnvs s = some (if s.endsG then "lumi_g" else "lumi"))
    ∧ (s.cluster = some "lumi" → s.partition = none → knownEnvs s = some "lumi")
    ∧ (∀ p, s.cluster ≠ some "lumi" → s.nersc = some "perlmutter" → s.partition = some p → p ≠ "" →
        knownEnvs s = some (if s.hasGpu then "perlmutter_g" else "perlmutter_c"))
    ∧ (s.cluster ≠ some "lumi" → s.nersc = some "perlmutter" → s.partition = none → knownEnvs s = some "perlmutter")
    ∧ (s.cluster ≠ some "lumi" → s.nersc ≠ some "perlmutter" → knownEnvs s = none) := by
  refine ⟨?_, ?_, ?_, ?_, ?_⟩
  · intro p h1 h2 h3; simp [knownEnvs, h1, h2, truthy, h3]
  · intro h1 h2; simp [knownEnvs, h1, h2, truthy]
  · intro p h1 h2 h3 h4; simp [knownEnvs, h1, h2, h3, truthy, h4]
  · intro h1 h2 h3; simp [knownEnvs, h1, h2, h3, truthy]
  · intro h1 h2; simp [knownEnvs, h1, h2]

/-- Hypotheses of `C77_name` and `C77_detected`: a GPU partition of Perlmutter. -/
example : detect { domain := some "chn", nersc := some "perlmutter", partition := some "gpu_regular", hasGpu := true } = some "perlmutter_g" := by decide

/-! ### The description -/

/-- C77: what the user gives in `platform_specs` is in the description, in whatever form it is given. -/
theorem C77_given {p env : Option String} {s : Site} {g : Given} {i r : Info} (hi : i = g.dumped ∨ i = g.tidy ∨ i = g.plain)
    (h : getPlatform p env s (some i) = .ok r) {f : Field} {v : Val} (hv : g f = some v) : r f = some (some v) := by
  have hif : i f = some (some v) := by
    rcases hi with rfl | rfl | rfl
    · simp [Given.dumped, hv]
    · simp [Given.tidy, hv]
    · simp [Given.plain, hv]
  unfold getPlatform at h
  split at h
  · split at h
    · cases h
    · cases h
      simp [hif]
  · cases h
    simp [hif]

/-- C77 (partial: for `platform_specs` as a dictionary that goes to `get_platform` as it is; through `libE` fields are lost, see `C77_lost`): a field that the user
does not give has the value of the named or detected platform, and is absent without one. -/
theorem C77_kept_partial {p env : Option String} {s : Site} {g : Given} {r : Info} (h : getPlatform p env s (some g.plain) = .ok r) {f : Field}
    (hf : g f = none) :
    (∀ n k, nameOf p env s = some n → known.lookup n = some k → r f = k.tidy f) ∧ (nameOf p env s = none → r f = none) := by
  have hif : g.plain f = none := by simp [Given.plain, hf]
  unfold getPlatform at h
  refine ⟨fun n k hn hk => ?_, fun hn => ?_⟩
  · rw [hn] at h
    dsimp only at h
    rw [hk] at h
    cases h
    simp [hif]
  · rw [hn] at h
    cases h
    simp [hif]

/-- C77 violated: given to `libE` in `libE_specs`, `platform_specs` becomes a `Platform` whose dump has all fields: with a named or detected platform, every known
value that the user does not give is replaced by `None`, and `scheduler_match_slots` by `True`. -/
theorem C77_lost {p env : Option String} {s : Site} {g : Given} {r : Info} {n : String} (h : getPlatform p env s (some g.dumped) = .ok r)
    (hn : nameOf p env s = some n) {f : Field} (hf : g f = none) : r f = some (if f = .matchSlots then some (.flag true) else none) := by
  unfold getPlatform at h
  rw [hn] at h
  dsimp only at h
  split at h
  · cases h
  · cases h
    dsimp only [Given.dumped]
    rw [hf]
    by_cases hm : f = .matchSlots <;> simp [hm]

/-- The user's four GPUs per node. -/
def four : Given
  | .gpus => some (.num 4)
  | _ => none

/-- Hypotheses of the theorems above, and C77 violated: on Frontier (named, or detected by its domain), `platform_specs={"gpus_per_node": 4}` is taken over, and the
MPI runner, the cores and the way to set GPUs are lost; GPUs are then assigned by an environment variable without a name. As a plain dictionary it is right. -/
theorem C77_lost_witness :
    ∃ r r', getPlatform none none { domain := some "frontier.olcf.ornl.gov" } (some four.dumped) = .ok r
      ∧ getPlatform none none { domain := some "frontier.olcf.ornl.gov" } (some four.plain) = .ok r'
      ∧ r.num .gpus = some 4 ∧ r.num .cores = none ∧ r.text .mpiRunner = none ∧ way r (.text "--gpus-per-node") = .env none
      ∧ matchSlots none r = some (.flag true)
      ∧ r'.num .gpus = some 4 ∧ r'.num .cores = some 64 ∧ r'.text .mpiRunner = some "srun" ∧ way r' (.text "--gpus-per-node") = .runner
      ∧ matchSlots none r' = some (.flag false) :=
  ⟨_, _, rfl, rfl, by decide, by decide, by decide, by decide, by decide, by decide, by decide, by decide, by decide, by decide⟩

/-- C77: without `platform_specs` the description of a named platform is the known one; a name that is not known is refused. -/
theorem C77_known {p env : Option String} {s : Site} {n : String} (hn : nameOf p env s = some n) :
    (∀ g, known.lookup n = some g → getPlatform p env s none = .ok g.tidy)
    ∧ (known.lookup n = none → ∀ i, getPlatform p env s i = .error ()) := by
  unfold getPlatform
  rw [hn]
  refine ⟨fun g hg => ?_, fun hg i => ?_⟩
  · dsimp only; rw [hg]
  · dsimp only; rw [hg]

/-! ### Cores and GPUs -/

/-- C77: cores and threads per node: those of `resource_info` come first; without it those of the platform; a number that is missing there comes from the detection. -/
theorem C77_cores (c : Option (Option Nat × Option Nat)) (g : Option Nat) (p : Info) (d : Nat × Nat × Nat) :
    (∀ a b, c = some (some a, some b) → (nodeCounts c g p d).1 = (a, b))
    ∧ (∀ a b, c = none → p.num .cores = some a → p.num .logical = some b → (nodeCounts c g p d).1 = (a, b))
    ∧ (c = none → p.num .cores = none → p.num .logical = none → (nodeCounts c g p d).1 = (d.1, d.2.1))
    ∧ (∀ a, c = none → p.num .cores = some a → a ≠ 0 → p.num .logical = none → (nodeCounts c g p d).1 = (a, d.2.1)) := by
  refine ⟨?_, ?_, ?_, ?_⟩
  · rintro a b rfl
    unfold nodeCounts
    dsimp only
    split <;> simp_all [addDetected]
  · rintro a b rfl ha hb
    unfold nodeCounts
    simp only [ha, hb]
    split <;> simp_all [addDetected]
  · rintro rfl ha hb
    unfold nodeCounts
    simp only [ha, hb]
    simp [addDetected, nor]
  · rintro a rfl ha h0 hb
    unfold nodeCounts
    simp only [ha, hb]
    simp [addDetected, nor, h0]

/-- C77 (partial: the number 0 does not count as given, see `C77_zero_witness`): GPUs per node: those of `resource_info` come first, then those of the platform, then
those of the detection. -/
theorem C77_gpus_partial (c : Option (Option Nat × Option Nat)) (g : Option Nat) (p : Info) (d : Nat × Nat × Nat) :
    (∀ n, g = some n → n ≠ 0 → (nodeCounts c g p d).2 = n)
    ∧ (∀ n, g = none → p.num .gpus = some n → n ≠ 0 → (nodeCounts c g p d).2 = n)
    ∧ (g = none → p.num .gpus = none → (nodeCounts c g p d).2 = d.2.2) := by
  refine ⟨?_, ?_, ?_⟩
  · rintro n rfl h0
    unfold nodeCounts
    simp only [nor, h0, if_false]
    split <;> simp_all [addDetected, nor]
  · rintro n rfl hp h0
    unfold nodeCounts
    simp only [nor, hp]
    split <;> simp_all [addDetected, nor]
  · rintro rfl hp
    unfold nodeCounts
    simp only [nor, hp]
    simp [addDetected, nor]

/-- C77 violated: "no GPUs" cannot be said: `resource_info={"gpus_on_node": 0}` on a platform with 8 GPUs per node gives 8; on a platform of which 0 GPUs are known and
no cores, the detected number is taken. -/
theorem C77_zero_witness :
    (nodeCounts (some (some 64, some 128)) (some 0) frontier.tidy (64, 128, 8)).2 = 8
    ∧ (nodeCounts none none (Given.plain fun f => if f = .gpus then some (.num 0) else none) (16, 32, 2)).2 = 2
    ∧ (nodeCounts none none perlmutterC.tidy (16, 32, 2)).2 = 0 := by decide

/-- C77: numbers that the environment gives are not replaced by what is found on the node or by the probe; what it does not give is found. -/
theorem C77_env (e : Option (Nat × Nat)) (g : Option Nat) (remote : Bool) (f : Counts) :
    (∀ a b, e = some (a, b) → (subNode e g remote f).1 = a ∧ (subNode e g remote f).2.1 = b)
    ∧ (∀ n, g = some n → (subNode e g remote f).2.2 = n)
    ∧ (∀ a b, e = none → f.1 = some a → f.2.1 = some b → (subNode e g remote f).1 = a ∧ (subNode e g remote f).2.1 = b)
    ∧ (∀ n, g = none → f.2.2 = some n → (subNode e g remote f).2.2 = n) := by
  refine ⟨?_, ?_, ?_, ?_⟩
  · rintro a b rfl
    cases g <;> cases remote <;> simp [subNode, updateFromStr, updateValues]
  · rintro n rfl
    cases e <;> cases remote <;> simp [subNode, updateFromStr, updateValues]
  · rintro a b rfl ha hb
    cases g <;> cases remote <;> simp [subNode, updateFromStr, updateValues, ha, hb]
  · rintro n rfl hn
    cases e <;> cases remote <;> simp [subNode, updateFromStr, updateValues, hn]

theorem least_spec {l : List Nat} {m : Nat} (h : least l = some m) : m ∈ l ∧ ∀ x ∈ l, m ≤ x := by
  induction l generalizing m with
  | nil => cases h
  | cons a l ih =>
    cases l with
    | nil =>
      cases h
      exact ⟨.head _, fun x hx => by simp at hx; omega⟩
    | cons b l =>
      simp only [least, Option.map_eq_some_iff] at h
      obtain ⟨k, hk, rfl⟩ := h
      obtain ⟨h1, h2⟩ := ih hk
      refine ⟨?_, ?_⟩
      · rcases Nat.le_total a k with hle | hle
        · rw [Nat.min_eq_left hle]; exact .head _
        · rw [Nat.min_eq_right hle]; exact .tail _ h1
      · intro x hx
        rcases List.mem_cons.mp hx with rfl | hx
        · exact Nat.min_le_left _ _
        · exact Nat.le_trans (Nat.min_le_right _ _) (h2 x hx)

theorem least_none {l : List Nat} (h : least l = none) : l = [] := by
  induction l with
  | nil => rfl
  | cons a l ih =>
    cases l with
    | nil => cases h
    | cons b l =>
      simp only [least, Option.map_eq_none_iff] at h
      exact absurd (ih h) nofun

/-- C77: the number of cores that `LSB_HOSTS` gives for every node is available on each: no compute node is named less often, and one is named so often. It raises
`ValueError` exactly if no compute node is named. -/
theorem C77_lsf (isBatch : String → Bool) (hosts : List String) :
    (∀ m, least (slots isBatch hosts) = some m →
      (∃ h ∈ hosts, isBatch h = false ∧ hosts.count h = m) ∧ ∀ h ∈ hosts, isBatch h = false → m ≤ hosts.count h)
    ∧ (least (slots isBatch hosts) = none ↔ ∀ h ∈ hosts, isBatch h = true) := by
  have hcount : ∀ h, isBatch h = false → (hosts.filter fun h => !isBatch h).count h = hosts.count h := by
    intro h hb
    rw [List.count_filter]
    simp [hb]
  have hmem : ∀ h, h ∈ (hosts.filter fun h => !isBatch h).eraseDups ↔ h ∈ hosts ∧ isBatch h = false := by
    intro h
    rw [List.mem_eraseDups, List.mem_filter]
    simp
  refine ⟨fun m hm => ?_, ?_, ?_⟩
  · obtain ⟨h1, h2⟩ := least_spec hm
    simp only [slots, List.mem_map] at h1 h2
    obtain ⟨h, hh, hc⟩ := h1
    obtain ⟨hm1, hm2⟩ := (hmem h).mp hh
    refine ⟨⟨h, hm1, hm2, by rw [← hcount h hm2, hc]⟩, fun x hx hb => ?_⟩
    rw [← hcount x hb]
    exact h2 _ ⟨x, (hmem x).mpr ⟨hx, hb⟩, rfl⟩
  · intro hn h hh
    have := least_none hn
    simp only [slots, List.map_eq_nil_iff] at this
    cases hb : isBatch h with
    | true => rfl
    | false =>
      have := (hmem h).mpr ⟨hh, hb⟩
      simp_all
  · intro hall
    have : slots isBatch hosts = [] := by
      simp only [slots, List.map_eq_nil_iff]
      cases hl : (hosts.filter fun h => !isBatch h).eraseDups with
      | nil => rfl
      | cons a l =>
        have := (hmem a).mp (by rw [hl]; exact .head _)
        rw [hall a this.1] at this
        exact absurd this.2 nofun
    rw [this]
    rfl

/-- Hypotheses of `C77_lsf`: two nodes with different numbers. -/
example : slots (· == "batch1") ["batch1", "a", "a", "a", "b", "b"] = [3, 2] ∧ least (slots (· == "batch1") ["batch1", "a", "a", "a", "b", "b"]) = some 2 :=
  ⟨by decide, by decide⟩

/-- Names and numbers in turn, as in `LSB_MCPU_HOSTS`. -/
def flat : List (String × String) → List String
  | [] => []
  | p :: l => p.1 :: p.2 :: flat l

theorem pairs_flat (l : List (String × String)) : pairs (flat l) = l := by
  induction l with
  | nil => rfl
  | cons p l ih => simp [flat, pairs, ih]

/-- C77: the number of cores that `LSB_MCPU_HOSTS` gives for every node is the least number that stands behind a compute node. -/
theorem C77_lsf_short (isBatch : String → Bool) (num : String → Nat) (l : List (String × String)) {m : Nat}
    (h : least (slotsShort isBatch num (flat l)) = some m) :
    (∃ p ∈ l, isBatch p.1 = false ∧ num p.2 = m) ∧ ∀ p ∈ l, isBatch p.1 = false → m ≤ num p.2 := by
  obtain ⟨h1, h2⟩ := least_spec h
  simp only [slotsShort, pairs_flat, List.mem_map, List.mem_filter] at h1 h2
  obtain ⟨p, ⟨hp, hb⟩, hm⟩ := h1
  exact ⟨⟨p, hp, by simpa using hb, hm⟩, fun q hq hqb => h2 _ ⟨q, ⟨hq, by simp [hqb]⟩, rfl⟩⟩

/-- Hypotheses of `C77_lsf_short`. -/
example : least (slotsShort (· == "batch1") String.length (flat [("batch1", "x"), ("a", "xxx"), ("b", "xx")])) = some 2 := by decide

/-- C77: the number of GPUs is that of the first method that gives one. -/
theorem C77_methods {a b : List (Option Nat)} {n : Nat} (ha : ∀ x ∈ a, x = none) : numGpus (a ++ some n :: b) = some n := by
  unfold numGpus
  rw [List.findSome?_append, List.findSome?_eq_none_iff.mpr (by simpa using ha)]
  rfl

/-- Hypotheses of `C77_methods`. -/
example : numGpus [none, some 4, none, some 8] = some 4 := C77_methods (a := [none]) (by simp)

/-! ### The runner -/

/-- C77: slots of several nodes are matched as the user's option says, else as the platform says, else they are. -/
theorem C77_match (opt : Option Bool) (i : Info) :
    (∀ b, opt = some b → matchSlots opt i = some (.flag b))
    ∧ (∀ v, opt = none → i .matchSlots = some (some v) → matchSlots opt i = some v)
    ∧ (opt = none → i .matchSlots = none → matchSlots opt i = some (.flag true)) := by
  refine ⟨?_, ?_, ?_⟩
  · rintro b rfl; rfl
  · rintro v rfl h; simp [matchSlots, Info.getDflt, h]
  · rintro rfl h; simp [matchSlots, Info.getDflt, h]

/-- C77: GPUs are assigned as the description says: in the runner's own way if it says so or nothing, by the option or the environment variable that it names. -/
theorem C77_way (i : Info) (dflt : Val) :
    (i .setType = none ∨ i .setType = some (some (.text "runner_default")) → way i dflt = .runner)
    ∧ (∀ n, i .setType = some (some (.text "env")) → i .setName = some (some n) → way i dflt = .env (some n))
    ∧ (∀ n, i .setType = some (some (.text "option_gpus_per_node")) ∨ i .setType = some (some (.text "option_gpus_per_task")) → i .setName = some (some n) →
        way i dflt = .option (some n)) := by
  refine ⟨?_, ?_, ?_⟩
  · rintro (h | h) <;> simp [way, Info.getDflt, h]
  · intro n h1 h2; simp [way, Info.getDflt, h1, h2]
  · rintro n (h | h) h2 <;> simp [way, Info.getDflt, h, h2]


/-- C77 (partial: the name of the platform's command stays with another runner, see `C77_runner_witness`; a second run keeps the first one's, see
`C77_second_witness`): the executor's own settings come first, then the platform's, then the detected runner. -/
theorem C77_runner_partial (r : Runner) (i : Info) (v : Option String) :
    (∀ k, r.kind = some k → (r.add i v).kind = some k)
    ∧ (∀ k, r.kind = none → i.text .mpiRunner = some k → (r.add i v).kind = some k)
    ∧ (r.kind = none → i.text .mpiRunner = none → (r.add i v).kind = v)
    ∧ (∀ k, r.kind = some k → (∀ n, r.name = some n → (r.add i v).command = some n)
        ∧ (r.name = none → i.text .runnerName = none → (r.add i v).command = some (defaultCommand k))) := by
  refine ⟨?_, ?_, ?_, ?_⟩
  · intro k hk; simp [Runner.add, hk]
  · intro k hk hi; simp [Runner.add, hk, hi]
  · intro hk hi; simp [Runner.add, hk, hi]
  · intro k hk
    refine ⟨fun n hn => ?_, fun hn hi => ?_⟩
    · simp [Runner.command, Runner.add, hk, hn]
    · simp [Runner.command, Runner.add, hk, hn, hi]

/-- C77 violated: `MPIExecutor(custom_info={"mpi_runner": "srun"})` on Polaris starts `mpiexec`, with the options of srun; elsewhere it starts `srun`. -/
theorem C77_runner_witness :
    (Runner.add { kind := some "srun" } polaris.tidy none).command = some "mpiexec" ∧ (Runner.add { kind := some "srun" } frontier.tidy none).command = some "srun" := by
  decide

/-- C77 violated: an executor that was used on one platform keeps its runner in a second run with another one: `aurora` after `summit` starts `mpiexec` with the options
of jsrun. -/
theorem C77_second_witness :
    let r := (Runner.add {} summit.tidy none).add aurora.tidy none
    r.kind = some "jsrun" ∧ r.command = some "mpiexec" := by decide

end Verif.Platform
