import Verif.Mpi.Lemmas
/-!
Properties of MPI layouts: C42 (consistent with the request), C43 (within the worker's resources), C52 (the layout and the
GPUs the executor passes on).
-/
namespace Verif.Mpi
open Verif.Res

/-- A supplied value (0 counts as omitted) is honoured. -/
def Honours (asked : Option Int) (v : Int) : Prop := ∀ a, asked = some a → a ≠ 0 → v = a

theorem honours_iff {x : Option Int} {v : Int} : Honours x v ↔ ∀ a, given x = some a → v = a := by
  constructor
  · intro h a ha; obtain ⟨h1, h2⟩ := given_some.mp ha; exact h a h1 h2
  · intro h a h1 h2; exact h a (given_some.mpr ⟨h1, h2⟩)

/-- A layout is consistent with a request. -/
structure Fits (np nn ppn : Option Int) (l : Layout) : Prop where
  product : l.procs = l.nodes * l.ppn
  procs : Honours np l.procs
  nodes : Honours nn l.nodes
  ppn : Honours ppn l.ppn

/-- Is a value supplied (and not zero)? -/
def Supplied (x : Option Int) : Prop := ∃ a, x = some a ∧ a ≠ 0

theorem supplied_iff {x : Option Int} : Supplied x ↔ ∃ a, given x = some a := by
  constructor
  · rintro ⟨a, h⟩; exact ⟨a, given_some.mpr h⟩
  · rintro ⟨a, h⟩; exact ⟨a, given_some.mp h⟩

/-! ## C42 -/

/-- Full statement: an accepted layout satisfies procs = nodes · procs per node and honours every supplied value, for all
integers and every subset of arguments.  Proved with one exception: a supplied 0 counts as omitted
(`C42_zero_witness`). -/
theorem C42_honours_partial {np nn ppn : Option Int} {l : Layout} (h : partition np nn ppn = .ok l) : Fits np nn ppn l := by
  obtain ⟨h1, h2, h3, h4⟩ := partition_ok h
  exact ⟨h1, honours_iff.mpr h2, honours_iff.mpr h3, honours_iff.mpr h4⟩

/-- A request is accepted exactly if it determines a layout (the number of processes, or nodes and processes per node) and
some layout fits; so inconsistent requests are refused. -/
theorem C42_accepted_iff (np nn ppn : Option Int) :
    (∃ l, partition np nn ppn = .ok l) ↔ (Supplied np ∨ (Supplied nn ∧ Supplied ppn)) ∧ ∃ l, Fits np nn ppn l := by
  constructor
  · rintro ⟨l, h⟩
    refine ⟨?_, l, C42_honours_partial h⟩
    simp only [supplied_iff]
    unfold partition at h
    split at h
    · rename_i b c h1 h2 h3; exact .inr ⟨⟨b, h2⟩, ⟨c, h3⟩⟩
    · cases h
    all_goals rename_i a _ _; exact .inl ⟨_, by assumption⟩
  · rintro ⟨hs, l, hf⟩
    simp only [supplied_iff] at hs
    have h2 := honours_iff.mp hf.procs
    have h3 := honours_iff.mp hf.nodes
    have h4 := honours_iff.mp hf.ppn
    have h1 := hf.product
    unfold partition
    cases ha : given np with
    | none =>
      cases hb : given nn with
      | none => simp [ha, hb] at hs
      | some b =>
        cases hc : given ppn with
        | none => simp [ha, hc] at hs
        | some c => exact ⟨⟨b * c, b, c⟩, by simp [checked]⟩
    | some a =>
      have ha0 := (given_some.mp ha).2
      have e1 := h2 a ha
      cases hb : given nn with
      | none =>
        cases hc : given ppn with
        | none => exact ⟨⟨a, 1, a⟩, by simp [checked, Int.fdiv_self ha0]⟩
        | some c =>
          have hc0 := (given_some.mp hc).2
          have e2 := h4 c hc
          have e3 : a.fdiv c = l.nodes := by rw [← e1, h1, e2]; exact Int.mul_fdiv_cancel _ hc0
          exact ⟨⟨a, l.nodes, c⟩, by simp only [checked, Option.getD_some, e3]; rw [if_pos (by rw [← e1, h1, e2])]⟩
      | some b =>
        have hb0 := (given_some.mp hb).2
        have e2 := h3 b hb
        cases hc : given ppn with
        | none =>
          have e3 : a.fdiv b = l.ppn := by rw [← e1, h1, e2]; exact Int.mul_fdiv_cancel_left _ hb0
          exact ⟨⟨a, b, l.ppn⟩, by simp only [checked, e3]; rw [if_pos (by rw [← e1, h1, e2])]⟩
        | some c =>
          have e4 := h4 c hc
          exact ⟨⟨a, b, c⟩, by simp only [checked]; rw [if_pos (by rw [← e1, h1, e2, e4])]⟩

/-- Only the number of processes: all on one node. -/
theorem C42_default {a : Int} (h : a ≠ 0) : partition (some a) none none = .ok ⟨a, 1, a⟩ := by
  have e : given (some a) = some a := given_some.mpr ⟨rfl, h⟩
  have e' : given none = none := rfl
  simp only [partition, e, e', Option.getD_none, checked, Int.fdiv_self h, Int.one_mul, if_true]

/-- With a machinefile nothing is checked or used. -/
theorem C42_machinefile (np nn ppn : Option Int) : taskPartition np nn ppn true = .ok none := rfl

example : partition (some 8) none (some 4) = .ok ⟨8, 2, 4⟩ ∧ partition none (some 3) (some 5) = .ok ⟨15, 3, 5⟩ ∧
    partition (some 8) (some 3) none = .error .unequal ∧ partition (some 5) none (some 10) = .error .unequal ∧
    partition none (some 3) none = .error .needMore := by decide

/-- A supplied zero is not honoured: 0 processes on 2 nodes with 3 each are accepted as 6. -/
theorem C42_zero_witness : partition (some 0) (some 2) (some 3) = .ok ⟨6, 2, 3⟩ := by decide

/-! ## C43 -/

/-- An accepted layout fits the request, never uses more nodes than the worker has and, when the bounds are enforced, never
more processes per node than the cores of the worker's resource sets on a node (nor than the cores of the node), nor more
processes than the cores of its nodes. -/
theorem C43_bounds {w : Avail} {np nn ppn : Option Int} {l : Layout} (h : getResources w np nn ppn = .ok l) :
    Fits np nn ppn l ∧ l.nodes ≤ w.nodes ∧
    ∃ s, w.slotCount = some s ∧ (w.enforce = true → l.ppn ≤ (w.cores / w.rsets * s : Nat) ∧ l.ppn ≤ w.cores ∧ l.procs ≤ w.cores * w.nodes) := by
  obtain ⟨s, _, hs, np', nn', ppn', hf, hp, hb⟩ := getResources_ok h
  obtain ⟨f1, f2, f3, _⟩ := fill_ok hf
  obtain ⟨p1, p2, p3, p4⟩ := partition_ok hp
  obtain ⟨_, b1, b2⟩ := bounds_ok hb
  subst f1
  refine ⟨⟨p1, honours_iff.mpr p2, honours_iff.mpr (fun b hb => p3 b (f2 b hb)), honours_iff.mpr (fun c hc => p4 c (f3 c hc))⟩, b1, s, hs, ?_⟩
  intro he
  obtain ⟨k1, k2, k3⟩ := b2 he
  exact ⟨k2, k1, k3⟩

/-- Requests beyond the resources are refused: too many nodes always; too many processes per node, or in all, when the
bounds are enforced. -/
theorem C43_refused (w : Avail) (np nn ppn : Option Int) :
    ((∃ b, nn = some b ∧ b > w.nodes) → ∃ e, getResources w np nn ppn = .error e) ∧
    (w.enforce = true → (∃ c, ppn = some c ∧ c > 0 ∧ ∀ s, w.slotCount = some s → c > (w.cores / w.rsets * s : Nat)) →
      ∃ e, getResources w np nn ppn = .error e) ∧
    (w.enforce = true → (∃ a, np = some a ∧ a > w.cores * w.nodes) → ∃ e, getResources w np nn ppn = .error e) := by
  cases hg : getResources w np nn ppn with
  | error e => exact ⟨fun _ => ⟨e, rfl⟩, fun _ _ => ⟨e, rfl⟩, fun _ _ => ⟨e, rfl⟩⟩
  | ok l =>
    obtain ⟨hf, h1, s, hs, h2⟩ := C43_bounds hg
    refine ⟨?_, ?_, ?_⟩
    · rintro ⟨b, hb, hgt⟩
      have := hf.nodes b hb (by omega)
      omega
    · rintro he ⟨c, hc, hpos, hall⟩
      have := hf.ppn c hc (by omega)
      have h3 := hall s hs
      have h4 := (h2 he).1
      omega
    · rintro he ⟨a, ha, hgt⟩
      have hnn : (0 : Int) ≤ (w.cores : Int) * w.nodes := Int.mul_nonneg (by omega) (by omega)
      have := hf.procs a ha (by omega)
      have h4 := (h2 he).2.2
      omega

/-- Without numbers of processes in the request the layout has one process for each core of the worker on each node, also
when the bounds are not enforced. -/
theorem C43_default_within {w : Avail} {nn : Option Int} {l : Layout} (h : getResources w none nn none = .ok l) :
    ∃ s, w.slotCount = some s ∧ l.ppn = (w.cores / w.rsets * s : Nat) ∧ 0 < l.ppn := by
  obtain ⟨s, _, hs, np', nn', ppn', hf, hp, _⟩ := getResources_ok h
  obtain ⟨_, _, _, f4⟩ := fill_ok hf
  obtain ⟨g1, g2⟩ := f4 rfl rfl
  obtain ⟨_, _, _, p4⟩ := partition_ok hp
  have e : given ppn' = some (w.coresPer s : Int) := given_some.mpr ⟨g2, by omega⟩
  have := p4 _ e
  exact ⟨s, hs, this, by omega⟩

/-- Nothing requested: all nodes, all cores of the worker. -/
theorem C43_nothing_requested {w : Avail} {s : Nat} (hn : w.nodes ≠ 0) (hs : w.slotCount = some s) (hc : w.cores / w.rsets * s ≠ 0)
    (hle : w.cores / w.rsets * s ≤ w.cores) :
    getResources w none none none = .ok ⟨(w.nodes * (w.cores / w.rsets * s) : Nat), w.nodes, (w.cores / w.rsets * s : Nat)⟩ := by
  have e1 : given (some ((w.nodes : Nat) : Int)) = some ((w.nodes : Nat) : Int) := given_some.mpr ⟨rfl, by omega⟩
  have e2 : given (some ((w.cores / w.rsets * s : Nat) : Int)) = some ((w.cores / w.rsets * s : Nat) : Int) := given_some.mpr ⟨rfl, by omega⟩
  have e3 : given none = none := rfl
  have hfill : fill w (w.coresPer s) none none none = .ok (none, some (w.nodes : Int), some ((w.cores / w.rsets * s : Nat) : Int)) := by
    simp only [fill, e3]
    exact if_pos (Nat.pos_of_ne_zero hc)
  unfold getResources
  rw [if_neg hn, hs]
  simp only [hfill, partition, e1, e2, e3, checked, if_true]
  unfold bounds
  have hmul : (w.nodes : Int) * ((w.cores / w.rsets * s : Nat) : Int) ≤ (w.cores : Int) * w.nodes := by
    rw [Int.mul_comm]
    exact Int.mul_le_mul_of_nonneg_right (by omega) (by omega)
  rw [if_neg (by simp), if_neg (by simp only; omega), if_neg (by simp [Avail.coresPer]), if_neg (by simp only; omega)]
  simp

/-- A worker without nodes, and one with uneven slots, is refused. -/
theorem C43_no_resources (w : Avail) (np nn ppn : Option Int) :
    (w.nodes = 0 → getResources w np nn ppn = .error .noNodes) ∧
    (w.nodes ≠ 0 → w.slotCount = none → getResources w np nn ppn = .error .noneSlots) := by
  unfold getResources
  refine ⟨fun h => by rw [if_pos h], fun h h' => by rw [if_neg h, h']⟩

/-- The host list names exactly as many nodes as the layout has, all of them nodes of the worker, none twice; and the
machine file has a line for each process, as many for each of these nodes as the layout says. -/
theorem C43_hosts {α} [DecidableEq α] {split : List (List α)} {team : List Nat} {l : Layout} {np nn ppn : Option Int}
    (hf : Fits np nn ppn l) (h0 : 0 ≤ l.nodes) (hp : 0 ≤ l.ppn) (h1 : l.nodes ≤ (localNodes split team).length) :
    ((hosts (localNodes split team) l).length : Int) = l.nodes ∧ (hosts (localNodes split team) l).Nodup ∧
    (∀ x ∈ hosts (localNodes split team) l, ∃ i ∈ team, ∃ nd, split[i]? = some nd ∧ x ∈ nd) ∧
    (∀ x ∈ hosts (localNodes split team) l, ((machinefile (localNodes split team) l).count x : Int) = l.ppn) ∧
    ((machinefile (localNodes split team) l).length : Int) = l.procs := by
  have hnod : (hosts (localNodes split team) l).Nodup := by
    unfold hosts upto
    rw [if_neg (by omega)]
    exact (firsts_nodup _).sublist (List.take_sublist _ _)
  have hlen : ((hosts (localNodes split team) l).length : Int) = l.nodes := by
    unfold hosts upto
    rw [if_neg (by omega), List.length_take]
    omega
  refine ⟨hlen, hnod, ?_, ?_, ?_⟩
  · intro x hx
    unfold hosts upto at hx
    rw [if_neg (by omega)] at hx
    exact mem_localNodes.mp (List.mem_of_mem_take hx)
  · intro x hx
    have key : ∀ hs : List α, hs.Nodup → x ∈ hs → (hs.flatMap (fun x => List.replicate l.ppn.toNat x)).count x = l.ppn.toNat := by
      intro hs
      induction hs with
      | nil => intro _ h; cases h
      | cons y ys ih =>
        intro hn hm
        rw [List.nodup_cons] at hn
        rw [List.flatMap_cons, List.count_append, List.count_replicate]
        by_cases hy : y = x
        · subst hy
          have : (ys.flatMap (fun x => List.replicate l.ppn.toNat x)).count y = 0 := by
            rw [List.count_eq_zero]
            intro hc
            obtain ⟨z, hz, hz'⟩ := List.mem_flatMap.mp hc
            rw [List.eq_of_mem_replicate hz'] at hn
            exact hn.1 hz
          simp [this]
        · rcases List.mem_cons.mp hm with e | hm
          · exact absurd e.symm hy
          · rw [ih hn.2 hm]; simp [hy]
    have := key _ hnod hx
    unfold machinefile
    unfold hosts at this
    rw [this]
    omega
  · have key : ∀ hs : List α, ((hs.flatMap (fun x => List.replicate l.ppn.toNat x)).length) = hs.length * l.ppn.toNat := by
      intro hs
      induction hs with
      | nil => simp
      | cons y ys ih => rw [List.flatMap_cons, List.length_append, ih, List.length_replicate, List.length_cons, Nat.succ_mul]; omega
    unfold machinefile
    rw [key]
    unfold hosts at hlen
    rw [hf.product, Int.natCast_mul, hlen, Int.toNat_of_nonneg hp]

/-- A task launched by a worker with a team of resource sets. -/
structure Job where
  team : List Nat
  np : Option Int
  nn : Option Int
  ppn : Option Int
  layout : Layout

theorem sum_jobs {jobs : List Job} {u : Nat → Bool} (P : Job → Bool) (C : Nat)
    (h : ∀ j ∈ jobs, P j = true → j.layout.ppn ≤ (C * (j.team.filter u).length : Nat)) :
    ((jobs.filter P).map (fun j => j.layout.ppn)).sum ≤ (C * ((jobs.flatMap (fun j => j.team)).filter u).length : Nat) := by
  induction jobs with
  | nil => simp
  | cons j js ih =>
    have ih := ih (fun k hk => h k (List.mem_cons_of_mem _ hk))
    rw [List.flatMap_cons, List.filter_append, List.length_append, Nat.mul_add, List.filter_cons]
    split
    · rename_i hp
      have := h j List.mem_cons_self hp
      rw [List.map_cons, List.sum_cons]
      omega
    · omega

/-- When the bounds are enforced, the tasks of workers with disjoint teams never have more processes on a node than the node
has cores. -/
theorem C43_node_total {α} [DecidableEq α] (m : Machine α) (hnd : m.nodes.Nodup) (he : m.enforce = true) (hyper : Bool)
    {split : List (List α)} {loc : List Nat} (hs : splitList m.nrsets m.nodes = some (split, loc)) (jobs : List Job)
    (hd : (jobs.flatMap (fun j => j.team)).Nodup)
    (hj : ∀ j ∈ jobs, ∃ w, availOf m j.team hyper = some w ∧ getResources w j.np j.nn j.ppn = .ok j.layout) (x : α) :
    ((jobs.filter (fun j => decide (x ∈ hosts (localNodes split j.team) j.layout))).map (fun j => j.layout.ppn)).sum
      ≤ ((if hyper then m.logical else m.phys : Nat) : Int) := by
  obtain ⟨hsn, hcount⟩ := uses_count hnd hs
  generalize hcores : (if hyper then m.logical else m.phys : Nat) = cores
  let K := ((List.range split.length).filter (uses split x)).length
  have hmem : ∀ (l : Layout) (team : List Nat), x ∈ hosts (localNodes split team) l → x ∈ localNodes split team := by
    intro l team hx
    unfold hosts upto at hx
    split at hx <;> exact List.mem_of_mem_take hx
  have h1 := sum_jobs (jobs := jobs) (u := uses split x) (fun j => decide (x ∈ hosts (localNodes split j.team) j.layout)) (cores / K) (by
    intro j hjm hp
    simp only [decide_eq_true_eq] at hp
    obtain ⟨w, hw, hok⟩ := hj j hjm
    obtain ⟨_, _, s, hsc, hb⟩ := C43_bounds hok
    unfold availOf at hw
    rw [hs] at hw
    simp only [Option.some.injEq] at hw
    subst hw
    have hx := hmem _ _ hp
    have hl := slotCount_some hsc hx
    rw [slotsOn_length _ _ _ hsn] at hl
    obtain ⟨i, hi, nd, hnd', hxn⟩ := mem_localNodes.mp hx
    have hu : uses split x i = true := uses_iff.mpr ⟨nd, hnd', hxn⟩
    obtain ⟨k, hk, hle⟩ := hcount i x hu
    have hmax := maxRsets_ge hi hk
    have hb1 := (hb he).1
    simp only [hcores] at hb1
    have hK : 0 < K := by
      apply List.length_pos_iff.mpr
      intro e
      have : i ∈ (List.range split.length).filter (uses split x) :=
        List.mem_filter.mpr ⟨List.mem_range.mpr (List.getElem?_eq_some_iff.mp hnd').1, hu⟩
      rw [e] at this
      cases this
    have hdiv : cores / maxRsets loc j.team ≤ cores / K := Nat.div_le_div_left (Nat.le_trans hle hmax) hK
    have := Nat.mul_le_mul_right s hdiv
    rw [hl]
    omega)
  have h2 : ((jobs.flatMap (fun j => j.team)).filter (uses split x)).length ≤ K := by
    apply length_le_of_nodup_subset (hd.filter _)
    intro i hi
    obtain ⟨_, hu⟩ := List.mem_filter.mp hi
    obtain ⟨nd, hnd', _⟩ := uses_iff.mp hu
    exact List.mem_filter.mpr ⟨List.mem_range.mpr (List.getElem?_eq_some_iff.mp hnd').1, hu⟩
  have h3 := Nat.mul_le_mul_left (cores / K) h2
  have h4 := Nat.div_mul_le_self cores K
  omega

/-- Two nodes with 8 cores, 5 resource sets; one worker has sets 0 and 1, another set 4 and asks for 4 processes. -/
def demoM : Machine String := { nodes := ["a", "b"], nrsets := 5, phys := 8, logical := 16, gpn := 0, gpg := none, enforce := true }

example : (availOf demoM [0, 1] false).map (fun w => getResources w none none none) = some (.ok ⟨4, 1, 4⟩) ∧
    (availOf demoM [4] false).map (fun w => getResources w (some 4) none none) = some (.ok ⟨4, 1, 4⟩) ∧
    (availOf demoM [4] false).map (fun w => getResources w (some 5) none none) = some (.error .workerCores) ∧
    (availOf demoM [0, 3] false).map (fun w => getResources w none none none) = some (.ok ⟨4, 2, 2⟩) ∧
    (availOf demoM [0, 1, 3] false).map (fun w => getResources w none none none) = some (.error .noneSlots) := by decide

/-- Negative numbers whose product fits are accepted. -/
theorem C43_negative_witness : (availOf demoM [0, 1] false).map (fun w => getResources w (some 4) (some (-2)) (some (-2))) =
    some (.ok ⟨4, -2, -2⟩) := by decide

/-- A request that would fit is refused when the processes do not divide over all nodes (5 processes on 2 nodes with 4 cores
each). -/
theorem C43_refused_witness : (availOf { demoM with nrsets := 4 } [0, 2] false).map (fun w => getResources w (some 5) none none) = some (.error .unequal) := by decide

/-! ## C52: what the executor passes on -/

/-- The next multiple of `b`, or the number itself. -/
def RoundedUp (b u v : Int) : Prop := v = u ∨ (b ≠ 0 ∧ ¬ b ∣ u ∧ v = u + (b - u.fmod b) ∧ b ∣ v)

theorem adjust_ok {w : Avail} {nn units r : Option Int} {per : Nat} (h : adjust w nn units per = .ok r) :
    (units = none → r = none) ∧ ∀ u, units = some u → ∃ v, r = some v ∧ (v = u ∨ ∃ b, nn = some b ∧ RoundedUp b u v) := by
  unfold adjust at h
  split at h
  · rename_i u b hb
    have hb0 := (given_some.mp hb)
    refine ⟨by simp, ?_⟩
    intro u' hu'
    cases hu'
    split at h
    · cases h; exact ⟨u, rfl, .inl rfl⟩
    · rename_i hm
      split at h
      · cases h
      · cases h
        split
        · refine ⟨_, rfl, .inr ⟨b, hb0.1, .inr ⟨hb0.2, fun hd => hm (Int.fmod_eq_zero_of_dvd hd), rfl, ?_⟩⟩⟩
          have e := Int.mul_fdiv_add_fmod u b
          refine ⟨u.fdiv b + 1, ?_⟩
          rw [Int.mul_add, Int.mul_one]
          omega
        · exact ⟨u, rfl, .inl rfl⟩
  · cases h
    exact ⟨fun h => h, fun u hu => ⟨u, hu, .inl rfl⟩⟩

theorem minNodes_ok {res : Option Avail} {np ppn nn ng r : Option Int} (h : minNodes res np ppn nn ng = .ok r) :
    (∀ b, nn = some b → r = some b) ∧
    ∀ w, res = some w → w.nodes ≠ 0 → nn = none → (∀ a, given np = some a → 0 < a) → ∀ b, r = some b → given np ≠ none → 0 < b := by
  unfold minNodes at h
  split at h
  · rename_i b
    cases h
    exact ⟨fun b' hb => by cases hb; rfl, fun _ _ _ hn => by cases hn⟩
  · refine ⟨fun b hb => (by cases hb), ?_⟩
    intro w hw hnz _ hpos b hb hgiv
    subst hw
    split at h
    · cases h; cases hb
    · simp only at h
      split at h
      · cases h
      · rename_i s hs
        split at h
        · cases h; cases hb
        split at h
        · cases h
        split at h
        · cases h
        rename_i h1 h2 h3
        cases h
        simp only [Option.some.injEq] at hb
        cases hn : given np with
        | none => exact absurd hn hgiv
        | some a =>
          have ha := hpos a hn
          simp only [hn] at hb h2
          have hz : s * w.procsPer ≠ 0 := by
            intro e; exact h2 ⟨by simp, e⟩
          have h1p : 1 ≤ (a + (s * w.procsPer : Nat) - 1).fdiv (s * w.procsPer : Nat) := by
            rw [Int.fdiv_eq_ediv_of_nonneg _ (by omega)]
            apply Int.le_ediv_of_mul_le (by omega)
            omega
          omega

theorem gpusAvail_ok {w : Avail} {v : Int} (h : gpusAvail w = .ok v) :
    0 ≤ v ∧ (w.gpus = false → v = 0) ∧ (w.gpus = true → ∃ s, w.slotCount = some s ∧ v = (s * w.gpusPer : Nat)) := by
  unfold gpusAvail at h
  split at h
  · rename_i hg
    split at h
    · cases h
    · rename_i s hs
      cases h
      exact ⟨by omega, by simp [hg], fun _ => ⟨s, hs, rfl⟩⟩
  · rename_i hg
    cases h
    exact ⟨by omega, fun _ => rfl, fun h => absurd h hg⟩

theorem gpusGranted_ok {avail b g : Int} {ng : Option Int} (h : gpusGranted avail ng b = .ok g) : g ≤ avail := by
  unfold gpusGranted at h
  split at h
  · cases h; exact Int.le_refl _
  · split at h
    · cases h
    · cases h; omega

theorem assignGpus_ok {w : Avail} {st : Setting} {np nn ppn ng np' nn' ppn' v : Option Int} {mat : Bool} {g : Int}
    (h : assignGpus w st np nn ppn ng mat = .ok (np', nn', ppn', g, v)) :
    (mat = false → np' = np ∧ (∀ c, ppn = some c → ppn' = some c)) ∧ (∀ b, nn = some b → nn' = some b) ∧
    (∃ a, gpusAvail w = .ok a ∧ g ≤ a) ∧ (mat = true → ∃ b, nn' = some b ∧ ppn' = some g ∧ np' = some (b * g) ∧ 0 < b * g) := by
  unfold assignGpus at h
  split at h
  · cases h
  rename_i avail hav
  simp only at h
  split at h
  · cases h
  rename_i g' hg
  have hle := gpusGranted_ok hg
  have hb : ∀ b, nn = some b → gpuNodes w np nn ppn = b := by
    intro b hb; subst hb; rfl
  generalize gpuNodes w np nn ppn = B at *
  split at h
  · cases h
  rename_i hm
  have hmat : mat = true → 0 < B * g' := by
    intro e
    apply Decidable.byContradiction
    intro hn
    exact hm ⟨e, hn⟩
  split at h
  · cases h
    refine ⟨?_, fun b hb' => by rw [hb b hb'], ⟨avail, hav, hle⟩, ?_⟩
    · intro e; subst e; exact ⟨rfl, fun c hc => hc⟩
    · intro e; subst e; exact ⟨B, rfl, rfl, rfl, hmat rfl⟩
  · split at h
    · rename_i c hc
      split at h
      · cases h
      · cases h
        refine ⟨?_, fun b hb' => by rw [hb b hb'], ⟨avail, hav, hle⟩, ?_⟩
        · intro e; subst e; simp at hc; exact ⟨rfl, fun c' hc' => by rw [← hc']; exact hc.symm⟩
        · intro e; subst e; simp at hc; exact ⟨B, rfl, by rw [hc], rfl, hmat rfl⟩
    · rename_i a hc ha
      split at h
      · cases h
      split at h
      · cases h
      · cases h
        refine ⟨?_, fun b hb' => by rw [hb b hb'], ⟨avail, hav, hle⟩, ?_⟩
        · intro e; subst e; simp at hc; exact ⟨rfl, fun c' hc' => by rw [hc] at hc'; cases hc'⟩
        · intro e; subst e; simp at hc
    · cases h

theorem prepare_ok {w : Avail} {st : Setting} {np nn ppn ng np' nn' ppn' g v : Option Int} {auto mat : Bool}
    (h : prepare (some w) st np nn ppn ng auto mat = .ok (np', nn', ppn', g, v)) :
    ∃ nn1 np1, minNodes (some w) np ppn nn ng = .ok nn1 ∧ adjust w nn1 np w.procsPer = .ok np1 ∧ (∀ b, nn1 = some b → nn' = some b) ∧
      (given np ≠ none ∨ given ppn ≠ none → np' = np1 ∧ ∀ c, ppn = some c → ppn' = some c) ∧
      (∀ x, g = some x → ∃ a, gpusAvail w = .ok a ∧ x ≤ a) := by
  unfold prepare at h
  split at h
  · cases h
  rename_i hmat
  split at h
  · cases h
  rename_i nn1 hmin
  split at h
  · cases h
  rename_i ng1 hng
  split at h
  · cases h
  rename_i np1 hnp
  refine ⟨nn1, np1, hmin, hnp, ?_⟩
  split at h
  · simp only at h
    split at h
    · cases h
    · rename_i np2 nn2 ppn2 g2 v2 ha
      cases h
      obtain ⟨k1, k2, k3, _⟩ := assignGpus_ok ha
      refine ⟨k2, ?_, ?_⟩
      · intro hor
        apply k1
        have hm : mat = false := by
          cases mat with
          | false => rfl
          | true => exact absurd ⟨rfl, hor⟩ hmat
        rw [hm]
        rcases hor with h | h
        · simp [h]
        · simp [h]
      · intro x hx; cases hx; exact k3
  · cases h
    exact ⟨fun b hb => hb, fun _ => ⟨rfl, fun c hc => hc⟩, fun x hx => (by cases hx)⟩

/-- The layout passed on is consistent, honours the numbers of nodes and of processes per node, stays within the worker's
resources, and has the requested number of processes or, if these do not divide over the nodes, the next number that
does. -/
theorem C52_layout {w : Avail} {st : Setting} {np nn ppn ng : Option Int} {auto mat : Bool} {sp : Specs}
    (h : mpiSpecs (some w) st np nn ppn ng false auto mat = .ok sp) (hnp : ∀ a, np = some a → 0 ≤ a) (hnn : ∀ b, nn = some b → 0 ≤ b) :
    ∃ l, sp.layout = some l ∧ l.procs = l.nodes * l.ppn ∧ Honours nn l.nodes ∧ Honours ppn l.ppn ∧
      (∀ a, np = some a → a ≠ 0 → RoundedUp l.nodes a l.procs) ∧ l.nodes ≤ w.nodes ∧
      (w.enforce = true → ∃ s, w.slotCount = some s ∧ l.ppn ≤ (w.cores / w.rsets * s : Nat)) := by
  unfold mpiSpecs at h
  split at h
  · cases h
  rename_i np' nn' ppn' g v hprep
  simp only at h
  split at h
  · cases h
  rename_i l hl
  cases h
  obtain ⟨nn1, np1, hmin, hadj, hnn', hnp', _⟩ := prepare_ok hprep
  obtain ⟨hf, hb, s, hs, he⟩ := C43_bounds hl
  have hwn : w.nodes ≠ 0 := by obtain ⟨_, h0, _⟩ := getResources_ok hl; exact h0
  obtain ⟨m1, m2⟩ := minNodes_ok hmin
  refine ⟨l, rfl, hf.product, ?_, ?_, ?_, hb, fun h => ⟨s, hs, (he h).1⟩⟩
  · intro b hb hb0
    exact hf.nodes b (hnn' b (m1 b hb)) hb0
  · intro c hc hc0
    exact hf.ppn c ((hnp' (.inr (by rw [given_some.mpr ⟨hc, hc0⟩]; simp))).2 c hc) hc0
  · intro a ha ha0
    have hg : given np = some a := given_some.mpr ⟨ha, ha0⟩
    have hapos : 0 < a := by have := hnp a ha; omega
    have e1 := (hnp' (.inl (by rw [hg]; simp))).1
    obtain ⟨v', hv, hr⟩ := (adjust_ok hadj).2 a ha
    rcases hr with rfl | ⟨b, hb1, hr⟩
    · exact .inl (hf.procs v' (by rw [e1, hv]) (by omega))
    · rcases hr with rfl | ⟨hb0, hnd, hveq, hdvd⟩
      · exact .inl (hf.procs v' (by rw [e1, hv]) (by omega))
      · have hbpos : 0 < b := by
          cases hn : nn with
          | some b' =>
            have := m1 b' hn
            rw [hb1] at this
            cases this
            have := hnn b hn
            omega
          | none =>
            refine m2 w rfl hwn hn ?_ b hb1 (by rw [hg]; simp)
            intro a' ha'
            rw [hg] at ha'; cases ha'; exact hapos
        have hlt := Int.fmod_lt_of_pos a hbpos
        have hp : l.procs = v' := hf.procs v' (by rw [e1, hv]) (by omega)
        have hn : l.nodes = b := hf.nodes b (hnn' b hb1) hb0
        rw [hp, hn]
        exact .inr ⟨hb0, hnd, hveq, hdvd⟩

/-- The GPUs per node never exceed those of the worker's resource sets on a node. -/
theorem C52_gpus {w : Avail} {st : Setting} {np nn ppn ng : Option Int} {mf auto mat : Bool} {sp : Specs} {g : Int}
    (h : mpiSpecs (some w) st np nn ppn ng mf auto mat = .ok sp) (hg : sp.gpusPerNode = some g) :
    (w.gpus = true → ∃ s, w.slotCount = some s ∧ g ≤ (s * w.gpusPer : Nat)) ∧ (w.gpus = false → g ≤ 0) := by
  have key : ∃ np' nn' ppn' g' v, prepare (some w) st np nn ppn ng auto mat = .ok (np', nn', ppn', g', v) ∧ sp.gpusPerNode = g' := by
    unfold mpiSpecs at h
    split at h
    · cases h
    rename_i np' nn' ppn' g' v hprep
    refine ⟨np', nn', ppn', g', v, hprep, ?_⟩
    cases mf
    · simp only at h
      split at h
      · cases h
      · cases h; rfl
    · simp only at h
      split at h
      · cases h
      · cases h; rfl
  obtain ⟨_, _, _, g', _, hp, he⟩ := key
  obtain ⟨_, _, _, _, _, _, k⟩ := prepare_ok hp
  obtain ⟨a, ha, hle⟩ := k g (by rw [← he]; exact hg)
  obtain ⟨k1, k2, k3⟩ := gpusAvail_ok ha
  refine ⟨?_, ?_⟩
  · intro e
    obtain ⟨s, hs, e'⟩ := k3 e
    exact ⟨s, hs, by omega⟩
  · intro e
    have := k2 e
    omega

/-- A user's machine file switches all checks off: any numbers are accepted and ignored. -/
theorem C52_machinefile_witness (w : Avail) :
    mpiSpecs (some w) .env none (some 1000) (some 1000) none true false false = .ok ⟨none, none, none⟩ := by
  simp [mpiSpecs, prepare, minNodes, adjust', adjust, given, taskPartition]

/-- Asking for GPUs on a worker without GPUs is a ZeroDivisionError. -/
theorem C52_no_gpus_witness : (availOf demoM [0, 1] false).map (fun w => mpiSpecs (some w) .env (some 2) none none (some 1) false false false) =
    some (.error .zeroDivision) := by decide

/-- Two nodes with 8 cores and 4 GPUs, 4 resource sets, a worker with one set on each node. -/
def gpuM : Machine String := { nodes := ["a", "b"], nrsets := 4, phys := 8, logical := 16, gpn := 4, gpg := none, enforce := true }

/-- Five processes on two nodes become six; one process for each GPU; with more GPUs asked for than there are, those there
are. -/
example : (availOf gpuM [0, 2] false).map (fun w => mpiSpecs (some w) .env (some 5) none none none false false false) =
      some (.ok ⟨some ⟨6, 2, 3⟩, none, none⟩) ∧
    (availOf gpuM [0, 2] false).map (fun w => mpiSpecs (some w) .env none none none none false true false) =
      some (.ok ⟨some ⟨4, 2, 2⟩, some 2, some 2⟩) ∧
    (availOf gpuM [0, 2] false).map (fun w => mpiSpecs (some w) .perTask (some 2) none none (some 7) false false false) =
      some (.ok ⟨some ⟨2, 2, 1⟩, some 2, some 2⟩) := by decide

end Verif.Mpi
