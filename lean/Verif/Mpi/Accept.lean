import Verif.Mpi.Props
/-!
C43 and C52, the other direction: requests within the worker's resources are accepted, with which layout, and what the
setting for the GPUs is.
-/
namespace Verif.Mpi
open Verif.Res

/-- A layout that the resources of a worker with `s` slots on each node allow. -/
structure Room (w : Avail) (s : Nat) (l : Layout) : Prop where
  product : l.procs = l.nodes * l.ppn
  ppnPos : 0 < l.ppn
  nodesPos : 0 < l.nodes
  nodes : l.nodes ≤ w.nodes
  ppn : w.enforce = true → l.ppn ≤ (w.cores / w.rsets * s : Nat) ∧ l.ppn ≤ w.cores

theorem bounds_room {w : Avail} {s : Nat} {l : Layout} (h : Room w s l) : bounds w (w.coresPer s) l = .ok l := by
  unfold bounds Avail.coresPer
  rw [if_neg (by have := h.nodes; omega)]
  rw [if_neg (by rintro ⟨he, hn⟩; exact hn (h.ppn he).2), if_neg (by rintro ⟨he, hn⟩; exact hn (h.ppn he).1)]
  rw [if_neg]
  rintro ⟨he, hn⟩
  apply hn
  rw [h.product, Int.mul_comm]
  exact Int.mul_le_mul (h.ppn he).2 h.nodes (by have := h.nodesPos; omega) (by omega)

theorem given_pos {a : Int} (h : 0 < a) : given (some a) = some a := given_some.mpr ⟨rfl, by omega⟩

/-- A layout within the resources is accepted as it is when it is asked for with two or three of its numbers, and when it
is asked for by the number of processes per node on all nodes, or by the number of processes on one node (if they have room
there) or on all nodes (if they do not fit on one). -/
theorem C43_accepts {w : Avail} {s : Nat} {l : Layout} (hs : w.slotCount = some s) (h : Room w s l) :
    getResources w (some l.procs) (some l.nodes) (some l.ppn) = .ok l ∧
    getResources w none (some l.nodes) (some l.ppn) = .ok l ∧
    getResources w (some l.procs) none (some l.ppn) = .ok l ∧
    getResources w (some l.procs) (some l.nodes) none = .ok l ∧
    (l.nodes = w.nodes → getResources w none none (some l.ppn) = .ok l) ∧
    (l.nodes = 1 → l.procs ≤ (w.cores / w.rsets * s : Nat) → getResources w (some l.procs) none none = .ok l) ∧
    (l.nodes = w.nodes → l.procs > (w.cores / w.rsets * s : Nat) → getResources w (some l.procs) none none = .ok l) := by
  have hn0 : w.nodes ≠ 0 := by have := h.nodes; have := h.nodesPos; omega
  have hb := bounds_room h
  have h1 := h.ppnPos
  have h2 := h.nodesPos
  have h3 := h.product
  have h4 : 0 < l.procs := by rw [h3]; exact Int.mul_pos h2 h1
  have g1 := given_pos h1
  have g2 := given_pos h2
  have g4 := given_pos h4
  have gn : given none = none := rfl
  have gw : given (some (w.nodes : Int)) = some (w.nodes : Int) := given_pos (by omega)
  have d1 : l.procs.fdiv l.ppn = l.nodes := by rw [h3]; exact Int.mul_fdiv_cancel _ (by omega)
  have d2 : l.procs.fdiv l.nodes = l.ppn := by rw [h3]; exact Int.mul_fdiv_cancel_left _ (by omega)
  have hc : checked l.procs l.nodes l.ppn = .ok l := by rw [checked, if_pos h3]
  have hc' : checked (l.nodes * l.ppn) l.nodes l.ppn = .ok l := by rw [← h3, hc]
  refine ⟨?_, ?_, ?_, ?_, ?_, ?_, ?_⟩
  · simp only [getResources, hn0, hs, fill, partition, g1, g2, g4, hc, hb, if_false]
  · simp only [getResources, hn0, hs, fill, partition, g1, g2, gn, hc', hb, if_false]
  · simp only [getResources, hn0, hs, fill, partition, g1, g4, gn, Option.getD_some, d1, hc, hb, if_false]
  · simp only [getResources, hn0, hs, fill, partition, g2, g4, gn, d2, hc, hb, if_false]
  · intro e
    simp only [getResources, hn0, hs, fill, partition, g1, gn, gw, if_false]
    rw [← e, hc']
    exact hb
  · intro e hle
    have hle' : l.procs ≤ (w.coresPer s : Int) := hle
    have go : given (some (1 : Int)) = some 1 := rfl
    simp only [getResources, hn0, hs, fill, partition, g4, gn, hle', if_false, if_true, go]
    rw [← e, d2, hc]
    exact hb
  · intro e hgt
    have hgt' : ¬ l.procs ≤ (w.coresPer s : Int) := by show ¬ l.procs ≤ ((w.cores / w.rsets * s : Nat) : Int); omega
    simp only [getResources, hn0, hs, fill, partition, g4, gn, hgt', gw, if_false]
    rw [← e, d2, hc]
    exact hb

/-- Six processes on two nodes for the worker with one of four sets on each of two nodes with 8 cores. -/
example : ∃ w, availOf gpuM [0, 2] false = some w ∧ Room w 1 ⟨6, 2, 3⟩ ∧ w.slotCount = some 1 :=
  ⟨_, rfl, ⟨by decide, by decide, by decide, by decide, by decide⟩, by decide⟩

/-! ## C52 -/

/-- A request for `a` processes alone, with `q` processes for the slots of a node (`q` within the cores when these are
enforced) and no more than fit: accepted on the smallest number of nodes that has room, with the processes rounded up to a
multiple of the nodes (on no more nodes than processes). -/
theorem C52_accepts {w : Avail} {s : Nat} {st : Setting} {a : Int} (hs : w.slotCount = some s) (ha : 0 < a)
    (hfit : a ≤ (w.nodes * (s * w.procsPer) : Nat))
    (hc : w.enforce = true → s * w.procsPer ≤ w.cores / w.rsets * s ∧ s * w.procsPer ≤ w.cores) :
    ∃ n k, mpiSpecs (some w) st (some a) none none none false false false = .ok ⟨some ⟨n * k, n, k⟩, none, none⟩ ∧
      0 < n ∧ n ≤ a ∧ (n - 1) * (s * w.procsPer : Nat) < a ∧ a ≤ n * (s * w.procsPer : Nat) ∧ a ≤ n * k ∧ n * k < a + n := by
  have hq : 0 < s * w.procsPer := by
    apply Nat.pos_of_ne_zero
    intro e; rw [e] at hfit; simp at hfit; omega
  generalize hqe : s * w.procsPer = q at *
  have hfit' : a ≤ w.nodes * (q : Int) := by simpa using hfit
  have hN : 0 < w.nodes := by
    apply Nat.pos_of_ne_zero
    intro e; rw [e] at hfit'; simp at hfit'; omega
  have hga := given_pos ha
  have gn : given none = none := rfl
  -- the number of nodes
  let n : Int := (a + q - 1).fdiv q
  have hn : n = (a + q - 1) / q := Int.fdiv_eq_ediv_of_nonneg _ (by omega)
  have e1 := Int.mul_ediv_add_emod (a + q - 1) (q : Int)
  have e2 := Int.emod_nonneg (a + q - 1) (show (q : Int) ≠ 0 by omega)
  have e3 := Int.emod_lt_of_pos (a + q - 1) (show (0 : Int) < q by omega)
  rw [← hn, Int.mul_comm] at e1
  have hlo : a ≤ n * q := by omega
  have hhi : (n - 1) * q < a := by rw [Int.sub_mul]; omega
  have hn1 : 0 < n := by
    apply Decidable.byContradiction
    intro hneg
    have : n * q ≤ 0 := Int.mul_nonpos_of_nonpos_of_nonneg (by omega) (by omega)
    omega
  have hnN : n ≤ w.nodes := by
    apply Decidable.byContradiction
    intro hgt
    have : (w.nodes : Int) * q ≤ (n - 1) * q := Int.mul_le_mul_of_nonneg_right (by omega) (by omega)
    omega
  have hna : n ≤ a := by
    have : (n - 1) * 1 ≤ (n - 1) * q := Int.mul_le_mul_of_nonneg_left (by omega) (by omega)
    omega
  have hmin : minNodes (some w) (some a) none none none = .ok (some n) := by
    have h1 : ¬ (given (some a) = none ∧ True) := by rw [hga]; simp
    have h2 : ¬ (given (some a) ≠ none ∧ s * w.procsPer = 0) := by rw [hqe]; omega
    simp only [minNodes, gn, hs, ne_eq, not_true_eq_false, if_false, false_and]
    rw [if_neg h1, if_neg h2]
    simp only [hga, hqe]
    congr 2
    show min (min (max n 1) (w.nodes : Int)) a = n
    omega
  -- rounding
  have hgn := given_pos hn1
  have r0 := Int.mul_fdiv_add_fmod a n
  have r1 := Int.fmod_nonneg_of_pos a hn1
  have r2 := Int.fmod_lt_of_pos a hn1
  obtain ⟨v, k, hv, hvk, hva, hvn⟩ : ∃ v k, adjust w (some n) (some a) w.procsPer = .ok (some v) ∧ v = n * k ∧ a ≤ v ∧ v < a + n := by
    by_cases hm : a.fmod n = 0
    · refine ⟨a, a.fdiv n, ?_, by omega, by omega, by omega⟩
      simp only [adjust, hgn, hm, if_true]
    · refine ⟨a + (n - a.fmod n), a.fdiv n + 1, ?_, by rw [Int.mul_add, Int.mul_one]; omega, by omega, by omega⟩
      simp only [adjust, hgn, hm, if_false, hs]
      rw [if_pos]
      have hqe' : (s : Int) * w.procsPer = q := by rw [← hqe]; simp
      rw [hqe']
      have h5 : a.fdiv n < q := by
        apply Decidable.byContradiction
        intro hge
        have h6 : n * q ≤ n * a.fdiv n := Int.mul_le_mul_of_nonneg_left (by omega) (by omega)
        omega
      have h6 : n * (a.fdiv n + 1) ≤ n * q := Int.mul_le_mul_of_nonneg_left (by omega) (by omega)
      rw [Int.mul_add, Int.mul_one] at h6
      rw [Int.mul_comm (q : Int) n]
      omega
  have hkpos : 0 < k := by
    apply Decidable.byContradiction
    intro hneg
    have : n * k ≤ 0 := Int.mul_nonpos_of_nonneg_of_nonpos (by omega) (by omega)
    omega
  have hkq : k ≤ q := by
    apply Decidable.byContradiction
    intro hgt
    have h7 : n * (q + 1) ≤ n * k := Int.mul_le_mul_of_nonneg_left (by omega) (by omega)
    rw [Int.mul_add, Int.mul_one] at h7
    omega
  have hroom : Room w s ⟨n * k, n, k⟩ := by
    refine ⟨rfl, hkpos, hn1, hnN, ?_⟩
    intro he
    obtain ⟨c1, c2⟩ := hc he
    exact ⟨by show k ≤ _; omega, by show k ≤ _; omega⟩
  have hacc := (C43_accepts hs hroom).2.2.2.1
  refine ⟨n, k, ?_, hn1, hna, hhi, hlo, by omega, by omega⟩
  have hadjn : adjust w (some n) none w.gpusPer = .ok none := rfl
  simp only [mpiSpecs, prepare, hmin, adjust', hadjn, hv, Bool.false_eq_true, false_and, if_false, ne_eq, not_true_eq_false, or_self]
  subst hvk
  simp only at hacc
  rw [hacc]

/-- A request for more processes than the slots are made for is accepted on all nodes if they divide over these and the
cores are not enforced. -/
theorem C52_accepts_over {w : Avail} {s : Nat} {st : Setting} {k : Int} (hs : w.slotCount = some s) (hq : 0 < s * w.procsPer)
    (hN : 0 < w.nodes) (hk : k > (s * w.procsPer : Nat)) (he : w.enforce = false) :
    mpiSpecs (some w) st (some (w.nodes * k)) none none none false false false = .ok ⟨some ⟨w.nodes * k, w.nodes, k⟩, none, none⟩ := by
  generalize hqe : s * w.procsPer = q at *
  have ha : 0 < (w.nodes : Int) * k := Int.mul_pos (by omega) (by omega)
  have hga := given_pos ha
  have gn : given none = none := rfl
  have hgN : given (some (w.nodes : Int)) = some (w.nodes : Int) := given_pos (by omega)
  have hn : (w.nodes : Int) ≤ ((w.nodes : Int) * k + q - 1).fdiv q := by
    rw [Int.fdiv_eq_ediv_of_nonneg _ (by omega)]
    apply Int.le_ediv_of_mul_le (by omega)
    have : (w.nodes : Int) * q ≤ w.nodes * k := Int.mul_le_mul_of_nonneg_left (by omega) (by omega)
    omega
  have hna : (w.nodes : Int) ≤ w.nodes * k := by
    have : (w.nodes : Int) * 1 ≤ w.nodes * k := Int.mul_le_mul_of_nonneg_left (by omega) (by omega)
    omega
  have hmin : minNodes (some w) (some (w.nodes * k)) none none none = .ok (some (w.nodes : Int)) := by
    have h1 : ¬ (given (some ((w.nodes : Int) * k)) = none ∧ True) := by rw [hga]; simp
    have h2 : ¬ (given (some ((w.nodes : Int) * k)) ≠ none ∧ s * w.procsPer = 0) := by rw [hqe]; omega
    simp only [minNodes, gn, hs, ne_eq, not_true_eq_false, if_false, false_and]
    rw [if_neg h1, if_neg h2]
    simp only [hga, hqe]
    congr 2
    omega
  have hv : adjust w (some (w.nodes : Int)) (some (w.nodes * k)) w.procsPer = .ok (some (w.nodes * k)) := by
    simp only [adjust, hgN]
    rw [if_pos (Int.fmod_eq_zero_of_dvd ⟨k, rfl⟩)]
  have hroom : Room w s ⟨w.nodes * k, w.nodes, k⟩ := ⟨rfl, by show 0 < k; omega, by show (0 : Int) < w.nodes; omega, Int.le_refl _, by simp [he]⟩
  have hacc := (C43_accepts hs hroom).2.2.2.1
  have hadjn : adjust w (some (w.nodes : Int)) none w.gpusPer = .ok none := rfl
  simp only [mpiSpecs, prepare, hmin, adjust', hadjn, hv, Bool.false_eq_true, false_and, if_false, ne_eq, not_true_eq_false, or_self]
  simp only at hacc
  rw [hacc]

theorem assignGpus_setting {w : Avail} {st : Setting} {np nn ppn ng np' nn' ppn' : Option Int} {v : Int} {mat : Bool} {g : Int}
    (h : assignGpus w st np nn ppn ng mat = .ok (np', nn', ppn', g, some v)) : ∃ c, ppn' = some c ∧ gpuSetting w st g c = .ok v := by
  unfold assignGpus at h
  split at h
  · cases h
  simp only at h
  split at h
  · cases h
  split at h
  · cases h
  split at h
  · cases h
  · split at h
    · rename_i c _
      split at h
      · cases h
      · rename_i v' hv; cases h; exact ⟨c, rfl, hv⟩
    · rename_i a _ _
      split at h
      · cases h
      split at h
      · cases h
      · rename_i v' hv; cases h; exact ⟨_, rfl, hv⟩
    · cases h

theorem assignGpus_asked {w : Avail} {st : Setting} {np nn ppn ng np' nn' ppn' v : Option Int} {mat : Bool} {g : Int}
    (h : assignGpus w st np nn ppn ng mat = .ok (np', nn', ppn', g, v)) :
    ∃ b, nn' = some b ∧ (∀ b', nn = some b' → b = b') ∧ ∀ n, ng = some n → b ≠ 0 ∧ g ≤ n.fdiv b := by
  unfold assignGpus at h
  split at h
  · cases h
  rename_i avail hav
  simp only at h
  split at h
  · cases h
  rename_i g' hg
  have hb : ∀ b, nn = some b → gpuNodes w np nn ppn = b := by
    intro b hb; subst hb; rfl
  generalize gpuNodes w np nn ppn = B at *
  have key : ∀ n, ng = some n → B ≠ 0 ∧ g' ≤ n.fdiv B := by
    intro n hn
    subst hn
    unfold gpusGranted at hg
    simp only at hg
    split at hg
    · cases hg
    · rename_i h0; cases hg; exact ⟨h0, by omega⟩
  split at h
  · cases h
  split at h
  · cases h; exact ⟨B, rfl, hb, key⟩
  · split at h
    · split at h
      · cases h
      · cases h; exact ⟨B, rfl, hb, key⟩
    · split at h
      · cases h
      split at h
      · cases h
      · cases h; exact ⟨B, rfl, hb, key⟩
    · cases h

theorem mpiSpecs_split {w : Avail} {st : Setting} {np nn ppn ng : Option Int} {auto mat : Bool} {sp : Specs}
    (h : mpiSpecs (some w) st np nn ppn ng false auto mat = .ok sp) :
    ∃ np' nn' ppn' l, prepare (some w) st np nn ppn ng auto mat = .ok (np', nn', ppn', sp.gpusPerNode, sp.setting) ∧
      getResources w np' nn' ppn' = .ok l ∧ sp.layout = some l := by
  unfold mpiSpecs at h
  split at h
  · cases h
  rename_i np' nn' ppn' g v hprep
  simp only at h
  split at h
  · cases h
  rename_i l hl
  cases h
  exact ⟨np', nn', ppn', l, hprep, hl, rfl⟩

theorem prepare_gpus {w : Avail} {st : Setting} {np nn ppn ng np' nn' ppn' v : Option Int} {g : Int} {auto mat : Bool}
    (h : prepare (some w) st np nn ppn ng auto mat = .ok (np', nn', ppn', some g, v)) :
    ∃ np1 nn1 ng1 m, adjust w nn1 ng w.gpusPer = .ok ng1 ∧ assignGpus w st np1 nn1 ppn ng1 m = .ok (np', nn', ppn', g, v) := by
  unfold prepare at h
  split at h
  · cases h
  split at h
  · cases h
  rename_i nn1 hmin
  split at h
  · cases h
  rename_i ng1 hng
  split at h
  · cases h
  rename_i np1 hnp
  split at h
  · simp only at h
    split at h
    · cases h
    · rename_i np2 nn2 ppn2 g2 v2 ha
      cases h
      exact ⟨np1, nn1, ng1, _, hng, ha⟩
  · cases h

theorem prepare_none {w : Avail} {st : Setting} {np nn ppn ng np' nn' ppn' v : Option Int} {auto mat : Bool}
    (h : prepare (some w) st np nn ppn ng auto mat = .ok (np', nn', ppn', none, v)) : v = none := by
  unfold prepare at h
  split at h
  · cases h
  split at h
  · cases h
  split at h
  · cases h
  split at h
  · cases h
  split at h
  · simp only at h
    split at h
    · cases h
    · cases h
  · cases h; rfl

/-- What is passed on with the GPU setting: the number per node for the options per node and for the list in the environment
variable; for the option per task the largest number that the processes of a node can all have. -/
theorem C52_setting {w : Avail} {st : Setting} {np nn ppn ng : Option Int} {auto mat : Bool} {sp : Specs} {v : Int}
    (h : mpiSpecs (some w) st np nn ppn ng false auto mat = .ok sp) (hv : sp.setting = some v) :
    ∃ g l, sp.gpusPerNode = some g ∧ sp.layout = some l ∧ (st ≠ .perTask → v = g) ∧
      (st = .perTask → 0 < l.ppn → l.ppn * v ≤ g ∧ g < l.ppn * (v + 1)) := by
  obtain ⟨np', nn', ppn', l, hp, hl, hlay⟩ := mpiSpecs_split h
  cases hg : sp.gpusPerNode with
  | none =>
    rw [hg] at hp
    have := prepare_none hp
    rw [hv] at this; cases this
  | some g =>
    rw [hg, hv] at hp
    obtain ⟨_, _, _, _, _, ha⟩ := prepare_gpus hp
    obtain ⟨c, hc, hset⟩ := assignGpus_setting ha
    obtain ⟨hf, _⟩ := C43_bounds hl
    refine ⟨g, l, rfl, hlay, ?_, ?_⟩
    · intro hst
      cases st with
      | perNode => simp only [gpuSetting] at hset; split at hset <;> cases hset; rfl
      | perTask => exact absurd rfl hst
      | env => simp only [gpuSetting] at hset; split at hset <;> cases hset; rfl
    · intro hst hpos
      subst hst
      simp only [gpuSetting] at hset
      split at hset
      · cases hset
      rename_i hc0
      split at hset
      · cases hset
      cases hset
      have e := hf.ppn c hc hc0
      rw [e] at hpos ⊢
      have r0 := Int.mul_fdiv_add_fmod g c
      have r1 := Int.fmod_nonneg_of_pos g hpos
      have r2 := Int.fmod_lt_of_pos g hpos
      rw [Int.mul_add, Int.mul_one]
      omega

/-- The GPUs of all nodes together are no more than asked for, with the number asked for rounded up to a multiple of the
nodes. -/
theorem C52_gpus_asked {w : Avail} {st : Setting} {np nn ppn : Option Int} {n : Int} {auto mat : Bool} {sp : Specs} {g : Int}
    (h : mpiSpecs (some w) st np nn ppn (some n) false auto mat = .ok sp) (hg : sp.gpusPerNode = some g) :
    ∃ l v, sp.layout = some l ∧ RoundedUp l.nodes n v ∧ (0 < l.nodes → l.nodes * g ≤ v) := by
  obtain ⟨np', nn', ppn', l, hp, hl, hlay⟩ := mpiSpecs_split h
  rw [hg] at hp
  obtain ⟨np1, nn1, ng1, m, hadj, ha⟩ := prepare_gpus hp
  obtain ⟨b, hb, hbb, hask⟩ := assignGpus_asked ha
  obtain ⟨v, hv, hr⟩ := (adjust_ok hadj).2 n rfl
  obtain ⟨hb0, hle⟩ := hask v hv
  obtain ⟨hf, _⟩ := C43_bounds hl
  have e := hf.nodes b hb hb0
  refine ⟨l, v, hlay, ?_, ?_⟩
  · rcases hr with rfl | ⟨b', hb', hr⟩
    · exact .inl rfl
    · rw [e, hbb b' hb']; exact hr
  · intro hpos
    rw [e] at hpos ⊢
    have r0 := Int.mul_fdiv_add_fmod v b
    have r1 := Int.fmod_nonneg_of_pos v hpos
    have h1 : b * g ≤ b * v.fdiv b := Int.mul_le_mul_of_nonneg_left hle (by omega)
    omega

/-- Five processes for a worker with room for four on each of two nodes; nine on two nodes are too many for it; seven GPUs
asked for on two nodes with two GPUs each, for two processes on each. -/
example : ∃ w, availOf gpuM [0, 2] false = some w ∧ w.slotCount = some 1 ∧ (5 : Int) ≤ (w.nodes * (1 * w.procsPer) : Nat) ∧
    (1 * w.procsPer ≤ w.cores / w.rsets * 1 ∧ 1 * w.procsPer ≤ w.cores) ∧
    mpiSpecs (some w) .env (some 5) none none none false false false = .ok ⟨some ⟨6, 2, 3⟩, none, none⟩ ∧
    mpiSpecs (some { w with enforce := false }) .env (some 10) none none none false false false = .ok ⟨some ⟨10, 2, 5⟩, none, none⟩ ∧
    mpiSpecs (some w) .perTask (some 4) none none (some 7) false false false = .ok ⟨some ⟨4, 2, 2⟩, some 2, some 1⟩ :=
  ⟨_, rfl, by decide, by decide, by decide, by decide, by decide, by decide⟩

end Verif.Mpi
