import Verif.Alloc.Aposmm
import Verif.Alloc.MorePick

/-!
# Finite differences, inverse problems, runs of local optimization (C31, C55, C56, C57)
-/

namespace Verif.Alloc
open Verif.History Verif.Res Verif.Sched

/-! ## C31 -/

theorem more_accepted {c : Ctx} {pick : List Nat → List Nat} {p : PInfo} {s : Sched} {a : Answer} {rets starts sims gens : WorkD}
    {wr wg wsim pts' : List Nat} (ht : TableOk c) (hs : SpecsOk c) (h : MoreParts c pick p s a rets starts sims gens wr wg wsim pts')
    (hf : ∀ e ∈ rets ++ starts, e.2.rows ≠ [] → e.2.fields ≠ [] ∧ ∀ f ∈ e.2.fields, f ∈ c.fields) :
    (a.work.map (·.1)).Nodup ∧ ∀ w wk, (w, wk) ∈ a.work → Accepted c w wk := by
  refine ⟨h.nodup, ?_⟩
  intro w wk hm
  obtain ⟨k, k1, k2, k3⟩ := h.idle hm
  subst k2
  refine accepted_idle ht k1 k3 ?_
  rcases h.mem hm with h1 | h1 | h1 | h1
  · exact hf _ (List.mem_append_left _ h1)
  · exact hf _ (List.mem_append_right _ h1)
  · exact hs.simFields (h.shape _ h1)
  · intro hne; exact absurd (h.gen _ h1).2.1 hne

/-- `finite_diff_alloc`: every order of every answer is accepted, one order per worker. -/
theorem C31_finite_diff_accepted (c : Ctx) (ht : TableOk c) (hs : SpecsOk c) (o : FdOpts) (p : PInfo) (s : Sched)
    (a : Answer) (h : fdAlloc c o p s = .ok a) :
    (a.work.map (·.1)).Nodup ∧ ∀ w wk, (w, wk) ∈ a.work → Accepted c w wk := by
  rcases fd_spec h with ⟨h1, _⟩ | ⟨h1, _⟩ | ⟨_, _, _, rets, sims, gens, wr, wg, wsim, pts', hp, _, hr, _⟩
  · rw [h1]; exact ⟨List.nodup_nil, by simp⟩
  · rw [h1]; exact ⟨List.nodup_nil, by simp⟩
  · exact more_accepted ht hs hp (fun e he => by rw [List.append_nil] at he; exact hs.persisFields (hr e he))

/-- `only_persistent_gens_for_inverse_bayes`, when there is a column `like`. -/
theorem C31_inverse_bayes_accepted (c : Ctx) (ht : TableOk c) (hs : SpecsOk c) (o : IbOpts) (like : Field) (hlike : like ∈ c.fields)
    (p : PInfo) (s : Sched) (a : Answer) (h : ibAlloc c o like p s = .ok a) :
    (a.work.map (·.1)).Nodup ∧ ∀ w wk, (w, wk) ∈ a.work → Accepted c w wk := by
  rcases ib_spec h with ⟨h1, _⟩ | ⟨_, _, rets, sims, gens, wr, wg, wsim, pts', hp, _, hr, _⟩
  · rw [h1]; exact ⟨List.nodup_nil, by simp⟩
  · refine more_accepted ht hs hp (fun e he => ?_)
    rw [List.append_nil] at he
    obtain ⟨rows, _, hsh⟩ := hr e he
    intro _
    rw [hsh.fields]
    exact ⟨eraseDups_ne (by simp), fun f hf => by rw [List.mem_eraseDups, List.mem_singleton] at hf; rw [hf]; exact hlike⟩

/-- `start_persistent_local_opt_gens`. -/
theorem C31_local_opt_accepted (c : Ctx) (ht : TableOk c) (hs : SpecsOk c) (o : LoOpts) (p : PInfo) (s : Sched)
    (a : Answer) (h : loAlloc c o p s = .ok a) :
    (a.work.map (·.1)).Nodup ∧ ∀ w wk, (w, wk) ∈ a.work → Accepted c w wk := by
  rcases lo_spec h with ⟨h1, _⟩ | ⟨_, _, rets, starts, sims, gens, wr, wg, wsim, pts', hp, _, hr, hst, _⟩
  · rw [h1]; exact ⟨List.nodup_nil, by simp⟩
  · refine more_accepted ht hs hp (fun e he => ?_)
    rcases List.mem_append.mp he with he | he
    · obtain ⟨i, is, _, hsh⟩ := hr e he
      exact hs.persisFields hsh
    · obtain ⟨_, i, is, _, hsh⟩ := hst.mem e he
      exact hs.persisFields hsh

/-! ## Common vocabulary -/

/-- A running persistent generator without an order. -/
def IdleGen (c : Ctx) (w : Nat) : Prop := ∃ k ∈ c.W, k.id = w ∧ k.persis = EVAL_GEN ∧ k.active = 0

/-- An idle worker without a persistent function. -/
def IdleWorker (c : Ctx) (w : Nat) : Prop := ∃ k ∈ c.W, k.id = w ∧ k.persis = 0 ∧ k.active = 0

/-- An idle worker that may evaluate: not one reserved for generators. -/
def IdleEval (c : Ctx) (w : Nat) : Prop := ∃ k ∈ c.W, k.id = w ∧ k.persis = 0 ∧ k.active = 0 ∧ k.genWorker = false

/-- Row `i` is given out by the answer. -/
def GivenOut (work : WorkD) (i : Nat) : Prop := ∃ w wk, (w, wk) ∈ work ∧ wk.tag = EVAL_SIM ∧ i ∈ wk.rows

/-- No persistent generator is running. -/
def NoGen (c : Ctx) : Prop := ∀ k ∈ c.W, k.persis ≠ EVAL_GEN

theorem noGen_iff {c : Ctx} : NoGen c ↔ countPersisGens c.W = 0 := by
  unfold NoGen countPersisGens
  rw [List.countP_eq_zero]
  simp

theorem idleGen_iff {c : Ctx} {wr : List Nat} (h : availIds c.W (some EVAL_GEN) false none none = .ok wr) (w : Nat) : w ∈ wr ↔ IdleGen c w := by
  constructor
  · intro hw
    obtain ⟨k, k1, k2, k3, k4⟩ := availIds_state h hw
    exact ⟨k, k1, k2, k4, k3⟩
  · rintro ⟨k, k1, k2, k3, k4⟩
    rw [(availIds_ok h).2, List.mem_map]
    exact ⟨k, List.mem_filter.mpr ⟨k1, by simp [k3, k4]⟩, k2⟩

theorem idleEval_mem {c : Ctx} {ws : List Nat} (h : availIds c.W (some 0) false none (some false) = .ok ws) {w : Nat} (hw : IdleEval c w) :
    w ∈ ws := by
  obtain ⟨k, k1, k2, k3, k4, k5⟩ := hw
  rw [(availIds_ok h).2, List.mem_map]
  exact ⟨k, List.mem_filter.mpr ⟨k1, by simp [k3, k4, k5]⟩, k2⟩

section
variable {c : Ctx} {pick : List Nat → List Nat} {p : PInfo} {s : Sched} {a : Answer} {rets starts sims gens : WorkD} {wr wg wsim pts' : List Nat}

theorem more_sims (h : MoreParts c pick p s a rets starts sims gens wr wg wsim pts') {w : Nat} {wk : Work}
    (hm : (w, wk) ∈ a.work) (ht : wk.tag = EVAL_SIM) : IdleWorker c w ∧ wk.persistent = false ∧ wk.rows ∈ rowsOf sims := by
  have h1 := h.simMem hm ht
  obtain ⟨k, k1, k2, k3, k4⟩ := availIds_state h.simw (h.simk.subset (List.mem_map_of_mem h1))
  exact ⟨⟨k, k1, k2, k4, k3⟩, (h.shape _ h1).pers, List.mem_map.mpr ⟨_, h1, rfl⟩⟩

/-- Two orders have no row in common. -/
theorem more_once (h : MoreParts c pick p s a rets starts sims gens wr wg wsim pts') (hpick : ∀ pts, (pick pts).Sublist pts)
    {w w' : Nat} {wk wk' : Work} {i : Nat} (hm : (w, wk) ∈ a.work) (hm' : (w', wk') ∈ a.work) (ht : wk.tag = EVAL_SIM)
    (ht' : wk'.tag = EVAL_SIM) (hi : i ∈ wk.rows) (hi' : i ∈ wk'.rows) : w = w' := by
  have g1 := (h.picked.parts hpick (rowsWhere_nodup _ _)).1
  have h1 := h.simMem hm ht
  have h2 := h.simMem hm' ht'
  clear hm hm' h
  revert g1 h1 h2
  induction sims with
  | nil => intro _ h1; simp at h1
  | cons e es ih =>
    intro g1 h1 h2
    have g2 : (e.2.rows ++ (rowsOf es).flatten).Nodup := g1
    rw [List.nodup_append] at g2
    have hin : ∀ {x : Nat × Work}, x ∈ es → i ∈ x.2.rows → i ∈ (rowsOf es).flatten := fun hx hi =>
      List.mem_flatten.mpr ⟨_, List.mem_map.mpr ⟨_, hx, rfl⟩, hi⟩
    rcases List.mem_cons.mp h1 with h1 | h1 <;> rcases List.mem_cons.mp h2 with h2 | h2
    · rw [← h1] at h2; exact ((Prod.mk.inj h2).1).symm
    · rw [← h1] at g2; exact absurd rfl (g2.2.2 i hi i (hin (x := (w', wk')) h2 hi'))
    · rw [← h2] at g2; exact absurd rfl (g2.2.2 i hi' i (hin (x := (w, wk)) h1 hi))
    · exact ih g2.2.1 h1 h2

theorem more_given (h : MoreParts c pick p s a rets starts sims gens wr wg wsim pts') (hall : ∀ e ∈ sims, e ∈ a.work) (i : Nat) :
    GivenOut a.work i ↔ i ∈ (rowsOf sims).flatten := by
  constructor
  · rintro ⟨w, wk, h1, h2, h3⟩
    exact List.mem_flatten.mpr ⟨_, (more_sims h h1 h2).2.2, h3⟩
  · intro hi
    obtain ⟨ids, h1, h2⟩ := List.mem_flatten.mp hi
    obtain ⟨⟨w, wk⟩, h3, rfl⟩ := List.mem_map.mp h1
    exact ⟨w, wk, hall _ h3, (h.shape _ h3).tag, h2⟩

theorem more_left (h : MoreParts c pick p s a rets starts sims gens wr wg wsim pts') (hpick : ∀ pts, (pick pts).Sublist pts)
    {j : Nat} (hj : j ∈ waiting c.H) (hn : j ∉ (rowsOf sims).flatten) : j ∈ pts' := by
  obtain ⟨_, _, g3⟩ := h.picked.parts hpick (rowsWhere_nodup _ _)
  rw [g3, List.mem_filter]
  exact ⟨hj, by simpa using hn⟩
end

/-! ## C55: finite_diff_alloc -/

/-- Row `i` belongs to the pair (x, f), is evaluated and was not returned. -/
def FdRow (H : List Row) (o : FdOpts) (x f i : Nat) : Prop :=
  ∃ r, H[i]? = some r ∧ r o.x = .s x ∧ r o.f = .s f ∧ r.flag .simEnded = true ∧ r.flag .genInformed = false

/-- The pair has as many evaluated rows as a difference of order `nf` needs. -/
def FdComplete (H : List Row) (o : FdOpts) (x f : Nat) : Prop :=
  x < o.n ∧ f < o.p ∧ ∃ l : List Nat, l.Nodup ∧ l.length = o.nf ∧ ∀ i, i ∈ l ↔ FdRow H o x f i

/-- Rows are numbered by `sim_id` (C01). -/
def IdsAreRows (H : List Row) : Prop := ∀ (i : Nat) (r : Row), H[i]? = some r → r .simId = .s (i : Nat)

theorem mem_fdGroup {H : List Row} {o : FdOpts} {x f i : Nat} : i ∈ fdGroup H o x f ↔ FdRow H o x f i := by
  unfold fdGroup FdRow
  rw [mem_rowsWhere]
  constructor
  · rintro ⟨r, h1, h2⟩; simp at h2; exact ⟨r, h1, h2.2.1.1, h2.2.1.2, h2.2.2, h2.1⟩
  · rintro ⟨r, h1, h2, h3, h4, h5⟩; exact ⟨r, h1, by simp [h2, h3, h4, h5]⟩

theorem fdComplete_iff {H : List Row} {o : FdOpts} {x f : Nat} :
    FdComplete H o x f ↔ x < o.n ∧ f < o.p ∧ (fdGroup H o x f).length = o.nf := by
  constructor
  · rintro ⟨h1, h2, l, h3, h4, h5⟩
    refine ⟨h1, h2, ?_⟩
    rw [← h4]
    exact ((List.perm_ext_iff_of_nodup (rowsWhere_nodup _ _) h3).mpr (fun i => by rw [h5]; exact mem_fdGroup)).length_eq
  · rintro ⟨h1, h2, h3⟩
    exact ⟨h1, h2, _, rowsWhere_nodup _ _, h3, fun i => mem_fdGroup⟩

theorem fdIds {H : List Row} (hid : IdsAreRows H) {l : List Nat} (hl : ∀ i ∈ l, i < H.length) :
    l.map (fun i => (intAt H .simId i).toNat) = l := by
  rw [List.map_congr_left (g := id), List.map_id]
  intro i hi
  obtain ⟨r, hr⟩ : ∃ r, H[i]? = some r := ⟨_, List.getElem?_eq_getElem (hl i hi)⟩
  simp [intAt, hr, hid i r hr]

theorem mem_fdBack {H : List Row} (hid : IdsAreRows H) {o : FdOpts} {i : Nat} :
    i ∈ fdBack H o ↔ ∃ x f, FdComplete H o x f ∧ FdRow H o x f i := by
  have hlt : ∀ x f, ∀ i ∈ fdGroup H o x f, i < H.length := by
    intro x f i hi
    obtain ⟨r, h, _⟩ := mem_fdGroup.mp hi
    exact (List.getElem?_eq_some_iff.mp h).1
  unfold fdBack
  simp only [List.mem_flatMap, List.mem_range]
  constructor
  · rintro ⟨x, hx, f, hf, h⟩
    split at h
    · rename_i hc
      rw [fdIds hid (hlt x f)] at h
      exact ⟨x, f, fdComplete_iff.mpr ⟨hx, hf, hc⟩, mem_fdGroup.mp h⟩
    · simp at h
  · rintro ⟨x, f, h1, h2⟩
    obtain ⟨hx, hf, hc⟩ := fdComplete_iff.mp h1
    refine ⟨x, hx, f, hf, ?_⟩
    rw [if_pos hc, fdIds hid (hlt x f)]
    exact mem_fdGroup.mpr h2

theorem nodup_flatMap {β γ} {g : β → List γ} {l : List β} (hl : l.Nodup) (hg : ∀ x ∈ l, (g x).Nodup)
    (hd : ∀ x ∈ l, ∀ y ∈ l, x ≠ y → ∀ i ∈ g x, i ∉ g y) : (l.flatMap g).Nodup := by
  induction l with
  | nil => simp
  | cons x l ih =>
    rw [List.flatMap_cons, List.nodup_append]
    rw [List.nodup_cons] at hl
    refine ⟨hg x (by simp), ih hl.2 (fun y hy => hg y (List.mem_cons_of_mem _ hy))
      (fun y hy z hz => hd y (List.mem_cons_of_mem _ hy) z (List.mem_cons_of_mem _ hz)), ?_⟩
    intro i hi j hj e
    subst e
    obtain ⟨y, hy, hiy⟩ := List.mem_flatMap.mp hj
    exact hd x (by simp) y (List.mem_cons_of_mem _ hy) (fun e => hl.1 (e ▸ hy)) i hi hiy

theorem fdBack_nodup {H : List Row} (hid : IdsAreRows H) (o : FdOpts) : (fdBack H o).Nodup := by
  have hlt : ∀ x f, ∀ i ∈ fdGroup H o x f, i < H.length := by
    intro x f i hi
    obtain ⟨r, h, _⟩ := mem_fdGroup.mp hi
    exact (List.getElem?_eq_some_iff.mp h).1
  have inner : ∀ x f i, (i ∈ if (fdGroup H o x f).length = o.nf then (fdGroup H o x f).map fun i => (intAt H .simId i).toNat else []) →
      FdRow H o x f i := by
    intro x f i h
    split at h
    · rw [fdIds hid (hlt x f)] at h; exact mem_fdGroup.mp h
    · simp at h
  unfold fdBack
  refine nodup_flatMap List.nodup_range (fun x _ => ?_) (fun x _ y _ hxy i hi hi' => ?_)
  · refine nodup_flatMap List.nodup_range (fun f _ => ?_) (fun f _ f' _ hff i hi hi' => ?_)
    · split
      · rw [fdIds hid (hlt x f)]; exact rowsWhere_nodup _ _
      · simp
    · obtain ⟨r, h1, _, h2, _⟩ := inner x f i hi
      obtain ⟨r', h1', _, h2', _⟩ := inner x f' i hi'
      rw [h1] at h1'; cases h1'
      rw [h2] at h2'
      exact hff (by injection h2' with h; exact Int.ofNat_inj.mp h)
  · obtain ⟨f, _, hf⟩ := List.mem_flatMap.mp hi
    obtain ⟨f', _, hf'⟩ := List.mem_flatMap.mp hi'
    obtain ⟨r, h1, h2, _⟩ := inner x f i hf
    obtain ⟨r', h1', h2', _⟩ := inner y f' i hf'
    rw [h1] at h1'; cases h1'
    rw [h2] at h2'
    exact hxy (by injection h2' with h; exact Int.ofNat_inj.mp h)

theorem fd_whole {c : Ctx} {p : PInfo} {s : Sched} {a : Answer} {rets sims gens : WorkD}
    {wr wg wsim pts' : List Nat} (hW : IdsOk c.W) (hz : c.H = [] ∨ countPersisGens c.W ≠ 0)
    (h : MoreParts c oldest p s a rets [] sims gens wr wg wsim pts') (hg : countPersisGens c.W ≠ 0 → gens = []) :
    a.work = rets ++ sims ++ gens := by
  have hone : sims = [] ∨ gens = [] := by
    rcases hz with hz | hz
    · have := h.picked
      rw [hz, show waiting [] = [] from rfl] at this
      exact .inl (List.map_eq_nil_iff.mp this.nil_of)
    · exact .inr (hg hz)
  have := h.whole hW (by
    rcases hone with h1 | h1
    · subst h1; simpa using h.genk.nodup (availIds_nodup hW h.genw)
    · subst h1; simpa using h.simk.nodup (availIds_nodup hW h.simw))
  simpa using this

/-- Complete pairs and nothing else go back, to every idle running generator: an order for a generator that is running contains
exactly the evaluated, unreturned rows of the complete pairs, each once; it is there as soon as there is such a row. -/
theorem C55_returns (c : Ctx) (hW : IdsOk c.W) (hid : IdsAreRows c.H) (o : FdOpts) (p : PInfo) (s : Sched) (a : Answer)
    (h : fdAlloc c o p s = .ok a) :
    (∀ w wk, (w, wk) ∈ a.work → IdleGen c w → wk.tag = EVAL_GEN ∧ wk.persistent = true ∧ wk.rows ≠ [] ∧ wk.rows.Nodup ∧
      ∀ i, i ∈ wk.rows ↔ ∃ x f, FdComplete c.H o x f ∧ FdRow c.H o x f i) ∧
    (c.simMaxGiven = false → c.anyIdle = true → ∀ w, IdleGen c w →
      (∃ x f i, FdComplete c.H o x f ∧ FdRow c.H o x f i) → w ∈ a.work.map (·.1)) := by
  rcases fd_spec h with ⟨h1, hg⟩ | ⟨h1, _, _, _, hz⟩ | ⟨_, _, hz, rets, sims, gens, wr, wg, wsim, pts', hp, hk, hr, _, hgn, hg0⟩
  · refine ⟨by rw [h1]; simp, ?_⟩
    intro hs hi
    rcases hg with hg | hg
    · rw [hs] at hg; simp at hg
    · rw [hi] at hg; simp at hg
  · refine ⟨by rw [h1]; simp, ?_⟩
    rintro _ _ w ⟨k, k1, k2, k3, _⟩
    exact absurd k3 (noGen_iff.mpr hz k k1)
  · have hwh := fd_whole hW hz hp hgn
    refine ⟨?_, ?_⟩
    · intro w wk hm hw
      have hwr := (idleGen_iff hp.retw w).mpr hw
      have hm' : (w, wk) ∈ rets := by
        rcases hp.mem hm with h1 | h1 | h1 | h1
        · exact h1
        · simp at h1
        · exact absurd (hp.simk.subset (List.mem_map_of_mem h1)) (availIds_disj hW (by decide) hp.retw hp.simw hwr)
        · exact absurd (hp.genk.subset (List.mem_map_of_mem h1)) (availIds_disj hW (by decide) hp.retw hp.genw hwr)
      have hsh := hr _ hm'
      have hrow : wk.rows = fdBack c.H o := hsh.rows
      refine ⟨hsh.tag, hsh.pers, ?_, ?_, ?_⟩
      · rw [hrow]
        intro e
        rw [if_pos e] at hk
        have : w ∈ keys rets := List.mem_map_of_mem hm'
        rw [hk] at this; simp at this
      · rw [hrow]; exact fdBack_nodup hid o
      · intro i; rw [hrow]; exact mem_fdBack hid
    · rintro _ _ w hw ⟨x, f, i, h1, h2⟩
      have hne : fdBack c.H o ≠ [] := List.ne_nil_of_mem ((mem_fdBack hid).mpr ⟨x, f, h1, h2⟩)
      rw [if_neg hne] at hk
      have hm : w ∈ keys rets := by rw [hk]; exact (idleGen_iff hp.retw w).mpr hw
      rw [hwh, List.map_append, List.map_append, List.mem_append, List.mem_append]
      exact .inl (.inl hm)

/-- Waiting rows are given out one at a time, each to one idle worker that is not persistent, the oldest first: a row is not given out
while an older one is left.  Without resource management no row is left while a worker for evaluations is. -/
theorem C55_evaluations (c : Ctx) (hW : IdsOk c.W) (o : FdOpts) (p : PInfo) (s : Sched) (a : Answer) (h : fdAlloc c o p s = .ok a) :
    (∀ w wk, (w, wk) ∈ a.work → wk.tag = EVAL_SIM → IdleWorker c w ∧ ∃ i, wk.rows = [i] ∧ Waits c.H i) ∧
    (∀ w wk w' wk' i, (w, wk) ∈ a.work → (w', wk') ∈ a.work → wk.tag = EVAL_SIM → wk'.tag = EVAL_SIM → i ∈ wk.rows → i ∈ wk'.rows → w = w') ∧
    (∀ i j, GivenOut a.work i → Waits c.H j → j < i → GivenOut a.work j) ∧
    (c.manage = false → c.simMaxGiven = false → c.anyIdle = true → a.flag = false →
      (∀ j, Waits c.H j → GivenOut a.work j) ∨ ∀ w, IdleEval c w → w ∈ a.work.map (·.1)) := by
  have triv : a.work = [] → (∀ w wk, (w, wk) ∈ a.work → wk.tag = EVAL_SIM → IdleWorker c w ∧ ∃ i, wk.rows = [i] ∧ Waits c.H i) ∧
    (∀ w wk w' wk' i, (w, wk) ∈ a.work → (w', wk') ∈ a.work → wk.tag = EVAL_SIM → wk'.tag = EVAL_SIM → i ∈ wk.rows → i ∈ wk'.rows → w = w') ∧
    (∀ i j, GivenOut a.work i → Waits c.H j → j < i → GivenOut a.work j) := by
    intro h; rw [h]
    refine ⟨by simp, by simp, ?_⟩
    rintro i j ⟨w, wk, h1, _⟩
    simp at h1
  rcases fd_spec h with ⟨h1, hg⟩ | ⟨h1, _⟩ | ⟨_, _, hz, rets, sims, gens, wr, wg, wsim, pts', hp, hk, hr, hd, hgn, hg0⟩
  · obtain ⟨t1, t2, t3⟩ := triv (by rw [h1])
    refine ⟨t1, t2, t3, fun _ hs hi _ => ?_⟩
    rcases hg with hg | hg
    · rw [hs] at hg; simp at hg
    · rw [hi] at hg; simp at hg
  · obtain ⟨t1, t2, t3⟩ := triv (by rw [h1])
    refine ⟨t1, t2, t3, fun _ _ _ hf => ?_⟩
    rw [h1] at hf; simp at hf
  · have hwh := fd_whole hW hz hp hgn
    have hall : ∀ e ∈ sims, e ∈ a.work := by intro e he; rw [hwh]; simp [he]
    have hpk := hp.picked.oldest (rowsWhere_sorted _ _)
    have hparts := hp.picked.parts oldest_sub (rowsWhere_nodup _ _)
    refine ⟨?_, fun w wk w' wk' i h1 h2 h3 h4 h5 h6 => more_once hp oldest_sub h1 h2 h3 h4 h5 h6, ?_, ?_⟩
    · intro w wk hm ht
      obtain ⟨g1, _, g2⟩ := more_sims hp hm ht
      obtain ⟨i, hi⟩ := hpk.1 _ g2
      refine ⟨g1, i, hi, mem_waiting.mp (hparts.2.1 i (List.mem_flatten.mpr ⟨_, g2, by rw [hi]; simp⟩))⟩
    · intro i j hi hj hlt
      rw [more_given hp hall] at hi ⊢
      apply Decidable.byContradiction
      intro hn
      have := hpk.2 i hi j (more_left hp oldest_sub (mem_waiting.mpr hj) hn)
      omega
    · intro hm _ _ _
      rcases hd hm with hd | hd
      · refine .inl fun j hj => ?_
        rw [more_given hp hall]
        apply Decidable.byContradiction
        intro hn
        have := more_left hp oldest_sub (mem_waiting.mpr hj) hn
        rw [hd] at this; simp at this
      · refine .inr fun w hw => ?_
        have : w ∈ keys sims := by rw [hd]; exact idleEval_mem hp.simw hw
        obtain ⟨e, he, rfl⟩ := List.mem_map.mp this
        exact List.mem_map_of_mem (hall e he)

/-- A generator is started exactly in a call with an empty history and no running generator, and then one, without rows;
shutdown is asked for exactly when there is a history and no generator runs. -/
theorem C55_generator (c : Ctx) (hW : IdsOk c.W) (o : FdOpts) (p : PInfo) (s : Sched) (a : Answer) (h : fdAlloc c o p s = .ok a)
    (hg : c.simMaxGiven = false) (hi : c.anyIdle = true) :
    (a.flag = true ↔ c.H ≠ [] ∧ NoGen c) ∧
    (∀ w wk, (w, wk) ∈ a.work → wk.tag = EVAL_GEN → IdleGen c w ∨ (c.H = [] ∧ NoGen c ∧ IdleWorker c w ∧ a.work = [(w, wk)] ∧
      wk.rows = [] ∧ wk.persistent = true)) ∧
    (c.H = [] → NoGen c → ∃ w wk, a.work = [(w, wk)] ∧ wk.tag = EVAL_GEN) := by
  rcases fd_spec h with ⟨_, hg'⟩ | ⟨h1, _, _, hH, hz⟩ | ⟨_, _, hz, rets, sims, gens, wr, wg, wsim, pts', hp, hk, hr, hd, hgn, hg0⟩
  · rcases hg' with hg' | hg'
    · rw [hg] at hg'; simp at hg'
    · rw [hi] at hg'; simp at hg'
  · rw [h1]
    exact ⟨⟨fun _ => ⟨hH, noGen_iff.mpr hz⟩, fun _ => rfl⟩, by simp, fun h => absurd h hH⟩
  · have hwh := fd_whole hW hz hp hgn
    have hone : countPersisGens c.W = 0 → rets = [] ∧ sims = [] := by
      intro h0
      refine ⟨?_, ?_⟩
      · cases rets with
        | nil => rfl
        | cons e es =>
          have := (idleGen_iff hp.retw e.1).mp (hp.retk.subset (by simp [keys]))
          obtain ⟨k, k1, _, k3, _⟩ := this
          exact absurd k3 (noGen_iff.mpr h0 k k1)
      · rcases hz with hz | hz
        · have := hp.picked
          rw [hz, show waiting [] = [] from rfl] at this
          exact List.map_eq_nil_iff.mp this.nil_of
        · exact absurd h0 hz
    refine ⟨?_, ?_, ?_⟩
    · rw [hp.flag]
      refine ⟨fun h => by simp at h, fun ⟨h1, h2⟩ => ?_⟩
      rcases hz with hz | hz
      · exact absurd hz h1
      · exact absurd (noGen_iff.mp h2) hz
    · intro w wk hm ht
      rcases hp.mem hm with h1 | h1 | h1 | h1
      · exact .inl ((idleGen_iff hp.retw w).mp (hp.retk.subset (List.mem_map_of_mem h1)))
      · simp at h1
      · have := (hp.shape _ h1).tag
        simp only at this
        rw [ht] at this; simp [EVAL_GEN, EVAL_SIM] at this
      · by_cases h0 : countPersisGens c.W = 0
        · obtain ⟨w', wk', e1, hsh⟩ := hg0 h0
          obtain ⟨e2, e3⟩ := hone h0
          rw [e1, List.mem_singleton] at h1
          cases h1
          obtain ⟨k, k1, k2, k3, k4⟩ := availIds_state hp.genw (w := w) (hp.genk.subset (by rw [e1]; simp [keys]))
          refine .inr ⟨?_, noGen_iff.mpr h0, ⟨k, k1, k2, k4, k3⟩, by rw [hwh, e1, e2, e3]; rfl, hsh.rows, hsh.pers⟩
          rcases hz with hz | hz
          · exact hz
          · exact absurd h0 hz
        · rw [hgn h0] at h1; simp at h1
    · intro _ hn
      have h0 := noGen_iff.mp hn
      obtain ⟨w', wk', e1, hsh⟩ := hg0 h0
      obtain ⟨e2, e3⟩ := hone h0
      exact ⟨w', wk', by rw [hwh, e1, e2, e3]; rfl, hsh.tag⟩

/-! ## C56: only_persistent_gens_for_inverse_bayes -/

/-- Row `i` was made by generator `w`. -/
def OwnRow (H : List Row) (w i : Nat) : Prop := ∃ r, H[i]? = some r ∧ r .genWorker = .s w

/-- Every row of the generator is evaluated, apart from those cancelled before they were given out. -/
def AllBack (H : List Row) (w : Nat) : Prop :=
  ∀ (i : Nat) (r : Row), H[i]? = some r → r .genWorker = .s w →
    r.flag .simEnded = true ∨ (r.flag .cancelRequested = true ∧ r.flag .simStarted = false)

theorem mem_own {H : List Row} {w i : Nat} : i ∈ rowsWhere H (ofGen w) ↔ OwnRow H w i := by
  rw [mem_rowsWhere]
  simp [ofGen, OwnRow]

theorem allBack_iff {H : List Row} {w : Nat} : allSimEnded H (ofGen w) = true ↔ AllBack H w := by
  unfold allSimEnded AllBack
  rw [List.all_eq_true]
  constructor
  · intro h i r hr hg
    have := h r (List.mem_of_getElem? hr)
    simp only [ofGen, hg, decide_true, Bool.true_and, Bool.not_not] at this
    revert this
    cases r.flag .simEnded <;> cases r.flag .cancelRequested <;> cases r.flag .simStarted <;> simp
  · intro h r hr
    obtain ⟨i, hi⟩ := List.mem_iff_getElem?.mp hr
    by_cases hg : r .genWorker = .s w
    · have := h i r hi hg
      simp only [ofGen, hg, decide_true, Bool.true_and, Bool.not_not]
      revert this
      cases r.flag .simEnded <;> cases r.flag .cancelRequested <;> cases r.flag .simStarted <;> simp
    · simp [ofGen, hg]

theorem ibBack_spec {H : List Row} {o : IbOpts} {w : Nat} {rows : List Nat} (h : ibBack H o w = .ok rows) :
    rows ≠ [] ∧ rows.Pairwise (· < ·) ∧ (∀ i, i ∈ rows ↔ OwnRow H w i ∧ ∀ j, OwnRow H w j → intAt H o.batch j ≤ intAt H o.batch i) ∧
    ((∀ i, i < H.length → OwnRow H w i) ∨ ∃ i, ∀ j, OwnRow H w j ↔ j = i) := by
  unfold ibBack at h
  simp only at h
  have hsort := rowsWhere_sorted H (ofGen w)
  have hmem : ∀ i, i ∈ rowsWhere H (ofGen w) ↔ OwnRow H w i := fun i => mem_own
  have hsub : (rowsWhere H (ofGen w)).Sublist (List.range H.length) := List.filter_sublist
  generalize rowsWhere H (ofGen w) = own at h hsort hmem hsub
  split at h
  · cases h
  · rename_i i is
    have hm := maxOf_spec (is.map (intAt H o.batch)) (intAt H o.batch i)
    rw [← List.map_cons] at hm
    generalize maxOf (intAt H o.batch i) (is.map (intAt H o.batch)) = v at h hm
    split at h
    · rename_i hlen
      cases h
      have hall : i :: is = List.range H.length := hsub.eq_of_length (by rw [hlen, List.length_range])
      refine ⟨?_, List.Pairwise.filter _ hsort, ?_, .inl ?_⟩
      · obtain ⟨j, hj, hv⟩ := List.mem_map.mp hm.1
        exact List.ne_nil_of_mem (List.mem_filter.mpr ⟨hj, by simpa using hv⟩)
      · intro k
        rw [List.mem_filter, hmem, decide_eq_true_iff]
        refine and_congr_right fun hk => ⟨fun e j hj => ?_, fun hmax => ?_⟩
        · rw [e]; exact hm.2 _ (List.mem_map_of_mem ((hmem j).mpr hj))
        · obtain ⟨j, hj, hv⟩ := List.mem_map.mp hm.1
          have h1 := hmax j ((hmem j).mp hj)
          have h2 := hm.2 _ (List.mem_map_of_mem ((hmem k).mpr hk))
          omega
      · intro j hj
        rw [← hmem, hall, List.mem_range]; exact hj
    · split at h
      · rename_i hlen
        cases h
        have his : is = [] := by cases is with | nil => rfl | cons _ _ => simp at hlen
        subst his
        simp only [List.mem_singleton] at hmem
        refine ⟨by simp, hsort, ?_, .inr ⟨i, fun j => (hmem j).symm⟩⟩
        intro k
        rw [List.mem_singleton, hmem]
        refine ⟨fun hk => ⟨hk, fun j hj => ?_⟩, fun hk => hk.1⟩
        rw [(hmem j).mpr hj, (hmem k).mpr hk]; exact Int.le_refl _
      · cases h

theorem ib_whole {c : Ctx} {o : IbOpts} {p : PInfo} {s : Sched} {a : Answer} {rets sims gens : WorkD}
    {wr wg wsim pts' : List Nat} (hW : IdsOk c.W)
    (h : MoreParts c (firstSub c.H o.sub) p s a rets [] sims gens wr wg wsim pts') (hg : waiting c.H ≠ [] → gens = []) :
    a.work = rets ++ sims ++ gens := by
  have hone : sims = [] ∨ gens = [] := by
    by_cases hz : waiting c.H = []
    · have := h.picked
      rw [hz] at this
      exact .inl (List.map_eq_nil_iff.mp this.nil_of)
    · exact .inr (hg hz)
  have := h.whole hW (by
    rcases hone with h1 | h1
    · subst h1; simpa using h.genk.nodup (availIds_nodup hW h.genw)
    · subst h1; simpa using h.simk.nodup (availIds_nodup hW h.simw))
  simpa using this

/-- The order for a running generator comes once all its rows are evaluated, and contains the whole last batch of the generator. -/
theorem C56_returns (c : Ctx) (hW : IdsOk c.W) (o : IbOpts) (like : Field) (p : PInfo) (s : Sched) (a : Answer)
    (h : ibAlloc c o like p s = .ok a) :
    (∀ w wk, (w, wk) ∈ a.work → IdleGen c w → wk.tag = EVAL_GEN ∧ wk.persistent = true ∧ wk.fields = [like] ∧ AllBack c.H w ∧
      wk.rows ≠ [] ∧ wk.rows.Pairwise (· < ·) ∧
      ∀ i, i ∈ wk.rows ↔ OwnRow c.H w i ∧ ∀ j, OwnRow c.H w j → intAt c.H o.batch j ≤ intAt c.H o.batch i) ∧
    (c.simMaxGiven = false → c.anyIdle = true → ∀ w, IdleGen c w → AllBack c.H w → w ∈ a.work.map (·.1)) := by
  rcases ib_spec h with ⟨h1, hg⟩ | ⟨_, _, rets, sims, gens, wr, wg, wsim, pts', hp, hk, hr, _, hgn, hg0⟩
  · refine ⟨by rw [h1]; simp, ?_⟩
    intro hs hi
    rcases hg with hg | hg
    · rw [hs] at hg; simp at hg
    · rw [hi] at hg; simp at hg
  · have hwh := ib_whole hW hp (fun h => hgn (.inr h))
    refine ⟨?_, ?_⟩
    · intro w wk hm hw
      have hwr := (idleGen_iff hp.retw w).mpr hw
      have hm' : (w, wk) ∈ rets := by
        rcases hp.mem hm with h1 | h1 | h1 | h1
        · exact h1
        · simp at h1
        · exact absurd (hp.simk.subset (List.mem_map_of_mem h1)) (availIds_disj hW (by decide) hp.retw hp.simw hwr)
        · exact absurd (hp.genk.subset (List.mem_map_of_mem h1)) (availIds_disj hW (by decide) hp.retw hp.genw hwr)
      obtain ⟨rows, hb, hsh⟩ := hr _ hm'
      have hkey : w ∈ keys rets := List.mem_map_of_mem hm'
      rw [hk, List.mem_filter] at hkey
      obtain ⟨g1, g2, g3, _⟩ := ibBack_spec hb
      have hrow : wk.rows = rows := hsh.rows
      rw [hrow]
      exact ⟨hsh.tag, hsh.pers, hsh.fields, allBack_iff.mp hkey.2, g1, g2, g3⟩
    · intro _ _ w hw hd
      have hm : w ∈ keys rets := by
        rw [hk, List.mem_filter]; exact ⟨(idleGen_iff hp.retw w).mpr hw, allBack_iff.mpr hd⟩
      rw [hwh, List.map_append, List.map_append, List.mem_append, List.mem_append]
      exact .inl (.inl hm)

/-- Waiting rows are given out in whole subbatches: an order contains all waiting rows with the same subbatch number, no row is in two
orders, and a row is not given out while one of a smaller number is left. -/
theorem C56_evaluations (c : Ctx) (hW : IdsOk c.W) (o : IbOpts) (like : Field) (p : PInfo) (s : Sched) (a : Answer)
    (h : ibAlloc c o like p s = .ok a) :
    (∀ w wk, (w, wk) ∈ a.work → wk.tag = EVAL_SIM → IdleWorker c w ∧ wk.rows ≠ [] ∧
      ∃ v, ∀ i, i ∈ wk.rows ↔ Waits c.H i ∧ intAt c.H o.sub i = v) ∧
    (∀ w wk w' wk' i, (w, wk) ∈ a.work → (w', wk') ∈ a.work → wk.tag = EVAL_SIM → wk'.tag = EVAL_SIM → i ∈ wk.rows → i ∈ wk'.rows → w = w') ∧
    (∀ i j, GivenOut a.work i → Waits c.H j → intAt c.H o.sub j ≤ intAt c.H o.sub i → GivenOut a.work j) ∧
    (c.manage = false → c.simMaxGiven = false → c.anyIdle = true →
      (∀ j, Waits c.H j → GivenOut a.work j) ∨ ∀ w, IdleEval c w → w ∈ a.work.map (·.1)) := by
  rcases ib_spec h with ⟨h1, hg⟩ | ⟨_, _, rets, sims, gens, wr, wg, wsim, pts', hp, hk, hr, hd, hgn, hg0⟩
  · rw [h1]
    refine ⟨by simp, by simp, ?_, fun _ hs hi => ?_⟩
    · rintro i j ⟨w, wk, h1, _⟩; simp at h1
    rcases hg with hg | hg
    · rw [hs] at hg; simp at hg
    · rw [hi] at hg; simp at hg
  · have hwh := ib_whole hW hp (fun h => hgn (.inr h))
    have hall : ∀ e ∈ sims, e ∈ a.work := by intro e he; rw [hwh]; simp [he]
    have hpk := hp.picked.sub
    have hsub := firstSub_sub c.H o.sub
    refine ⟨?_, fun w wk w' wk' i h1 h2 h3 h4 h5 h6 => more_once hp hsub h1 h2 h3 h4 h5 h6, ?_, ?_⟩
    · intro w wk hm ht
      obtain ⟨g1, _, g2⟩ := more_sims hp hm ht
      obtain ⟨k1, v, k2⟩ := hpk.1 _ g2
      exact ⟨g1, k1, v, fun i => by rw [k2, mem_waiting]⟩
    · intro i j hi hj hle
      rw [more_given hp hall] at hi ⊢
      apply Decidable.byContradiction
      intro hn
      have := hpk.2 i hi j (more_left hp hsub (mem_waiting.mpr hj) hn)
      omega
    · intro hm _ _
      rcases hd hm with hd | hd
      · refine .inl fun j hj => ?_
        rw [more_given hp hall]
        apply Decidable.byContradiction
        intro hn
        have := more_left hp hsub (mem_waiting.mpr hj) hn
        rw [hd] at this; simp at this
      · refine .inr fun w hw => ?_
        have : w ∈ keys sims := by rw [hd]; exact idleEval_mem hp.simw hw
        obtain ⟨e, he, rfl⟩ := List.mem_map.mp this
        exact List.mem_map_of_mem (hall e he)

/-- A generator is started exactly when none runs and no row is waiting, and then one, without rows; shutdown is never asked for. -/
theorem C56_generator (c : Ctx) (hW : IdsOk c.W) (o : IbOpts) (like : Field) (p : PInfo) (s : Sched) (a : Answer)
    (h : ibAlloc c o like p s = .ok a) (hg : c.simMaxGiven = false) (hi : c.anyIdle = true) :
    a.flag = false ∧
    (∀ w wk, (w, wk) ∈ a.work → wk.tag = EVAL_GEN → IdleGen c w ∨ (NoGen c ∧ (∀ i, ¬ Waits c.H i) ∧ IdleWorker c w ∧
      a.work = [(w, wk)] ∧ wk.rows = [] ∧ wk.persistent = true)) ∧
    (NoGen c → (∀ i, ¬ Waits c.H i) → ∃ w wk, a.work = [(w, wk)] ∧ wk.tag = EVAL_GEN) := by
  rcases ib_spec h with ⟨_, hg'⟩ | ⟨_, _, rets, sims, gens, wr, wg, wsim, pts', hp, hk, hr, hd, hgn, hg0⟩
  · rcases hg' with hg' | hg'
    · rw [hg] at hg'; simp at hg'
    · rw [hi] at hg'; simp at hg'
  · have hwh := ib_whole hW hp (fun h => hgn (.inr h))
    have hwait : waiting c.H = [] ↔ ∀ i, ¬ Waits c.H i := by
      rw [List.eq_nil_iff_forall_not_mem]
      exact forall_congr' fun i => by rw [mem_waiting]
    have hone : countPersisGens c.W = 0 → waiting c.H = [] → rets = [] ∧ sims = [] := by
      intro h0 hz
      refine ⟨?_, ?_⟩
      · cases rets with
        | nil => rfl
        | cons e es =>
          have := (idleGen_iff hp.retw e.1).mp (hp.retk.subset (by simp [keys]))
          obtain ⟨k, k1, _, k3, _⟩ := this
          exact absurd k3 (noGen_iff.mpr h0 k k1)
      · have := hp.picked
        rw [hz] at this
        exact List.map_eq_nil_iff.mp this.nil_of
    refine ⟨hp.flag, ?_, ?_⟩
    · intro w wk hm ht
      rcases hp.mem hm with h1 | h1 | h1 | h1
      · exact .inl ((idleGen_iff hp.retw w).mp (hp.retk.subset (List.mem_map_of_mem h1)))
      · simp at h1
      · have := (hp.shape _ h1).tag
        simp only at this
        rw [ht] at this; simp [EVAL_GEN, EVAL_SIM] at this
      · by_cases h0 : countPersisGens c.W = 0
        · by_cases hz : waiting c.H = []
          · obtain ⟨w', wk', e1, hsh⟩ := hg0 h0 hz
            obtain ⟨e2, e3⟩ := hone h0 hz
            rw [e1, List.mem_singleton] at h1
            cases h1
            obtain ⟨k, k1, k2, k3, k4⟩ := availIds_state hp.genw (w := w) (hp.genk.subset (by rw [e1]; simp [keys]))
            exact .inr ⟨noGen_iff.mpr h0, hwait.mp hz, ⟨k, k1, k2, k4, k3⟩, by rw [hwh, e1, e2, e3]; rfl, hsh.rows, hsh.pers⟩
          · rw [hgn (.inr hz)] at h1; simp at h1
        · rw [hgn (.inl h0)] at h1; simp at h1
    · intro hn hz
      have h0 := noGen_iff.mp hn
      have hz := hwait.mpr hz
      obtain ⟨w', wk', e1, hsh⟩ := hg0 h0 hz
      obtain ⟨e2, e3⟩ := hone h0 hz
      exact ⟨w', wk', by rw [hwh, e1, e2, e3]; rfl, hsh.tag⟩

/-- The function works for one generator only: if it answers although all rows of an idle running generator are evaluated, then
all rows of the history come from this generator, or it made just one. -/
theorem C56_one_generator (c : Ctx) (o : IbOpts) (like : Field) (p : PInfo) (s : Sched) (a : Answer)
    (h : ibAlloc c o like p s = .ok a) (hg : c.simMaxGiven = false) (hi : c.anyIdle = true) (w : Nat) (hw : IdleGen c w)
    (hb : AllBack c.H w) : (∀ i, i < c.H.length → OwnRow c.H w i) ∨ ∃ i, ∀ j, OwnRow c.H w j ↔ j = i := by
  rcases ib_spec h with ⟨_, hg'⟩ | ⟨_, _, rets, sims, gens, wr, wg, wsim, pts', hp, hk, hr, hd, hgn, hg0⟩
  · rcases hg' with hg' | hg'
    · rw [hg] at hg'; simp at hg'
    · rw [hi] at hg'; simp at hg'
  · have hm : w ∈ keys rets := by
      rw [hk, List.mem_filter]; exact ⟨(idleGen_iff hp.retw w).mpr hw, allBack_iff.mpr hb⟩
    obtain ⟨e, he, rfl⟩ := List.mem_map.mp hm
    obtain ⟨rows, hrow, _⟩ := hr e he
    exact (ibBack_spec hrow).2.2.2

/-! ## C57: start_persistent_local_opt_gens -/

/-- An order that starts a run: a persistent generator on a worker where none runs. -/
def startsRun (c : Ctx) (e : Nat × Work) : Bool :=
  decide (e.2.tag = EVAL_GEN) && e.2.persistent && c.W.all fun k => decide (k.id = e.1 → k.persis ≠ EVAL_GEN)

theorem lo_parts_start {c : Ctx} {pick : List Nat → List Nat} {p : PInfo} {s : Sched} {a : Answer} {rets starts sims gens : WorkD}
    {wr wg wsim pts' : List Nat} (h : MoreParts c pick p s a rets starts sims gens wr wg wsim pts')
    (hg : ∀ e ∈ gens, e.2.persistent = false) {e : Nat × Work} (he : e ∈ rets ++ starts ++ sims ++ gens) (hs : startsRun c e = true) :
    e ∈ starts := by
  unfold startsRun at hs
  rw [Bool.and_eq_true, Bool.and_eq_true, List.all_eq_true, decide_eq_true_iff] at hs
  obtain ⟨⟨h1, h2⟩, h3⟩ := hs
  simp only [List.mem_append] at he
  rcases he with ((he | he) | he) | he
  · obtain ⟨k, k1, k2, _, k3⟩ := availIds_state h.retw (h.retk.subset (List.mem_map_of_mem he))
    have := of_decide_eq_true (h3 k k1) k2
    exact absurd k3 this
  · exact he
  · rw [(h.shape _ he).tag] at h1; simp [EVAL_GEN, EVAL_SIM] at h1
  · rw [hg e he] at h2; simp at h2

theorem lo_gens {c : Ctx} {gens : WorkD} (h : gens = [] ∨ ∃ w wk, gens = [(w, wk)] ∧ GenShape c.genIn [] false none wk) :
    ∀ e ∈ gens, e.2.persistent = false := by
  intro e he
  rcases h with h | ⟨w, wk, h, hsh⟩
  · rw [h] at he; simp at he
  · rw [h, List.mem_singleton] at he; subst he; exact hsh.pers

/-- A running run gets the result of its row that was given out last, once all its rows are evaluated. -/
theorem C57_returns (c : Ctx) (hW : IdsOk c.W) (o : LoOpts) (p : PInfo) (s : Sched) (a : Answer) (h : loAlloc c o p s = .ok a) :
    (∀ w wk, (w, wk) ∈ a.work → IdleGen c w → wk.tag = EVAL_GEN ∧ wk.persistent = true ∧ AllBack c.H w ∧
      ∃ i, wk.rows = [i] ∧ OwnRow c.H w i ∧ ∀ j, OwnRow c.H w j →
        intAt c.H .simStartedTime j ≤ intAt c.H .simStartedTime i ∧
        (intAt c.H .simStartedTime j = intAt c.H .simStartedTime i → i ≤ j)) ∧
    (c.simMaxGiven = false → c.anyIdle = true → ∀ w, IdleGen c w → AllBack c.H w → w ∈ a.work.map (·.1)) := by
  rcases lo_spec h with ⟨h1, hg⟩ | ⟨_, _, rets, starts, sims, gens, wr, wg, wsim, pts', hp, hk, hr, _⟩
  · refine ⟨by rw [h1]; simp, ?_⟩
    intro hs hi
    rcases hg with hg | hg
    · rw [hs] at hg; simp at hg
    · rw [hi] at hg; simp at hg
  · refine ⟨?_, ?_⟩
    · intro w wk hm hw
      have hwr := (idleGen_iff hp.retw w).mpr hw
      have hm' : (w, wk) ∈ rets := by
        rcases hp.mem hm with h1 | h1 | h1 | h1
        · exact h1
        · exact absurd (hp.startk.subset (List.mem_map_of_mem h1)) (availIds_disj hW (by decide) hp.retw hp.genw hwr)
        · exact absurd (hp.simk.subset (List.mem_map_of_mem h1)) (availIds_disj hW (by decide) hp.retw hp.simw hwr)
        · exact absurd (hp.genk.subset (List.mem_map_of_mem h1)) (availIds_disj hW (by decide) hp.retw hp.genw hwr)
      obtain ⟨i, is, hb, hsh⟩ := hr _ hm'
      have hkey : w ∈ keys rets := List.mem_map_of_mem hm'
      rw [hk, List.mem_filter] at hkey
      have hsort := rowsWhere_sorted c.H (ofGen w)
      rw [hb] at hsort
      obtain ⟨g1, g2⟩ := argMax_spec (intAt c.H .simStartedTime) is i hsort
      rw [← hb] at g1 g2
      exact ⟨hsh.tag, hsh.pers, allBack_iff.mp hkey.2, _, hsh.rows, mem_own.mp g1, fun j hj => g2 j (mem_own.mpr hj)⟩
    · intro _ _ w hw hd
      have hm : w ∈ keys rets := by
        rw [hk, List.mem_filter]; exact ⟨(idleGen_iff hp.retw w).mpr hw, allBack_iff.mpr hd⟩
      rw [hp.work]
      have : w ∈ keys (rets ++ starts ++ sims ++ gens) := by unfold keys at hm ⊢; simp only [List.map_append, List.mem_append]; exact .inl (.inl (.inl hm))
      exact mem_keys_puts.mpr (.inr this)

/-- Runs start on idle workers, at a best row of those proposed, and only when a row that belongs to no run is evaluated; with the running
ones they are always fewer than the workers. -/
theorem C57_starts (c : Ctx) (o : LoOpts) (p : PInfo) (s : Sched) (a : Answer) (h : loAlloc c o p s = .ok a) :
    (∀ e ∈ a.work, startsRun c e = true → IdleWorker c e.1 ∧ (∃ r ∈ c.H, r.flag o.localPt = false ∧ r.flag .simEnded = true) ∧
      ∃ l i, e.2.rows = [i] ∧ i ∈ o.cand l ∧ ∀ j ∈ o.cand l, intAt c.H o.f i ≤ intAt c.H o.f j) ∧
    ((∃ e ∈ a.work, startsRun c e = true) → countPersisGens c.W + a.work.countP (startsRun c) < c.W.length) := by
  rcases lo_spec h with ⟨h1, hg⟩ | ⟨_, _, rets, starts, sims, gens, wr, wg, wsim, pts', hp, hk, hr, hst, hlim, _, _, hg, _⟩
  · rw [h1]; simp
  · have hin : ∀ {e}, e ∈ rets ++ starts ++ sims ++ gens → startsRun c e = true → e ∈ starts := fun he hs => lo_parts_start hp (lo_gens hg) he hs
    obtain ⟨l, hl, hsub⟩ := hp.sub
    have hmem : ∀ {e}, e ∈ a.work → e ∈ rets ++ starts ++ sims ++ gens := fun he => hsub.subset (hl.mem_iff.mp he)
    refine ⟨?_, ?_⟩
    · intro e he hs
      have hes := hin (hmem he) hs
      obtain ⟨k, k1, k2, k3, k4⟩ := availIds_state hp.genw (hp.startk.subset (List.mem_map_of_mem hes))
      obtain ⟨l, i, is, hc, hsh⟩ := hst.mem e hes
      refine ⟨⟨k, k1, k2, k4, k3⟩, ?_⟩
      unfold loCand at hc
      split at hc
      · rename_i hany
        rw [List.any_eq_true] at hany
        obtain ⟨r, hr1, hr2⟩ := hany
        simp at hr2
        obtain ⟨g1, g2⟩ := argMax_max (fun j => -intAt c.H o.f j) is i
        refine ⟨⟨r, hr1, hr2⟩, l, _, hsh.rows, by rw [hc]; exact g1, fun j hj => ?_⟩
        rw [hc] at hj
        have := g2 j hj
        omega
      · cases hc
    · rintro ⟨e, he, hs⟩
      have hes := hin (hmem he) hs
      have h1 := hlim (List.ne_nil_of_mem hes)
      have h2 : a.work.countP (startsRun c) ≤ starts.length := by
        rw [hl.countP_eq]
        refine Nat.le_trans (hsub.countP_le) ?_
        rw [List.countP_append, List.countP_append, List.countP_append]
        have c1 : rets.countP (startsRun c) = 0 := by
          rw [List.countP_eq_zero]
          intro e he hs
          unfold startsRun at hs
          rw [Bool.and_eq_true, List.all_eq_true] at hs
          obtain ⟨k, k1, k2, _, k3⟩ := availIds_state hp.retw (hp.retk.subset (List.mem_map_of_mem he))
          exact absurd k3 (of_decide_eq_true (hs.2 k k1) k2)
        have c2 : sims.countP (startsRun c) = 0 := by
          rw [List.countP_eq_zero]
          intro e he hs
          unfold startsRun at hs
          rw [Bool.and_eq_true, Bool.and_eq_true, decide_eq_true_iff, (hp.shape _ he).tag] at hs
          simp [EVAL_GEN, EVAL_SIM] at hs
        have c3 : gens.countP (startsRun c) = 0 := by
          rw [List.countP_eq_zero]
          intro e he hs
          unfold startsRun at hs
          rw [Bool.and_eq_true, Bool.and_eq_true, lo_gens hg e he] at hs
          simp at hs
        rw [c1, c2, c3]
        have := List.countP_le_length (p := startsRun c) (l := starts)
        omega
      omega

/-- No order starts a generator for a sample. -/
def NoSample (work : WorkD) : Prop := ∀ w wk, (w, wk) ∈ work → wk.tag = EVAL_GEN → wk.persistent = true

theorem puts_last {β} {d es : List (Nat × β)} (hd : (d.map (·.1)).Nodup) (h : (es.map (·.1)).Nodup) {e : Nat × β} (he : e ∈ es) : e ∈ puts d es :=
  (puts_perm hd h).mem_iff.mpr (List.mem_append_right _ he)

/-- Waiting rows are given out one at a time to idle workers, none twice; rows of runs come before others and older ones before younger
ones.  Partial: the last part is for answers without a generator for a sample, see the witness. -/
theorem C57_evaluations_partial (c : Ctx) (hW : IdsOk c.W) (o : LoOpts) (p : PInfo) (s : Sched) (a : Answer) (h : loAlloc c o p s = .ok a) :
    (∀ w wk, (w, wk) ∈ a.work → wk.tag = EVAL_SIM → IdleWorker c w ∧ ∃ i, wk.rows = [i] ∧ Waits c.H i) ∧
    (∀ w wk w' wk' i, (w, wk) ∈ a.work → (w', wk') ∈ a.work → wk.tag = EVAL_SIM → wk'.tag = EVAL_SIM → i ∈ wk.rows → i ∈ wk'.rows → w = w') ∧
    (NoSample a.work → ∀ i j, GivenOut a.work i → Waits c.H j →
      (isLocal c.H o.localPt j = true ∧ isLocal c.H o.localPt i = false) ∨ (isLocal c.H o.localPt j = isLocal c.H o.localPt i ∧ j < i) →
      GivenOut a.work j) ∧
    (NoSample a.work → c.manage = false → c.simMaxGiven = false → c.anyIdle = true →
      (∀ j, Waits c.H j → GivenOut a.work j) ∨ ∀ w, IdleEval c w → w ∈ a.work.map (·.1)) := by
  rcases lo_spec h with ⟨h1, hg⟩ | ⟨_, _, rets, starts, sims, gens, wr, wg, wsim, pts', hp, hk, hr, hst, hlim, hd, _, hg, _⟩
  · rw [h1]
    refine ⟨by simp, by simp, ?_, fun _ _ hs hi => ?_⟩
    · rintro _ i j ⟨w, wk, h1, _⟩; simp at h1
    rcases hg with hg | hg
    · rw [hs] at hg; simp at hg
    · rw [hi] at hg; simp at hg
  · have hsub := localFirst_sub c.H o.localPt
    have hpk := hp.picked.local (rowsWhere_sorted _ _)
    have hparts := hp.picked.parts hsub (rowsWhere_nodup _ _)
    have hgens : NoSample a.work → gens = [] := by
      intro hn
      rcases hg with hg | ⟨w, wk, hg, hsh⟩
      · exact hg
      · have hm : (w, wk) ∈ a.work := by
          rw [hp.work, puts_append]
          exact puts_last (puts_nodup (by simp)) (by rw [hg]; simp) (by rw [hg]; simp)
        have := hn w wk hm hsh.tag
        rw [hsh.pers] at this; simp at this
    have hall : NoSample a.work → ∀ e ∈ sims, e ∈ a.work := by
      intro hn e he
      rw [hp.work, hgens hn, List.append_nil, puts_append]
      exact puts_last (puts_nodup (by simp)) (hp.simk.nodup (availIds_nodup hW hp.simw)) he
    refine ⟨?_, fun w wk w' wk' i h1 h2 h3 h4 h5 h6 => more_once hp hsub h1 h2 h3 h4 h5 h6, ?_, ?_⟩
    · intro w wk hm ht
      obtain ⟨g1, _, g2⟩ := more_sims hp hm ht
      obtain ⟨i, hi⟩ := hpk.1 _ g2
      exact ⟨g1, i, hi, mem_waiting.mp (hparts.2.1 i (List.mem_flatten.mpr ⟨_, g2, by rw [hi]; simp⟩))⟩
    · intro hn i j hi hj hlt
      rw [more_given hp (hall hn)] at hi ⊢
      apply Decidable.byContradiction
      intro hne
      have := hpk.2 i hi j (more_left hp hsub (mem_waiting.mpr hj) hne)
      rcases hlt with ⟨h1, h2⟩ | ⟨h1, h2⟩
      · have := this.1 h1; rw [h2] at this; simp at this
      · have := this.2 h1; omega
    · intro hn hm _ _
      rcases hd hm with hd | hd
      · refine .inl fun j hj => ?_
        rw [more_given hp (hall hn)]
        apply Decidable.byContradiction
        intro hne
        have := more_left hp hsub (mem_waiting.mpr hj) hne
        rw [hd] at this; simp at this
      · refine .inr fun w hw => ?_
        have : w ∈ keys sims := by rw [hd]; exact idleEval_mem hp.simw hw
        obtain ⟨e, he, rfl⟩ := List.mem_map.mp this
        exact List.mem_map_of_mem (hall hn e he)

/-- A generator for a sample is started only when no generator runs, none is busy and no run starts: on an idle worker, without rows,
and at most one; shutdown is never asked for. -/
theorem C57_sample (c : Ctx) (o : LoOpts) (p : PInfo) (s : Sched) (a : Answer) (h : loAlloc c o p s = .ok a) :
    a.flag = false ∧
    (∀ w wk, (w, wk) ∈ a.work → wk.tag = EVAL_GEN → wk.persistent = false →
      NoGen c ∧ (∀ k ∈ c.W, k.active = EVAL_GEN → k.persis ≠ 0) ∧ IdleWorker c w ∧ wk.rows = [] ∧
      ∀ w' wk', (w', wk') ∈ a.work → wk'.tag = EVAL_GEN → w' = w) := by
  rcases lo_spec h with ⟨h1, hg⟩ | ⟨_, _, rets, starts, sims, gens, wr, wg, wsim, pts', hp, hk, hr, hst, hlim, hd, hiff, hg, _⟩
  · rw [h1]; simp
  · refine ⟨hp.flag, ?_⟩
    intro w wk hm ht hpers
    have hgm : (w, wk) ∈ gens := by
      rcases hp.mem hm with h1 | h1 | h1 | h1
      · have := (hp.ret _ h1).2.1; simp only at this; rw [hpers] at this; simp at this
      · have := (hp.start _ h1).2.1; simp only at this; rw [hpers] at this; simp at this
      · have := (hp.shape _ h1).tag; simp only at this; rw [ht] at this; simp [EVAL_GEN, EVAL_SIM] at this
      · exact h1
    have hne : ¬ (countPersisGens c.W ≠ 0 ∨ starts ≠ [] ∨ ∃ k ∈ c.W, k.active = EVAL_GEN ∧ k.persis = 0) := by
      rw [← hiff]; exact List.ne_nil_of_mem hgm
    rw [not_or, not_or] at hne
    obtain ⟨n1, n2, n3⟩ := hne
    have n1 := noGen_iff.mpr (Decidable.not_not.mp n1)
    have n2 : starts = [] := Decidable.not_not.mp (by simpa using n2)
    rcases hg with hg | ⟨w0, wk0, hg, hsh⟩
    · rw [hg] at hgm; simp at hgm
    · rw [hg, List.mem_singleton] at hgm
      cases hgm
      obtain ⟨k, k1, k2, k3, k4⟩ := availIds_state hp.genw (w := w) (hp.genk.subset (by rw [hg]; simp [keys]))
      refine ⟨n1, fun k hk ha hz => n3 ⟨k, hk, ha, hz⟩, ⟨k, k1, k2, k4, k3⟩, hsh.rows, ?_⟩
      intro w' wk' hm' ht'
      rcases hp.mem hm' with h1 | h1 | h1 | h1
      · obtain ⟨k, k1, _, k3, _⟩ := (idleGen_iff hp.retw w').mp (hp.retk.subset (List.mem_map_of_mem h1))
        exact absurd k3 (n1 k k1)
      · rw [n2] at h1; simp at h1
      · have := (hp.shape _ h1).tag; simp only at this; rw [ht'] at this; simp [EVAL_GEN, EVAL_SIM] at this
      · rw [hg, List.mem_singleton] at h1
        exact (Prod.mk.inj h1).1

/-- When some workers are reserved for generators, a run is started as soon as a row is proposed, a reserved worker is idle and the limit allows
it; and a generator for a sample is started if nothing runs, nothing is busy and no row is proposed.  Partial: without reserved workers an
order to evaluate may take the place of the start, see the witness; with resource management the sets may not suffice. -/
theorem C57_progress_partial (c : Ctx) (hW : IdsOk c.W) (o : LoOpts) (p : PInfo) (s : Sched) (a : Answer) (h : loAlloc c o p s = .ok a)
    (hs : c.simMaxGiven = false) (hi : c.anyIdle = true) (hm : c.manage = false)
    (w : Nat) (hw : ∃ k ∈ c.W, k.id = w ∧ k.persis = 0 ∧ k.active = 0 ∧ k.genWorker = true) :
    ((∃ r ∈ c.H, r.flag o.localPt = false ∧ r.flag .simEnded = true) → o.cand [] ≠ [] → countPersisGens c.W + 1 < c.W.length →
      ∃ e ∈ a.work, startsRun c e = true) ∧
    (NoGen c → (∀ k ∈ c.W, k.active = EVAL_GEN → k.persis ≠ 0) → ∃ e ∈ a.work, e.2.tag = EVAL_GEN) := by
  rcases lo_spec h with ⟨h1, hg⟩ | ⟨_, _, rets, starts, sims, gens, wr, wg, wsim, pts', hp, hk, hr, hst, hlim, hd, hiff, hg, hsome⟩
  · rcases hg with hg | hg
    · rw [hs] at hg; simp at hg
    · rw [hi] at hg; simp at hg
  · have hany : c.W.any (·.genWorker) = true := by
      obtain ⟨k, k1, _, _, _, k2⟩ := hw
      exact List.any_eq_true.mpr ⟨k, k1, k2⟩
    have hdisj : ∀ v, v ∈ wg → v ∉ wsim := by
      intro v h1 h2
      rw [(availIds_ok hp.genw).2, List.mem_map] at h1
      rw [(availIds_ok hp.simw).2, List.mem_map] at h2
      obtain ⟨k, k1, k2⟩ := h1
      obtain ⟨k', k1', k2'⟩ := h2
      rw [List.mem_filter] at k1 k1'
      have : k = k' := same_wrk hW k1.1 k1'.1 (by rw [k2, k2'])
      subst this
      have e1 := k1.2
      have e2 := k1'.2
      simp only [hany, Bool.not_true, Bool.false_or, Bool.and_eq_true, decide_eq_true_iff] at e1 e2
      rw [e1.2] at e2
      simp at e2
    have hone : starts = [] ∨ gens = [] := by
      by_cases h1 : starts = []
      · exact .inl h1
      · exact .inr (hiff.mpr (.inr (.inl h1)))
    have hsn := hp.simk.nodup (availIds_nodup hW hp.simw)
    have hwh := hp.whole hW (by
      rcases hone with h1 | h1
      · subst h1
        unfold keys at hsn ⊢
        rw [List.nil_append, List.map_append, List.nodup_append]
        refine ⟨hsn, hp.genk.nodup (availIds_nodup hW hp.genw), ?_⟩
        intro x hx y hy e
        subst e
        exact hdisj x (hp.genk.subset hy) (hp.simk.subset hx)
      · subst h1
        unfold keys at hsn ⊢
        rw [List.append_nil, List.map_append, List.nodup_append]
        refine ⟨hp.startk.nodup (availIds_nodup hW hp.genw), hsn, ?_⟩
        intro x hx y hy e
        subst e
        exact hdisj x (hp.startk.subset hx) (hp.simk.subset hy))
    have hwg : wg ≠ [] := by
      obtain ⟨k, k1, k2, k3, k4, k5⟩ := hw
      refine List.ne_nil_of_mem (a := w) ?_
      rw [(availIds_ok hp.genw).2, List.mem_map]
      exact ⟨k, List.mem_filter.mpr ⟨k1, by simp [k3, k4, k5]⟩, k2⟩
    refine ⟨?_, ?_⟩
    · rintro ⟨r, r1, r2, r3⟩ hc hl
      have hne : loCand c o [] ≠ [] := by
        unfold loCand
        rw [if_pos (List.any_eq_true.mpr ⟨r, r1, by simp [r2, r3]⟩)]
        exact hc
      obtain ⟨e, he⟩ := List.exists_mem_of_ne_nil _ (hsome hm hwg hne hl)
      refine ⟨e, by rw [hwh]; simp [he], ?_⟩
      unfold startsRun
      rw [Bool.and_eq_true, Bool.and_eq_true, List.all_eq_true]
      refine ⟨⟨by simp [(hp.start e he).1], (hp.start e he).2.1⟩, fun k hk => decide_eq_true fun hid => ?_⟩
      obtain ⟨k', k1, k2, _, k4⟩ := availIds_state hp.genw (hp.startk.subset (List.mem_map_of_mem he))
      have : k = k' := same_wrk hW hk k1 (by rw [hid, k2])
      subst this
      rw [k4]; decide
    · intro hn hb
      by_cases h1 : starts = []
      · have : gens ≠ [] := by
          intro hg0
          rcases hiff.mp hg0 with h | h | ⟨k, k1, k2, k3⟩
          · exact h (noGen_iff.mp hn)
          · exact h h1
          · exact hb k k1 k2 k3
        obtain ⟨e, he⟩ := List.exists_mem_of_ne_nil _ this
        exact ⟨e, by rw [hwh]; simp [he], (hp.gen e he).1⟩
      · obtain ⟨e, he⟩ := List.exists_mem_of_ne_nil _ h1
        exact ⟨e, by rw [hwh]; simp [he], (hp.start e he).1⟩

/-! ## Examples and witnesses -/

/-- One generator (worker 1) waits for results; workers 2 and 3 are idle.  Pair (0, 0) is complete for `nf = 2`, of pair (0, 1) one row is
evaluated; rows 3, 4 and 5 wait. -/
def fdCtx : Ctx := { exCtx with
  W := [{ id := 1, persis := 2 }, { id := 2 }, { id := 3 }]
  manage := false
  H := [mkRow [(.simId, .s 0), (.user 1, .s 0), (.user 2, .s 0), (.simStarted, .s 1), (.simEnded, .s 1)],
        mkRow [(.simId, .s 1), (.user 1, .s 0), (.user 2, .s 1), (.simStarted, .s 1), (.simEnded, .s 1)],
        mkRow [(.simId, .s 2), (.user 1, .s 0), (.user 2, .s 0), (.simStarted, .s 1), (.simEnded, .s 1)],
        mkRow [(.simId, .s 3), (.user 1, .s 0), (.user 2, .s 1)],
        mkRow [(.simId, .s 4), (.user 1, .s 1), (.user 2, .s 0)], mkRow [(.simId, .s 5), (.user 1, .s 1), (.user 2, .s 1)]] }

def fdEx : FdOpts := ⟨.user 1, .user 2, 2, 2, 2⟩

theorem fdCtx_ok : TableOk fdCtx ∧ SpecsOk fdCtx ∧ IdsAreRows fdCtx.H := by
  refine ⟨⟨?_, by decide⟩, ⟨by decide, by decide, by decide⟩, ?_⟩
  · intro i k h
    match i, h with
    | 0, h => cases h; rfl
    | 1, h => cases h; rfl
    | 2, h => cases h; rfl
    | n + 3, h => simp [fdCtx] at h
  · intro i r h
    match i, h with
    | 0, h => cases h; rfl
    | 1, h => cases h; rfl
    | 2, h => cases h; rfl
    | 3, h => cases h; rfl
    | 4, h => cases h; rfl
    | 5, h => cases h; rfl
    | n + 6, h => simp [fdCtx] at h

example : (fdAlloc fdCtx fdEx {} noSched).map (fun a => (a.work.map fun e => (e.1, e.2.tag, e.2.rows), a.flag)) =
    .ok ([(1, 2, [0, 2]), (2, 1, [3]), (3, 1, [4])], false) := by decide +kernel
example : (fdAlloc { fdCtx with W := [{ id := 1 }, { id := 2 }], H := [] } fdEx {} noSched).map
    (fun a => (a.work.map fun e => (e.1, e.2.tag, e.2.rows), a.flag)) = .ok ([(1, 2, [])], false) := by decide +kernel
example : (fdAlloc { fdCtx with W := [{ id := 1 }, { id := 2 }] } fdEx {} noSched).map
    (fun a => (a.work.map fun e => (e.1, e.2.tag, e.2.rows), a.flag)) = .ok ([], true) := by decide +kernel

/-- A pair with more than `nf` evaluated rows is never returned: with `nf = 1` the rows of (0, 0) stay, those of (0, 1) go. -/
theorem C55_too_many_witness : (fdAlloc fdCtx { fdEx with nf := 1 } {} noSched).map (fun a => a.work.map fun e => (e.1, e.2.tag, e.2.rows)) =
    .ok [(1, 2, [1]), (2, 1, [3]), (3, 1, [4])] ∧ FdRow fdCtx.H fdEx 0 0 0 := by
  refine ⟨by decide +kernel, ?_⟩
  exact ⟨_, rfl, rfl, rfl, rfl, rfl⟩

/-- Generator 1 made two batches of two subbatches; the first is evaluated, of the second subbatch 0 waits. -/
def ibCtx : Ctx := { exCtx with
  W := [{ id := 1, persis := 2 }, { id := 2 }, { id := 3 }]
  manage := false
  H := [mkRow [(.genWorker, .s 1), (.user 1, .s 0), (.user 2, .s 1)], mkRow [(.genWorker, .s 1), (.user 1, .s 0), (.user 2, .s 0)],
        mkRow [(.genWorker, .s 1), (.user 1, .s 0), (.user 2, .s 1)], mkRow [(.genWorker, .s 1), (.user 1, .s 0), (.user 2, .s 0)]] }

def ibCtx2 : Ctx := { ibCtx with
  H := [mkRow [(.genWorker, .s 1), (.user 1, .s 0), (.simStarted, .s 1), (.simEnded, .s 1)],
        mkRow [(.genWorker, .s 1), (.user 1, .s 0), (.simStarted, .s 1), (.simEnded, .s 1)],
        mkRow [(.genWorker, .s 1), (.user 1, .s 1), (.simStarted, .s 1), (.simEnded, .s 1)],
        mkRow [(.genWorker, .s 1), (.user 1, .s 1), (.simStarted, .s 1), (.simEnded, .s 1)]] }

def ibEx : IbOpts := ⟨.user 1, .user 2, 2⟩

example : (ibAlloc ibCtx ibEx (.user 3) {} noSched).map (fun a => a.work.map fun e => (e.1, e.2.tag, e.2.rows)) =
    .ok [(2, 1, [1, 3]), (3, 1, [0, 2])] ∧
    (ibAlloc ibCtx2 ibEx (.user 3) {} noSched).map (fun a => a.work.map fun e => (e.1, e.2.tag, e.2.rows)) = .ok [(1, 2, [2, 3])] ∧
    (ibAlloc { ibCtx with W := [{ id := 1 }, { id := 2 }], H := [] } ibEx (.user 3) {} noSched).map
      (fun a => a.work.map fun e => (e.1, e.2.tag, e.2.rows)) = .ok [(1, 2, [])] := by decide +kernel

/-- With a second generator the function raises. -/
theorem C56_two_generators_witness :
    (ibAlloc { ibCtx2 with W := [{ id := 1, persis := 2 }, { id := 2, persis := 2 }, { id := 3 }],
                           H := ibCtx2.H ++ [mkRow [(.genWorker, .s 2), (.user 1, .s 0)]] } ibEx (.user 3) {} noSched).map (·.flag) =
      .error .valueError := by decide +kernel

/-- Two runs: that of worker 1 has its rows 0 and 1 evaluated, that of worker 2 waits for row 2; rows 3 (no run) and 4 (run of 2) wait. -/
def loCtx : Ctx := { exCtx with
  W := [{ id := 1, persis := 2 }, { id := 2, persis := 2 }, { id := 3 }, { id := 4, genWorker := true }, { id := 5, genWorker := true }]
  manage := false
  H := [mkRow [(.genWorker, .s 1), (.user 1, .s 1), (.simStartedTime, .s 7), (.simStarted, .s 1), (.simEnded, .s 1)],
        mkRow [(.genWorker, .s 1), (.user 1, .s 1), (.simStartedTime, .s 5), (.simStarted, .s 1), (.simEnded, .s 1)],
        mkRow [(.genWorker, .s 2), (.user 1, .s 1), (.simStartedTime, .s 8), (.simStarted, .s 1)],
        mkRow [(.genWorker, .s 3), (.user 1, .s 0)], mkRow [(.genWorker, .s 2), (.user 1, .s 1)],
        mkRow [(.genWorker, .s 3), (.user 1, .s 0), (.user 2, .s 9), (.simStartedTime, .s 2), (.simStarted, .s 1), (.simEnded, .s 1)],
        mkRow [(.genWorker, .s 3), (.user 1, .s 0), (.user 2, .s 4), (.simStartedTime, .s 2), (.simStarted, .s 1), (.simEnded, .s 1)]] }

/-- Rows 5 and 6 are proposed until runs are started there. -/
def loEx : LoOpts := ⟨.user 1, .user 2, fun l => [5, 6].filter (· ∉ l)⟩

theorem loCtx_ok : TableOk loCtx ∧ SpecsOk loCtx := by
  refine ⟨⟨?_, by decide⟩, ⟨by decide, by decide, by decide⟩⟩
  intro i k h
  match i, h with
  | 0, h => cases h; rfl
  | 1, h => cases h; rfl
  | 2, h => cases h; rfl
  | 3, h => cases h; rfl
  | 4, h => cases h; rfl
  | n + 5, h => simp [loCtx] at h

example : (loAlloc loCtx loEx {} noSched).map (fun a => a.work.map fun e => (e.1, e.2.tag, e.2.rows)) =
    .ok [(1, 2, [0]), (4, 2, [6]), (5, 2, [5]), (3, 1, [4])] := by decide +kernel
example : (loAlloc { loCtx with W := [{ id := 1 }, { id := 2, genWorker := true }], H := [] } loEx {} noSched).map
    (fun a => a.work.map fun e => (e.1, e.2.tag, e.2.rows, e.2.persistent)) = .ok [(2, 2, [], false)] := by decide +kernel

/-- Without reserved workers the start of a run is lost: a run is started at row 6 on worker 1 in the loop (and noted in the history
as started), then the worker is told to evaluate row 4 instead. -/
theorem C57_start_lost_witness :
    let c : Ctx := { loCtx with W := [{ id := 1 }, { id := 2, active := 1 }, { id := 3, active := 1 }] }
    (loStarts c loEx [1] [] ⟨noSched, [], waiting c.H, 0, {}⟩).map (fun st => st.work.map fun e => (e.1, e.2.tag, e.2.rows)) = .ok [(1, 2, [6])] ∧
    (loAlloc c loEx {} noSched).map (fun a => a.work.map fun e => (e.1, e.2.tag, e.2.rows)) = .ok [(1, 1, [4])] := by decide +kernel

/-- Without reserved workers the generator for a sample takes the place of the first order to evaluate: row 0 waits although
the younger row 1 is given out. -/
theorem C57_order_witness :
    let c : Ctx := { loCtx with W := [{ id := 1 }, { id := 2 }], H := [mkRow [(.user 1, .s 0)], mkRow [(.user 1, .s 0)]] }
    (loAlloc c loEx {} noSched).map (fun a => a.work.map fun e => (e.1, e.2.tag, e.2.rows)) = .ok [(1, 2, []), (2, 1, [1])] := by decide +kernel

end Verif.Alloc
