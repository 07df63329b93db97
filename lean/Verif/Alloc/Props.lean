import Verif.Alloc.ReqLemmas
import Verif.History.Props
import Verif.Scheduler.Props
/-!
Properties C30-C35: resource requests, choice of workers, priorities and the rules of the bundled allocation functions.

`Ctx` is what an allocation function reads in one call (worker table, visible history, specifications);
the worker table, the history and all options are arbitrary unless a hypothesis says otherwise.
-/
namespace Verif.Alloc
open Verif.History Verif.Res Verif.Sched

/-! ## C30 -/

/-- `u` processors or GPUs with `per` per set are converted to `n` sets exactly if `n` is the least number whose sets cover
`u`; the only failure is asking for something the sets do not have. -/
theorem C30_convert (u per : Nat) :
    (∀ n, convertToRsets u per = .ok n ↔ (u ≤ n * per ∧ ∀ m, u ≤ m * per → n ≤ m)) ∧
    ((∃ e, convertToRsets u per = .error e) ↔ ¬ ∃ m, u ≤ m * per) ∧
    (∀ e, convertToRsets u per = .error e → e = .insufficientResources) := by
  have hex : (∃ m, u ≤ m * per) → ∃ n, convertToRsets u per = .ok n := by
    rintro ⟨m, hm⟩
    unfold convertToRsets
    split
    · rename_i hu
      split
      · rename_i hp; subst hp; omega
      · exact ⟨_, rfl⟩
    · exact ⟨0, rfl⟩
  refine ⟨?_, ?_, ?_⟩
  · intro n
    constructor
    · intro h; exact ⟨(ceil_least h n).mp (Nat.le_refl n), fun m hm => (ceil_least h m).mpr hm⟩
    · rintro ⟨h1, h2⟩
      obtain ⟨k, hk⟩ := hex ⟨n, h1⟩
      rw [hk]
      congr 1
      exact Nat.le_antisymm ((ceil_least hk n).mpr h1) (h2 k ((ceil_least hk k).mp (Nat.le_refl k)))
  · constructor
    · rintro ⟨e, he⟩ hm
      obtain ⟨n, hn⟩ := hex hm
      rw [he] at hn; cases hn
    · intro hm
      cases h : convertToRsets u per with
      | error e => exact ⟨e, rfl⟩
      | ok n => exact absurd ⟨n, (ceil_least h n).mp (Nat.le_refl n)⟩ hm
  · intro e h
    unfold convertToRsets at h
    split at h
    · split at h
      · injection h with h; exact h.symm
      · cases h
    · cases h

example : convertToRsets 7 3 = .ok 3 ∧ convertToRsets 6 3 = .ok 2 ∧ convertToRsets 1 0 = .error .insufficientResources := by decide

/-- The number of sets requested for a simulation order is the least number that is enough for every row of the
order (`EnoughSim`).  Partial: processes are only looked at if there is no column `resource_sets`; see the witness below. -/
theorem C30_sim_request_partial (c : Ctx) (rows : List Nat) (n : Nat) (ug : Option Bool) (ps : List Nat)
    (h : reqSim c rows = .ok (n, ug, ps)) (hne : rows ≠ []) :
    (∀ i ∈ rows, EnoughSim c i n) ∧ (∀ m, (∀ i ∈ rows, EnoughSim c i m) → n ≤ m) ∧
    (.numGpus ∈ c.fields → ∀ i ∈ rows, 0 < asks c.H .numGpus i → ug = some true) :=
  ⟨(reqSim_spec h hne n).mp (Nat.le_refl n), fun m => (reqSim_spec h hne m).mpr,
   fun hg _ hi hp => reqSim_gpu h hg hi hp⟩

/-- The number of sets requested for a generator: the explicit number, or else the least that covers processes and GPUs. -/
theorem C30_gen_request (c : Ctx) (p : PInfo) (n : Nat) (ug : Option Bool) (ps : List Nat) (h : reqGen c p = .ok (n, ug, ps)) :
    (p.genResources > 0 → n = p.genResources) ∧
    (p.genResources = 0 → ∀ m, n ≤ m ↔
      p.genNumProcs.getD c.genDefProcs ≤ m * c.ppr ∧ p.genNumGpus.getD c.genDefGpus ≤ m * c.gpr) := reqGen_spec h

/-- The team of a simulation order has at least as many sets as the request, so it covers every row; if a row wants
GPUs, every set of the team has GPUs.  `SInv` holds for every scheduler state of a call (`mkSched_inv`, `steps_new`). -/
theorem C30_team_covers (c : Ctx) (rm : RM) (hrm : c.rm = some rm) (hw : LWF rm) (hord : ∀ l, (c.ord l).Perm l)
    (sf ms : Bool) (P : List Nat) (s s' : Sched) (hs : SInv rm sf ms P s) (p : PInfo) (w : Nat) (rows : List Nat) (pers : Bool)
    (wk : Work) (hm : c.manage = true) (k : Nat) (q : Wrk) (hk : wPos c.gom c.W.length w = some k) (hq : c.W[k]? = some q)
    (hp : q.persis = 0) (hne : rows ≠ []) (h : simWork c p s w rows pers = (s', .ok wk)) :
    ∃ team, wk.team = some team ∧ (∀ i ∈ rows, EnoughSim c i team.length) ∧
      (.numGpus ∈ c.fields → ∀ i ∈ rows, 0 < asks c.H .numGpus i → ∀ j ∈ team, ∃ x, rm.rsets[j]? = some x ∧ x.gpu = true) := by
  obtain ⟨hu, _⟩ := simWork_ok h
  obtain ⟨n, ug, ps, team, h1, h2, h3, h4⟩ := updateTeam_size hrm hw hord hs hm hk hq hp hu
  simp only at h1
  exact ⟨team, h2, (reqSim_spec h1 hne team.length).mp h3, fun hg i hi hpos => h4 true (reqSim_gpu h1 hg hi hpos)⟩

/-- Example context: six sets on three nodes with one GPU set each, two free workers, two points that want processes and GPUs. -/
def exRow (l : List (Field × Val)) : Row := mkRow l
def exCtx : Ctx where
  W := [{ id := 1 }, { id := 2 }]
  gom := false
  fields := demoCols.map (·.1) ++ [.numProcs, .numGpus, .priority]
  H := [mkRow [(.numProcs, .s 5), (.numGpus, .s 0)], mkRow [(.numProcs, .s 3), (.numGpus, .s 1)]]
  manage := true
  rm := some exRM
  ord := id
  ppr := 4
  gpr := 1
  simMaxGiven := false
  anyIdle := true
  genDefProcs := 0
  genDefGpus := 0
  simIn := [.user 1]
  genIn := []
  persisIn := [.user 0]

example : reqSim exCtx [0, 1] = .ok (2, some true, [5, 1]) ∧ reqSim exCtx [0] = .ok (2, none, [5, 0]) := by decide
example : (simWork exCtx {} (mkSched exRM false true) 1 [0, 1] false).2 =
    .ok { tag := 1, fields := [.user 1], rows := [0, 1], team := some [0, 4] } := by decide +kernel
example : wPos exCtx.gom exCtx.W.length 1 = some 0 ∧ exCtx.W[0]? = some { id := 1 } := by decide

/-- With a column `resource_sets`, the processes asked for are not looked at: 5 processes with 4 per set get one set. -/
theorem C30_procs_ignored_witness :
    let c : Ctx := { exCtx with fields := .resourceSets :: exCtx.fields, H := [mkRow [(.resourceSets, .s 1), (.numProcs, .s 5)]] }
    reqSim c [0] = .ok (1, none, [0]) ∧ ¬ asks c.H .numProcs 0 ≤ 1 * c.ppr := by decide

/-! ## C31 -/

/-- `avail_worker_ids` returns exactly the suitable workers, each once. -/
theorem C31_avail_exact (W : List Wrk) (hW : (W.map (·.id)).Nodup) (pers : Option Nat) (z g : Option Bool) :
    ∃ l, availIds W pers false z g = .ok l ∧ l.Nodup ∧
    ∀ w, w ∈ l ↔ ∃ k ∈ W, k.id = w ∧ k.active = 0 ∧ (∀ q, pers = some q → k.persis = q) ∧
      ((∃ k' ∈ W, k'.zrw = true) → ∀ b, z = some b → k.zrw = b) ∧
      ((∃ k' ∈ W, k'.genWorker = true) → ∀ b, g = some b → k.genWorker = b) := by
  obtain ⟨l, hl⟩ := availIds_noRecv W pers z g
  refine ⟨l, hl, availIds_nodup hW hl, ?_⟩
  intro w
  rw [(availIds_ok hl).2, List.mem_map]
  have hz : ∀ (q : Wrk → Bool) (o : Option Bool) (v : Bool), ((!W.any q) || (match o with | none => true | some b => decide (v = b))) = true ↔
      ((∃ k' ∈ W, q k' = true) → ∀ b, o = some b → v = b) := by
    intro q o v
    rw [Bool.or_eq_true]
    constructor
    · rintro (h | h) ⟨k', h1, h2⟩ b hb
      · rw [Bool.not_eq_true', List.any_eq_false] at h
        exact absurd h2 (h k' h1)
      · subst hb; simpa using h
    · intro h
      by_cases ha : W.any q = true
      · right
        rw [List.any_eq_true] at ha
        cases o with
        | none => rfl
        | some b => exact decide_eq_true (h ha b rfl)
      · left; simpa using ha
  constructor
  · rintro ⟨k, hk, e⟩
    rw [List.mem_filter] at hk
    simp only [Bool.and_eq_true] at hk
    obtain ⟨hk1, ⟨⟨h1, h2⟩, h3⟩, h4⟩ := hk
    refine ⟨k, hk1, e, by simpa using h1, ?_, (hz _ z _).mp h3, (hz _ g _).mp h4⟩
    intro q hq; subst hq; simpa using h2
  · rintro ⟨k, hk1, e, h1, h2, h3, h4⟩
    refine ⟨k, ?_, e⟩
    rw [List.mem_filter]
    simp only [Bool.and_eq_true]
    refine ⟨hk1, ⟨⟨by simpa using h1, ?_⟩, (hz _ z _).mpr h3⟩, (hz _ g _).mpr h4⟩
    cases pers with
    | none => rfl
    | some q => exact decide_eq_true (h2 q rfl)

/-- In active-receive mode: exactly the workers of the requested persistent state that listen; asking without a persistent
state is refused. -/
theorem C31_avail_active_recv (W : List Wrk) (hW : (W.map (·.id)).Nodup) :
    (∀ q z g, q ≠ 0 → ∃ l, availIds W (some q) true z g = .ok l ∧ l.Nodup ∧
      (z = none → g = none → ∀ w, w ∈ l ↔ ∃ k ∈ W, k.id = w ∧ k.activeRecv = true ∧ k.persis = q)) ∧
    (∀ z g, availIds W none true z g = .error .allocException ∧ availIds W (some 0) true z g = .error .allocException) := by
  refine ⟨?_, fun z g => ⟨rfl, rfl⟩⟩
  intro q z g hq
  have he : ∃ l, availIds W (some q) true z g = .ok l := by
    unfold availIds
    rw [if_neg (by simp [hq])]
    exact ⟨_, rfl⟩
  obtain ⟨l, hl⟩ := he
  refine ⟨l, hl, availIds_nodup hW hl, ?_⟩
  intro hz hg w
  subst hz; subst hg
  rw [(availIds_ok hl).2, List.mem_map]
  constructor
  · rintro ⟨k, hk, e⟩
    rw [List.mem_filter] at hk
    simp at hk
    exact ⟨k, hk.1, e, hk.2.1, hk.2.2⟩
  · rintro ⟨k, hk, e, h1, h2⟩
    exact ⟨k, by rw [List.mem_filter]; simp [hk, h1, h2], e⟩

example : availIds [{ id := 1 }, { id := 2, active := 1 }, { id := 3, genWorker := true }, { id := 4, zrw := true }] none false none (some false)
    = .ok [1, 4] := by decide
example : availIds [{ id := 1 }, { id := 2, active := 1 }] none false (some true) (some true) = .ok [1] := by decide

/-- The row of worker `w` in the table as the manager finds it. -/
def wrk (c : Ctx) (w : Nat) : Option Wrk := (wPos c.gom c.W.length w).bind (c.W[·]?)

/-- What `_check_work_order` (manager.py:365-389) demands of an order to `w`, the worker table being the one of `c`. -/
def Accepted (c : Ctx) (w : Nat) (wk : Work) : Prop :=
  ∃ k, wrk c w = some k ∧ (if k.activeRecv then wk.activeRecv.isSome = true else k.active = 0) ∧
    (wk.rows ≠ [] → wk.fields ≠ [] ∧ ∀ f ∈ wk.fields, f ∈ c.fields)

/-- The worker table of a manager: worker ids are the positions (plus one without an additional worker); a worker listening
in active-receive mode is marked active. -/
structure TableOk (c : Ctx) : Prop where
  ids : ∀ i k, c.W[i]? = some k → k.id = if c.gom then i else i + 1
  recv : ∀ k ∈ c.W, k.activeRecv = true → k.active ≠ 0

/-- The `in` and `persis_in` lists name existing columns, and at least one for simulations and persistent generators. -/
structure SpecsOk (c : Ctx) : Prop where
  sim : c.simIn ≠ [] ∧ ∀ f ∈ c.simIn, f ∈ c.fields
  gen : ∀ f ∈ c.genIn, f ∈ c.fields
  persis : c.persisIn ≠ [] ∧ ∀ f ∈ c.persisIn, f ∈ c.fields

theorem TableOk.idsOk {c : Ctx} (h : TableOk c) : IdsOk c.W := by
  unfold IdsOk List.Nodup
  rw [List.pairwise_iff_getElem]
  intro i j hi hj hij
  rw [List.length_map] at hi hj
  rw [List.getElem_map, List.getElem_map]
  have h1 := h.ids i _ (List.getElem?_eq_getElem hi)
  have h2 := h.ids j _ (List.getElem?_eq_getElem hj)
  rw [h1, h2]
  split <;> omega

theorem TableOk.wrk {c : Ctx} (h : TableOk c) {k : Wrk} (hk : k ∈ c.W) : wrk c k.id = some k := by
  obtain ⟨i, hi, e⟩ := List.getElem_of_mem hk
  have h1 := h.ids i _ (List.getElem?_eq_getElem hi)
  rw [e] at h1
  unfold Alloc.wrk wPos
  by_cases hg : c.gom = true
  · rw [if_pos hg] at h1
    rw [if_pos hg, h1, if_pos hi]
    show c.W[i]? = some k
    rw [List.getElem?_eq_getElem hi, e]
  · rw [if_neg hg] at h1
    rw [if_neg hg, h1, if_neg (by omega), if_pos (by omega)]
    show c.W[i + 1 - 1]? = some k
    rw [show i + 1 - 1 = i by omega, List.getElem?_eq_getElem hi, e]

theorem accepted_idle {c : Ctx} (ht : TableOk c) {k : Wrk} (hk : k ∈ c.W) (hidle : k.active = 0) {wk : Work}
    (hf : wk.rows ≠ [] → wk.fields ≠ [] ∧ ∀ f ∈ wk.fields, f ∈ c.fields) : Accepted c k.id wk := by
  refine ⟨k, ht.wrk hk, ?_, hf⟩
  have : k.activeRecv = false := by
    cases h : k.activeRecv with
    | false => rfl
    | true => exact absurd hidle (ht.recv k hk h)
  rw [this]; exact hidle

theorem eraseDups_ne {l : List Field} (h : l ≠ []) : l.eraseDups ≠ [] := by
  cases l with
  | nil => exact absurd rfl h
  | cons a l => exact List.ne_nil_of_mem (List.mem_eraseDups.mpr List.mem_cons_self)

theorem SpecsOk.simFields {c : Ctx} (hs : SpecsOk c) {pers : Bool} {wk : Work} (h : SimShape c pers wk) :
    wk.rows ≠ [] → wk.fields ≠ [] ∧ ∀ f ∈ wk.fields, f ∈ c.fields := by
  intro _
  rw [h.fields]
  exact ⟨eraseDups_ne hs.sim.1, fun f hf => hs.sim.2 f (List.mem_eraseDups.mp hf)⟩

theorem SpecsOk.genFields {c : Ctx} (hs : SpecsOk c) {rows : List Nat} {pers : Bool} {ar : Option Bool} {wk : Work}
    (h : GenShape c.genIn rows pers ar wk) (hr : rows ≠ [] → c.genIn ≠ []) :
    wk.rows ≠ [] → wk.fields ≠ [] ∧ ∀ f ∈ wk.fields, f ∈ c.fields := by
  intro hne
  rw [h.rows] at hne
  rw [h.fields]
  exact ⟨eraseDups_ne (hr hne), fun f hf => hs.gen f (List.mem_eraseDups.mp hf)⟩

theorem SpecsOk.persisFields {c : Ctx} (hs : SpecsOk c) {rows : List Nat} {pers : Bool} {ar : Option Bool} {wk : Work}
    (h : GenShape c.persisIn rows pers ar wk) : wk.rows ≠ [] → wk.fields ≠ [] ∧ ∀ f ∈ wk.fields, f ∈ c.fields := by
  intro _
  rw [h.fields]
  exact ⟨eraseDups_ne hs.persis.1, fun f hf => hs.persis.2 f (List.mem_eraseDups.mp hf)⟩

theorem ifrows {l : List Field} {n : Nat} : (if l.isEmpty then [] else List.range n) ≠ [] → l ≠ [] := by
  intro h e; subst e; exact h rfl

/-- `give_sim_work_first`: every order of every answer is accepted, one order per worker. -/
theorem C31_give_sim_work_first_accepted (c : Ctx) (ht : TableOk c) (hs : SpecsOk c) (o : UserOpts) (p : PInfo) (s : Sched)
    (a : Answer) (h : giveSimWorkFirst c o p s = .ok a) :
    (a.work.map (·.1)).Nodup ∧ ∀ w wk, (w, wk) ∈ a.work → Accepted c w wk := by
  obtain ⟨_, _, _, h1 | ⟨_, ws, pts', hws, hp⟩ | ⟨_, _, ws, hws, hk, hsh, _⟩⟩ := gswf_spec ht.idsOk h
  · rw [h1]; exact ⟨List.nodup_nil, by simp⟩
  · refine ⟨hp.keys.nodup (availIds_nodup ht.idsOk hws), ?_⟩
    intro w wk hm
    obtain ⟨k, k1, k2, k3, _⟩ := availIds_idle hws (hp.keys.subset (List.mem_map.mpr ⟨_, hm, rfl⟩))
    subst k2
    exact accepted_idle ht k1 k3 (hs.simFields (hp.shape _ hm))
  · refine ⟨hk.nodup (availIds_nodup ht.idsOk hws), ?_⟩
    intro w wk hm
    obtain ⟨k, k1, k2, k3, _⟩ := availIds_idle hws (hk.subset (List.mem_map.mpr ⟨_, hm, rfl⟩))
    subst k2
    exact accepted_idle ht k1 k3 (hs.genFields (hsh _ hm) ifrows)

/-- `fast_alloc`. -/
theorem C31_fast_alloc_accepted (c : Ctx) (ht : TableOk c) (hs : SpecsOk c) (o : UserOpts) (p : PInfo) (s : Sched)
    (a : Answer) (h : fastAlloc c o p s = .ok a) :
    (a.work.map (·.1)).Nodup ∧ ∀ w wk, (w, wk) ∈ a.work → Accepted c w wk := by
  obtain ⟨_, _, h1 | ⟨n, n', ws, sims, gens, _, _, hwk, hws, hsim, _, _, _, ws2, hws2, hk2, hg⟩⟩ := fast_spec ht.idsOk h
  · rw [h1]; exact ⟨List.nodup_nil, by simp⟩
  · rw [hwk]
    refine ⟨?_, ?_⟩
    · rw [List.map_append, List.nodup_append]
      refine ⟨hsim.keys.nodup (availIds_nodup ht.idsOk hws), hk2.nodup (availIds_nodup ht.idsOk hws2), ?_⟩
      intro x hx y hy e
      subst e
      obtain ⟨e, he, rfl⟩ := List.mem_map.mp hy
      exact (hg e he).1 hx
    · intro w wk hm
      rcases List.mem_append.mp hm with hm | hm
      · obtain ⟨k, k1, k2, k3, _⟩ := availIds_idle hws (hsim.keys.subset (List.mem_map.mpr ⟨_, hm, rfl⟩))
        subst k2
        exact accepted_idle ht k1 k3 (hs.simFields (hsim.shape _ hm))
      · obtain ⟨k, k1, k2, k3, _⟩ := availIds_idle hws2 (hk2.subset (List.mem_map.mpr ⟨_, hm, rfl⟩))
        subst k2
        exact accepted_idle ht k1 k3 (hs.genFields (hg _ hm).2 ifrows)

/-- `ensure_one_active_gen`. -/
theorem C31_one_gen_accepted (c : Ctx) (ht : TableOk c) (hs : SpecsOk c) (p : PInfo) (s : Sched)
    (a : Answer) (h : oneGenAlloc c p s = .ok a) :
    (a.work.map (·.1)).Nodup ∧ ∀ w wk, (w, wk) ∈ a.work → Accepted c w wk := by
  obtain ⟨_, _, h1 | ⟨n, n', ws, _, _, _, hws, hsim, _⟩ | ⟨n, w0, wk0, ws, _, _, hwk, _, _, _, hws, hw, hg⟩⟩ := oneGen_spec ht.idsOk h
  · rw [h1]; exact ⟨List.nodup_nil, by simp⟩
  · refine ⟨hsim.keys.nodup (availIds_nodup ht.idsOk hws), ?_⟩
    intro w wk hm
    obtain ⟨k, k1, k2, k3, _⟩ := availIds_idle hws (hsim.keys.subset (List.mem_map.mpr ⟨_, hm, rfl⟩))
    subst k2
    exact accepted_idle ht k1 k3 (hs.simFields (hsim.shape _ hm))
  · rw [hwk]
    refine ⟨by simp, ?_⟩
    intro w wk hm
    simp at hm
    obtain ⟨e1, e2⟩ := hm
    subst e1; subst e2
    obtain ⟨k, k1, k2, k3, _⟩ := availIds_idle hws hw
    subst k2
    exact accepted_idle ht k1 k3 (hs.genFields hg ifrows)

/-- `give_pregenerated_sim_work`. -/
theorem C31_pregenerated_accepted (c : Ctx) (ht : TableOk c) (hs : SpecsOk c) (p : PInfo) (s : Sched)
    (a : Answer) (h : pregenAlloc c p s = .ok a) :
    (a.work.map (·.1)).Nodup ∧ ∀ w wk, (w, wk) ∈ a.work → Accepted c w wk := by
  obtain ⟨_, h1 | ⟨h1, _⟩ | ⟨n', ws, _, _, _, hws, hsim, _⟩⟩ := pregen_spec ht.idsOk h
  · rw [h1]; exact ⟨List.nodup_nil, by simp⟩
  · rw [h1]; exact ⟨List.nodup_nil, by simp⟩
  · refine ⟨hsim.keys.nodup (availIds_nodup ht.idsOk hws), ?_⟩
    intro w wk hm
    obtain ⟨k, k1, k2, k3, _⟩ := availIds_idle hws (hsim.keys.subset (List.mem_map.mpr ⟨_, hm, rfl⟩))
    subst k2
    exact accepted_idle ht k1 k3 (hs.simFields (hsim.shape _ hm))

/-- `only_persistent_gens`.  Partial: a generator started without `in` fields must meet an empty history, see the witness. -/
theorem C31_only_persistent_gens_accepted_partial (c : Ctx) (ht : TableOk c) (hs : SpecsOk c)
    (hg : c.genIn ≠ [] ∨ c.H = []) (hord : ∀ l, (c.ord l).Perm l) (o : UserOpts) (p : PInfo) (s : Sched)
    (a : Answer) (h : onlyPersistentGens c o p s = .ok a) :
    (a.work.map (·.1)).Nodup ∧ ∀ w wk, (w, wk) ∈ a.work → Accepted c w wk := by
  rcases opg_spec ht.idsOk hord h with h1 | ⟨h1, _⟩ | ⟨rets, sims, gens, wr, wsim, wg, pts', hp⟩
  · rw [h1]; exact ⟨List.nodup_nil, by simp⟩
  · rw [h1]; exact ⟨List.nodup_nil, by simp⟩
  · refine ⟨hp.nodup, ?_⟩
    intro w wk hm
    rw [hp.perm.mem_iff, List.mem_append, List.mem_append] at hm
    rcases hm with (hm | hm) | hm
    · obtain ⟨k, k1, k2, k3, k4, k5⟩ := availIds_persis hp.retw (hp.retk.subset (List.mem_map.mpr ⟨_, hm, rfl⟩))
      subst k2
      have hsh := (hp.ret _ hm).1
      by_cases har : o.activeRecvGen = true
      · have hr : wk.activeRecv = some o.activeRecvGen := hsh.recv
        exact ⟨k, ht.wrk k1, by rw [k4 har, hr]; rfl, hs.persisFields hsh⟩
      · exact accepted_idle ht k1 (k5 (by simpa using har)) (hs.persisFields hsh)
    · have hm := (List.mem_filter.mp hm).1
      obtain ⟨k, k1, k2, k3, _⟩ := (opgSimWorkers_facts ht.idsOk hord hp.simw).2 _ (hp.sim.keys.subset (List.mem_map.mpr ⟨_, hm, rfl⟩))
      subst k2
      exact accepted_idle ht k1 k3 (hs.simFields (hp.sim.shape _ hm))
    · obtain ⟨k, k1, k2, k3, _⟩ := availIds_idle hp.genw (hp.genk.subset (List.mem_map.mpr ⟨_, hm, rfl⟩))
      subst k2
      refine accepted_idle ht k1 k3 (hs.genFields (hp.gen _ hm) ?_)
      intro hr
      rcases hg with hg | hg
      · exact hg
      · rw [hg] at hr; exact absurd rfl hr

/-- `persistent_aposmm_alloc`.  Partial in the same way. -/
theorem C31_aposmm_accepted_partial (c : Ctx) (ht : TableOk c) (hs : SpecsOk c)
    (hg : c.genIn ≠ [] ∨ c.H = []) (lp : Field) (initSample : Nat) (p : PInfo) (hn : p.firstCall = false → p.nextToGive ≠ none)
    (s : Sched) (a : Answer) (h : aposmmAlloc c lp initSample p s = .ok a) :
    (a.work.map (·.1)).Nodup ∧ ∀ w wk, (w, wk) ∈ a.work → Accepted c w wk := by
  rcases apo_spec ht.idsOk hn h with ⟨h1, _⟩ | ⟨h1, _⟩ | ⟨p1, rets, sims, gens, wr, wsim, wg, n, n', _, _, _, _, hp⟩
  · rw [h1]; exact ⟨List.nodup_nil, by simp⟩
  · rw [h1]; exact ⟨List.nodup_nil, by simp⟩
  · refine ⟨hp.nodup, ?_⟩
    intro w wk hm
    rw [hp.perm.mem_iff, List.mem_append, List.mem_append] at hm
    rcases hm with (hm | hm) | hm
    · obtain ⟨k, k1, k2, k3, k4, k5⟩ := availIds_persis hp.retw (hp.retk.subset (List.mem_map.mpr ⟨_, hm, rfl⟩))
      subst k2
      exact accepted_idle ht k1 (k5 rfl) (hs.persisFields (hp.ret _ hm).1)
    · have hm := (List.mem_filter.mp hm).1
      obtain ⟨k, k1, k2, k3, _⟩ := availIds_idle hp.simw (hp.sim.keys.subset (List.mem_map.mpr ⟨_, hm, rfl⟩))
      subst k2
      exact accepted_idle ht k1 k3 (hs.simFields (hp.sim.shape _ hm))
    · obtain ⟨k, k1, k2, k3, _⟩ := availIds_idle hp.genw (hp.genk.subset (List.mem_map.mpr ⟨_, hm, rfl⟩))
      subst k2
      refine accepted_idle ht k1 k3 (hs.genFields (hp.gen _ hm) ?_)
      intro hr
      rcases hg with hg | hg
      · exact hg
      · rw [hg] at hr; exact absurd rfl hr

/-- A table with a busy worker, a persistent generator that listens, an idle persistent generator and two idle workers. -/
def exCtx2 : Ctx := { exCtx with
  W := [{ id := 1, active := 1 }, { id := 2, active := 2, persis := 2, activeRecv := true }, { id := 3, persis := 2 }, { id := 4 }, { id := 5 }]
  manage := false
  genIn := [.simId]
  H := [mkRow [(.genWorker, .s 2), (.simStarted, .s 1), (.simEnded, .s 1)], mkRow [(.genWorker, .s 3), (.priority, .s 4)],
        mkRow [(.genWorker, .s 3), (.priority, .s 9)], mkRow [(.genWorker, .s 3), (.priority, .s 9)],
        mkRow [(.genWorker, .s 2), (.cancelRequested, .s 1)]] }

theorem exCtx2_ok : TableOk exCtx2 ∧ SpecsOk exCtx2 := by
  refine ⟨⟨?_, by decide⟩, ⟨by decide, by decide, by decide⟩⟩
  intro i k h
  match i, h with
  | 0, h => cases h; rfl
  | 1, h => cases h; rfl
  | 2, h => cases h; rfl
  | 3, h => cases h; rfl
  | 4, h => cases h; rfl
  | n + 5, h => cases h

def noSched : Sched := mkSched exRM false true

example : giveSimWorkFirst exCtx2 { batchGive := true } {} noSched =
    .ok ⟨[(3, { tag := 1, fields := [.user 1], rows := [2, 3] }), (4, { tag := 1, fields := [.user 1], rows := [1] })], {}, false⟩ := by
  decide +kernel
example : onlyPersistentGens exCtx2 { activeRecvGen := true, numActiveGens := some 3 } {} noSched =
    .ok ⟨[(2, { tag := 2, fields := [.user 0], rows := [0], persistent := true, activeRecv := some true }),
          (4, { tag := 1, fields := [.user 1], rows := [2] }), (5, { tag := 1, fields := [.user 1], rows := [3] })], {}, false⟩ := by
  decide +kernel
example : fastAlloc exCtx2 {} { nextToGive := some 1, totalGenCalls := some 0 } noSched =
    .ok ⟨[(3, { tag := 1, fields := [.user 1], rows := [1] }), (4, { tag := 1, fields := [.user 1], rows := [2] }),
          (5, { tag := 1, fields := [.user 1], rows := [3] })], { nextToGive := some 4, totalGenCalls := some 0 }, false⟩ := by
  decide +kernel
example : aposmmAlloc exCtx2 (.user 0) 1 { firstCall := false, nextToGive := some 3 } noSched =
    .ok ⟨[(3, { tag := 2, fields := [.user 0], rows := [0], persistent := true }),
          (4, { tag := 2, fields := [.simId], rows := [0, 1, 2, 3, 4], persistent := true })],
         { firstCall := false, nextToGive := some 5, sampleDone := true, genStarted := true }, false⟩ := by
  decide +kernel

/-- A persistent generator without `in` fields is started together with a history that already has rows: the order asks for
rows but no fields, and the manager rejects it. -/
theorem C31_rejected_witness :
    let c : Ctx := { exCtx with manage := false, H := [mkRow [(.simStarted, .s 1), (.simEnded, .s 1)]] }
    TableOk c ∧ SpecsOk c ∧
    ∃ wk, onlyPersistentGens c {} {} noSched = .ok ⟨[(1, wk)], { numGensStarted := 1 }, false⟩ ∧ ¬ Accepted c 1 wk := by
  intro c
  refine ⟨⟨?_, by decide⟩, ⟨by decide, by decide, by decide⟩,
    { tag := 2, fields := [], rows := [0], persistent := true, activeRecv := some false }, by decide +kernel, ?_⟩
  · intro i k h
    match i, h with
    | 0, h => cases h; rfl
    | 1, h => cases h; rfl
    | n + 2, h => cases h
  · rintro ⟨k, _, _, h⟩
    exact (h (by simp)).1 rfl

/-! ## C32 -/

/-- What a choice `ids` among the waiting rows `pts` must be. -/
structure BestOf (fields : List Field) (H : List Row) (pts : List Nat) (batch : Bool) (ids : List Nat) : Prop where
  mem : ∀ i ∈ ids, i ∈ pts
  best : .priority ∈ fields → ∀ i ∈ ids, ∀ j ∈ pts, prio H j ≤ prio H i
  one : .priority ∈ fields → batch = false → ∃ i, ids = [i] ∧ ∀ j ∈ pts, j < i → prio H j < prio H i
  all : .priority ∈ fields → batch = true → ∀ j ∈ pts, (∀ i ∈ pts, prio H i ≤ prio H j) → j ∈ ids
  first : .priority ∉ fields → ∃ i, ids = [i] ∧ ∀ j ∈ pts, i ≤ j
  nonempty : ids ≠ []
  sorted : ids.Pairwise (· < ·)

/-- `points_by_priority` chooses the waiting rows of the highest priority (one, the earliest generated, or all of them), or the
earliest generated row if there are no priorities.  It fails exactly if no row is waiting. -/
theorem C32_choice (fields : List Field) (H : List Row) (pts : List Nat) (hs : pts.Pairwise (· < ·)) (batch : Bool) :
    (∀ ids, pointsByPriority fields H pts batch = .ok ids → BestOf fields H pts batch ids) ∧
    ((∃ ids, pointsByPriority fields H pts batch = .ok ids) ↔ pts ≠ []) := by
  refine ⟨?_, ?_⟩
  · intro ids h
    have hsub := pbp_sub h
    unfold pointsByPriority at h
    cases pts with
    | nil => cases h
    | cons i is =>
      simp only at h
      have hm := argmax_spec H is i
      have hf := argmax_first H is i hs
      by_cases hp : Field.priority ∈ fields
      · rw [if_pos hp] at h
        cases batch with
        | true =>
          simp only [if_true] at h
          injection h with h
          have hmem : ∀ j, j ∈ ids ↔ j ∈ i :: is ∧ prio H j = prio H (argmaxPrio H i is) := by
            intro j; rw [← h, List.mem_filter]; simp
          refine ⟨fun j hj => ((hmem j).mp hj).1, ?_, ?_, ?_, fun h => absurd hp h, hsub.2, hs.sublist hsub.1⟩
          · intro _ j hj k hk; rw [((hmem j).mp hj).2]; exact hm.2 k hk
          · intro _ h; cases h
          · intro _ _ j hj hb
            exact (hmem j).mpr ⟨hj, Int.le_antisymm (hm.2 j hj) (hb _ hm.1)⟩
        | false =>
          simp at h
          subst h
          refine ⟨?_, ?_, ?_, ?_, fun h => absurd hp h, hsub.2, hs.sublist hsub.1⟩
          · intro j hj; simp only [List.mem_singleton] at hj; subst hj; exact hm.1
          · intro _ j hj k hk; simp only [List.mem_singleton] at hj; subst hj; exact hm.2 k hk
          · intro _ _; exact ⟨_, rfl, hf⟩
          · intro _ h; cases h
      · rw [if_neg hp] at h
        injection h with h
        subst h
        refine ⟨?_, fun h => absurd h hp, fun h => absurd h hp, fun h => absurd h hp, ?_, hsub.2, hs.sublist hsub.1⟩
        · intro j hj; simp only [List.mem_singleton] at hj; subst hj; exact List.mem_cons_self
        · intro _
          refine ⟨i, rfl, ?_⟩
          intro j hj
          rcases List.mem_cons.mp hj with e | hj
          · omega
          · exact Nat.le_of_lt ((List.pairwise_cons.mp hs).1 j hj)
  · constructor
    · rintro ⟨ids, h⟩ e; subst e; unfold pointsByPriority at h; cases h
    · exact pbp_ok

/-- A row waits for evaluation: it exists, is not started and not cancelled. -/
def Waits (H : List Row) (i : Nat) : Prop := ∃ r, H[i]? = some r ∧ r.flag .simStarted = false ∧ r.flag .cancelRequested = false

theorem mem_waiting {H : List Row} {i : Nat} : i ∈ waiting H ↔ Waits H i := by
  unfold waiting Waits
  rw [mem_rowsWhere]
  constructor
  · rintro ⟨r, h1, h2⟩; simp at h2; exact ⟨r, h1, h2⟩
  · rintro ⟨r, h1, h2⟩; exact ⟨r, h1, by simp [h2]⟩

/-- The simulation orders `es`, in the order in which they were chosen, each take the best of the rows still available. -/
def ChosenByPriority (c : Ctx) (batch : Bool) (es : WorkD) : Prop :=
  ∀ pre w wk post, es = pre ++ (w, wk) :: post → ∃ pts : List Nat, pts.Pairwise (· < ·) ∧
    (∀ i, i ∈ pts ↔ Waits c.H i ∧ ∀ e ∈ pre, i ∉ e.2.rows) ∧ BestOf c.fields c.H pts batch wk.rows

theorem SimsPrio.chosen {c : Ctx} {batch pers : Bool} {ws : List Nat} {es : WorkD} {pts' : List Nat}
    (h : SimsPrio c batch pers ws es (waiting c.H) pts') : ChosenByPriority c batch es := by
  intro pre w wk post e
  subst e
  have hg := h.greedy
  unfold rowsOf at hg
  rw [List.map_append, List.map_cons] at hg
  have hat := Greedy.at hg
  have hs : ((waiting c.H).filter fun i => decide (i ∉ (pre.map (·.2.rows)).flatten)).Pairwise (· < ·) :=
    List.Pairwise.filter _ (rowsWhere_sorted _ _)
  refine ⟨_, hs, ?_, (C32_choice c.fields c.H _ hs batch).1 _ hat⟩
  intro i
  rw [List.mem_filter, mem_waiting]
  simp only [decide_eq_true_eq, List.mem_flatten, List.mem_map, not_exists, not_and]
  constructor
  · rintro ⟨h1, h2⟩
    refine ⟨h1, fun e he hi => h2 _ ⟨e, he, rfl⟩ hi⟩
  · rintro ⟨h1, h2⟩
    refine ⟨h1, ?_⟩
    rintro x ⟨e, he, rfl⟩ hi
    exact h2 e he hi

/-- `give_sim_work_first`: the simulation orders take points by priority. -/
theorem C32_give_sim_work_first (c : Ctx) (hW : (c.W.map (·.id)).Nodup) (o : UserOpts) (p : PInfo) (s : Sched) (a : Answer)
    (h : giveSimWorkFirst c o p s = .ok a) : ChosenByPriority c o.batchGive (a.work.filter fun e => decide (e.2.tag = EVAL_SIM)) := by
  have none : ∀ {es : WorkD}, (∀ e ∈ es, e.2.tag ≠ EVAL_SIM) → ChosenByPriority c o.batchGive (es.filter fun e => decide (e.2.tag = EVAL_SIM)) := by
    intro es he
    rw [List.filter_eq_nil_iff.mpr (by intro e h1; simpa using he e h1)]
    intro pre w wk post e
    simp at e
  obtain ⟨_, _, _, h1 | ⟨_, ws, pts', hws, hp⟩ | ⟨_, _, ws, hws, hk, hsh, _⟩⟩ := gswf_spec hW h
  · apply none; rw [h1]; simp
  · rw [List.filter_eq_self.mpr (by intro e he; simpa using (hp.shape e he).tag)]
    exact hp.chosen
  · apply none
    intro e he
    rw [(hsh e he).tag]; decide

/-- `only_persistent_gens`: the points are chosen by priority; a worker that is also given a generator to start loses its
simulation order again (the points stay waiting), hence `es` may be longer than the orders of the answer. -/
theorem C32_only_persistent_gens (c : Ctx) (hW : (c.W.map (·.id)).Nodup) (hord : ∀ l, (c.ord l).Perm l) (o : UserOpts) (p : PInfo)
    (s : Sched) (a : Answer) (h : onlyPersistentGens c o p s = .ok a) :
    ∃ es, ChosenByPriority c o.batchGive es ∧
      (∀ e, e ∈ a.work ∧ e.2.tag = EVAL_SIM ↔ e ∈ es ∧ ∀ wk, (e.1, wk) ∈ a.work → wk.tag = EVAL_SIM) := by
  rcases opg_spec hW hord h with h1 | ⟨h1, _⟩ | ⟨rets, sims, gens, wr, wsim, wg, pts', hp⟩
  · exact ⟨[], fun pre w wk post e => by simp at e, by rw [h1]; simp⟩
  · exact ⟨[], fun pre w wk post e => by simp at e, by rw [h1]; simp⟩
  · refine ⟨sims, hp.sim.chosen, ?_⟩
    intro e
    have hmem : ∀ x, x ∈ a.work ↔ (x ∈ rets ∨ (x ∈ sims ∧ x.1 ∉ keys gens)) ∨ x ∈ gens := by
      intro x
      rw [hp.perm.mem_iff, List.mem_append, List.mem_append, List.mem_filter]
      simp only [decide_eq_true_eq]
    constructor
    · rintro ⟨h1, h2⟩
      have h3 : e ∈ sims := by
        rcases (hmem e).mp h1 with (h3 | h3) | h3
        · rw [(hp.ret e h3).1.tag] at h2; exact absurd h2 (by decide)
        · exact h3.1
        · rw [(hp.gen e h3).tag] at h2; exact absurd h2 (by decide)
      refine ⟨h3, ?_⟩
      intro wk hwk
      have : (e.1, wk) = e := by
        have hnd := hp.nodup
        unfold keys at hnd
        obtain ⟨i, hi, e1⟩ := List.getElem_of_mem hwk
        obtain ⟨j, hj, e2⟩ := List.getElem_of_mem h1
        have : i = j := by
          refine (List.getElem?_inj (l := a.work.map (·.1)) (by simpa using hi) hnd).mp ?_
          rw [List.getElem?_map, List.getElem?_map, List.getElem?_eq_getElem hi, List.getElem?_eq_getElem hj, e1, e2]
          rfl
        subst this
        rw [← e1, e2]
      rw [← this] at h2
      exact h2
    · rintro ⟨h1, h2⟩
      refine ⟨(hmem e).mpr (Or.inl (Or.inr ⟨h1, ?_⟩)), (hp.sim.shape e h1).tag⟩
      intro hk
      obtain ⟨x, hx, ex⟩ := List.mem_map.mp hk
      have := h2 x.2 (by rw [← ex]; exact (hmem x).mpr (Or.inr hx))
      rw [(hp.gen x hx).tag] at this
      exact absurd this (by decide)

example : pointsByPriority exCtx2.fields exCtx2.H (waiting exCtx2.H) true = .ok [2, 3] ∧
    pointsByPriority exCtx2.fields exCtx2.H (waiting exCtx2.H) false = .ok [2] ∧
    pointsByPriority [] exCtx2.H (waiting exCtx2.H) true = .ok [1] ∧ waiting exCtx2.H = [1, 2, 3] := by decide +kernel

/-! ## C33 -/

/-- `give_sim_work_first` asks for a generator only if no row waits; with a limit `N`, the active generators plus the new ones are
at most `N`; in batch mode every generated row is evaluated or was cancelled before it was started.  While rows wait, only
simulations are ordered. -/
theorem C33_default_allocation (c : Ctx) (hW : (c.W.map (·.id)).Nodup) (o : UserOpts) (p : PInfo) (s : Sched) (a : Answer)
    (h : giveSimWorkFirst c o p s = .ok a) :
    (∀ e ∈ a.work, e.2.tag = EVAL_SIM ∨ e.2.tag = EVAL_GEN) ∧
    ((∃ e ∈ a.work, e.2.tag = EVAL_GEN) →
      (∀ i, ¬ Waits c.H i) ∧ (∀ e ∈ a.work, e.2.tag = EVAL_GEN) ∧
      (∀ N, o.numActiveGens = some N →
        c.W.countP (fun k => decide (k.active = EVAL_GEN)) + a.work.countP (fun e => decide (e.2.tag = EVAL_GEN)) ≤ N) ∧
      (o.batchMode = true → ∀ r ∈ c.H, r.flag .simEnded = true ∨ (r.flag .cancelRequested = true ∧ r.flag .simStarted = false))) := by
  obtain ⟨_, _, _, h1 | ⟨_, ws, pts', hws, hp⟩ | ⟨hw, _, ws, hws, hk, hsh, hN, hB⟩⟩ := gswf_spec hW h
  · rw [h1]; simp
  · refine ⟨fun e he => Or.inl (hp.shape e he).tag, ?_⟩
    rintro ⟨e, he, ht⟩
    rw [(hp.shape e he).tag] at ht
    exact absurd ht (by decide)
  · refine ⟨fun e he => Or.inr (hsh e he).tag, ?_⟩
    intro _
    refine ⟨?_, fun e he => (hsh e he).tag, ?_, ?_⟩
    · intro i hi
      have := mem_waiting.mpr hi
      rw [hw] at this; cases this
    · intro N hN'
      have he : a.work.countP (fun e => decide (e.2.tag = EVAL_GEN)) = a.work.length :=
        List.countP_eq_length.mpr (by intro e he; simpa using (hsh e he).tag)
      rw [he]
      exact hN N hN'
    · intro hb r hr
      have := hB hb
      unfold allSimEnded at this
      rw [List.all_eq_true] at this
      have := this r hr
      revert this
      cases r.flag .simEnded <;> cases r.flag .cancelRequested <;> cases r.flag .simStarted <;> simp

/-- All rows done or cancelled: in batch mode with at most one generator, worker 1 gets a generator call. -/
def exCtx3 : Ctx := { exCtx with
  manage := false
  H := [mkRow [(.simStarted, .s 1), (.simEnded, .s 1)], mkRow [(.cancelRequested, .s 1)]]
  genIn := [.user 0] }
example : giveSimWorkFirst exCtx3 { batchMode := true, numActiveGens := some 1 } {} noSched =
    .ok ⟨[(1, { tag := 2, fields := [.user 0], rows := [0, 1] })], {}, false⟩ := by decide +kernel
example : giveSimWorkFirst exCtx3 { batchMode := true, numActiveGens := some 2 } {} noSched =
    .ok ⟨[(1, { tag := 2, fields := [.user 0], rows := [0, 1] }), (2, { tag := 2, fields := [.user 0], rows := [0, 1] })], {}, false⟩ := by
  decide +kernel
example : giveSimWorkFirst { exCtx3 with H := [mkRow [(.simStarted, .s 1)]] } { batchMode := true } {} noSched = .ok ⟨[], {}, false⟩ := by
  decide +kernel

/-! ## C34 -/

/-- An evaluated row of generator `w` that was not given back yet. -/
def Owed (H : List Row) (w i : Nat) : Prop :=
  ∃ r, H[i]? = some r ∧ r.flag .simEnded = true ∧ r.flag .genInformed = false ∧ r .genWorker = .s w

theorem mem_owed {H : List Row} {w i : Nat} : i ∈ owed H w ↔ Owed H w i := by
  unfold owed Owed
  rw [mem_rowsWhere]
  constructor
  · rintro ⟨r, h1, h2⟩; simp [ofGen, and_assoc] at h2; exact ⟨r, h1, h2⟩
  · rintro ⟨r, h1, h2⟩; exact ⟨r, h1, by simp [h2, ofGen]⟩

/-- An order that returns results to the running generator `w`. -/
structure Returns (c : Ctx) (o : UserOpts) (w : Nat) (wk : Work) : Prop where
  running : ∃ k ∈ c.W, k.id = w ∧ k.persis = EVAL_GEN
  rows : ∀ i, i ∈ wk.rows ↔ Owed c.H w i
  some : wk.rows ≠ []
  sorted : wk.rows.Pairwise (· < ·)
  batch : ¬(o.asyncReturn = true ∧ o.initSample ≤ c.H.countP (·.flag .simEnded)) →
    ∀ r ∈ c.H, r .genWorker = .s w → r.flag .simEnded = true ∨ (r.flag .cancelRequested = true ∧ r.flag .simStarted = false)

/-- An order that starts a persistent generator on the idle worker `w`; it carries the whole history. -/
structure Starts (c : Ctx) (w : Nat) (wk : Work) : Prop where
  idle : ∃ k ∈ c.W, k.id = w ∧ k.active = 0 ∧ k.persis = 0
  rows : wk.rows = List.range c.H.length
  pers : wk.persistent = true

/-- One answer of `only_persistent_gens`: a generator order either returns exactly the own, evaluated, not yet returned rows
(outside asynchronous mode only when the generator has no unfinished row), or starts a generator; with `g` starts, running plus
started generators are at most `num_active_gens`; the function asks for shutdown exactly if fewer
generators run than were started. -/
theorem C34_answer (c : Ctx) (hW : (c.W.map (·.id)).Nodup) (hord : ∀ l, (c.ord l).Perm l) (o : UserOpts) (p : PInfo)
    (s : Sched) (a : Answer) (h : onlyPersistentGens c o p s = .ok a) :
    (∀ w wk, (w, wk) ∈ a.work → wk.tag = EVAL_SIM ∨ (wk.tag = EVAL_GEN ∧ (Returns c o w wk ∨ Starts c w wk))) ∧
    (∃ g, a.pinfo = { p with numGensStarted := p.numGensStarted + g } ∧
      (g ≠ 0 → c.W.countP (fun k => decide (k.persis = EVAL_GEN)) + g ≤ o.numActiveGens.getD 1) ∧
      g = a.work.countP fun e => decide (e.2.tag = EVAL_GEN) && c.W.all fun k => decide (k.id = e.1 → k.persis ≠ EVAL_GEN)) ∧
    (a.flag = true ↔ c.simMaxGiven = false ∧ c.anyIdle = true ∧ c.W.countP (fun k => decide (k.persis = EVAL_GEN)) < p.numGensStarted) := by
  have hflag : a.flag = true ↔ c.simMaxGiven = false ∧ c.anyIdle = true ∧ c.W.countP (fun k => decide (k.persis = EVAL_GEN)) < p.numGensStarted := by
    have hc : c.W.countP (fun k => decide (k.persis = EVAL_GEN)) = countPersisGens c.W := rfl
    rw [hc]
    by_cases hg : (c.simMaxGiven || !c.anyIdle) = true
    · have : a = ⟨[], p, false⟩ := by
        unfold onlyPersistentGens at h
        rw [if_pos hg] at h
        injection h with h; exact h.symm
      rw [this]
      constructor
      · intro h; cases h
      · rintro ⟨h1, h2, _⟩; simp [h1, h2] at hg
    · have hg' : c.simMaxGiven = false ∧ c.anyIdle = true := by
        revert hg; cases c.simMaxGiven <;> cases c.anyIdle <;> simp
      by_cases hl : countPersisGens c.W < p.numGensStarted
      · have : a = ⟨[], p, true⟩ := by
          unfold onlyPersistentGens at h
          rw [if_neg hg] at h
          simp only [if_pos hl] at h
          injection h with h; exact h.symm
        rw [this]
        exact ⟨fun _ => ⟨hg'.1, hg'.2, hl⟩, fun _ => rfl⟩
      · constructor
        · intro hf
          rcases opg_spec hW hord h with h1 | ⟨h1, h2⟩ | ⟨_, _, _, _, _, _, _, hp⟩
          · rw [h1] at hf; cases hf
          · exact absurd h2 hl
          · rw [hp.flag] at hf; cases hf
        · rintro ⟨_, _, h3⟩; exact absurd h3 hl
  rcases opg_spec hW hord h with h1 | ⟨h1, _⟩ | ⟨rets, sims, gens, wr, wsim, wg, pts', hp⟩
  · rw [h1] at hflag ⊢; exact ⟨by simp, ⟨0, by simp, by simp, by simp⟩, hflag⟩
  · rw [h1] at hflag ⊢; exact ⟨by simp, ⟨0, by simp, by simp, by simp⟩, hflag⟩
  · refine ⟨?_, ⟨gens.length, hp.pinfo, ?_, ?_⟩, hflag⟩
    · intro w wk hm
      rw [hp.perm.mem_iff, List.mem_append, List.mem_append] at hm
      rcases hm with (hm | hm) | hm
      · right
        obtain ⟨hsh, hne, hb⟩ := hp.ret _ hm
        have hrows : wk.rows = owed c.H w := hsh.rows
        refine ⟨hsh.tag, Or.inl ?_⟩
        obtain ⟨k, k1, k2, k3, _⟩ := availIds_persis hp.retw (hp.retk.subset (List.mem_map.mpr ⟨_, hm, rfl⟩))
        refine ⟨⟨k, k1, k2, k3⟩, ?_, ?_, ?_, ?_⟩
        · intro i; rw [hrows]; exact mem_owed
        · rw [hrows]; exact hne
        · rw [hrows]; exact rowsWhere_sorted _ _
        · intro hasync r hr hgw
          have := hb (by
            rw [Bool.eq_false_iff]
            intro hx
            apply hasync
            simpa using hx)
          unfold allSimEnded at this
          rw [List.all_eq_true] at this
          have := this r hr
          have hof : ofGen w r = true := by unfold ofGen; exact decide_eq_true hgw
          simp only [hof] at this
          revert this
          cases r.flag .simEnded <;> cases r.flag .cancelRequested <;> cases r.flag .simStarted <;> simp
      · left; exact (hp.sim.shape _ (List.mem_filter.mp hm).1).tag
      · right
        have hsh := hp.gen _ hm
        obtain ⟨k, k1, k2, k3, k4⟩ := availIds_idle hp.genw (hp.genk.subset (List.mem_map.mpr ⟨_, hm, rfl⟩))
        exact ⟨hsh.tag, Or.inr ⟨⟨k, k1, k2, k3, k4 0 rfl⟩, hsh.rows, hsh.pers⟩⟩
    · intro hg
      exact hp.genmax (by intro e; subst e; exact hg rfl)
    · rw [hp.perm.countP_eq, List.countP_append, List.countP_append]
      have c1 : rets.countP (fun e => decide (e.2.tag = EVAL_GEN) && c.W.all fun k => decide (k.id = e.1 → k.persis ≠ EVAL_GEN)) = 0 := by
        rw [List.countP_eq_zero]
        intro e he hc
        rw [Bool.and_eq_true, List.all_eq_true] at hc
        obtain ⟨k, k1, k2, k3, _⟩ := availIds_persis hp.retw (hp.retk.subset (List.mem_map.mpr ⟨_, he, rfl⟩))
        have := of_decide_eq_true (hc.2 k k1)
        exact this k2 k3
      have c2 : (sims.filter (fun x => decide (x.1 ∉ keys gens))).countP (fun e => decide (e.2.tag = EVAL_GEN) && c.W.all fun k => decide (k.id = e.1 → k.persis ≠ EVAL_GEN)) = 0 := by
        rw [List.countP_eq_zero]
        intro e he hc
        rw [Bool.and_eq_true] at hc
        have := of_decide_eq_true hc.1
        rw [(hp.sim.shape _ (List.mem_filter.mp he).1).tag] at this
        exact absurd this (by decide)
      have c3 : gens.countP (fun e => decide (e.2.tag = EVAL_GEN) && c.W.all fun k => decide (k.id = e.1 → k.persis ≠ EVAL_GEN)) = gens.length := by
        rw [List.countP_eq_length]
        intro e he
        rw [Bool.and_eq_true, List.all_eq_true]
        refine ⟨decide_eq_true (hp.gen e he).tag, ?_⟩
        intro k hk
        apply decide_eq_true
        intro hid
        obtain ⟨k', k1, k2, k3, k4⟩ := availIds_idle hp.genw (hp.genk.subset (List.mem_map.mpr ⟨_, he, rfl⟩))
        have := same_wrk hW hk k1 (hid.trans k2.symm)
        subst this
        rw [k4 0 rfl]; decide
      rw [c1, c2, c3]; omega

example : countPersisGens exCtx2.W = 2 ∧ owed exCtx2.H 2 = [0] := by decide +kernel
example : onlyPersistentGens exCtx3 {} {} noSched =
    .ok ⟨[(1, { tag := 2, fields := [.user 0], rows := [0, 1], persistent := true, activeRecv := some false })], { numGensStarted := 1 }, false⟩ := by
  decide +kernel
example : onlyPersistentGens exCtx3 {} { numGensStarted := 1 } noSched = .ok ⟨[], { numGensStarted := 1 }, true⟩ := by decide +kernel

/-- A second generator is started together with the evaluated rows of the first one: row 0 belongs to generator 1 (busy, not in
active-receive mode) and is evaluated but not returned, yet it is sent to worker 2.  The history operation of the manager
then marks it as returned, so generator 1 is never told. -/
theorem C34_foreign_rows_witness :
    let c : Ctx := { exCtx with
      manage := false, genIn := [.user 0]
      W := [{ id := 1, active := 2, persis := 2 }, { id := 2 }]
      H := [mkRow [(.genWorker, .s 1), (.simStarted, .s 1), (.simEnded, .s 1)]] }
    Owed c.H 1 0 ∧ onlyPersistentGens c { numActiveGens := some 2, asyncReturn := true } { numGensStarted := 1 } noSched =
      .ok ⟨[(2, { tag := 2, fields := [.user 0], rows := [0], persistent := true, activeRecv := some false })], { numGensStarted := 2 }, false⟩ ∧
    ∀ cols off, let h : Hist := ⟨cols, c.H, 1, 0, true, false, 1, 1, 0, off, off, off, 0, 0⟩
      ¬ Owed (updateToGen h [0] 5).1.rows 1 0 := by
  intro c
  refine ⟨⟨_, rfl, by decide, by decide, by decide⟩, by decide +kernel, ?_⟩
  intro cols off h
  rintro ⟨r, h1, h2, h3, h4⟩
  have : (updateToGen h [0] 5).1.rows[0]? = some r := h1
  revert h3
  cases h1
  decide

/-! ## C35 -/

/-- Rows of the simulation orders of an answer, order by order. -/
def simChunks (work : WorkD) : List (List Nat) := (work.filter fun e => decide (e.2.tag = EVAL_SIM)).map (·.2.rows)

theorem simChunks_append (a b : WorkD) : simChunks (a ++ b) = simChunks a ++ simChunks b := by
  unfold simChunks; rw [List.filter_append, List.map_append]

theorem simChunks_sims {c : Ctx} {pers : Bool} {es : WorkD} (h : ∀ e ∈ es, SimShape c pers e.2) : simChunks es = rowsOf es := by
  unfold simChunks
  rw [List.filter_eq_self.mpr (by intro e he; simpa using (h e he).tag)]
  rfl

theorem simChunks_gens {es : WorkD} (h : ∀ e ∈ es, e.2.tag = EVAL_GEN) : simChunks es = [] := by
  unfold simChunks
  rw [List.filter_eq_nil_iff.mpr]
  · rfl
  · intro e he; rw [h e he]; decide

/-- The three in-order allocation functions. -/
inductive Kind | fast | oneGen | pregen
deriving DecidableEq

def callOrd (k : Kind) (c : Ctx) (o : UserOpts) (p : PInfo) (s : Sched) : Except AErr Answer :=
  match k with
  | .fast => fastAlloc c o p s
  | .oneGen => oneGenAlloc c p s
  | .pregen => pregenAlloc c p s

theorem inorder_refl (H : List Row) (n : Nat) : InOrder H n [] n := ⟨Nat.le_refl n, by intro i h1 h2; omega⟩

theorem callOrd_inorder {k : Kind} {c : Ctx} (hW : IdsOk c.W) {o : UserOpts} {p : PInfo} {s : Sched} {a : Answer}
    (h : callOrd k c o p s = .ok a) :
    InOrder c.H (p.nextToGive.getD 0) (simChunks a.work) (a.pinfo.nextToGive.getD 0) := by
  cases k with
  | fast =>
    obtain ⟨_, _, h1 | ⟨n, n', ws, sims, gens, hn, hn', hwk, _, hsim, _, _, _, _, _, _, hg⟩⟩ := fast_spec hW h
    · rw [h1]; exact inorder_refl _ _
    · rw [hn, hn', hwk, simChunks_append, simChunks_sims hsim.shape, simChunks_gens (fun e he => (hg e he).2.tag), List.append_nil]
      exact hsim.inorder
  | oneGen =>
    obtain ⟨_, _, h1 | ⟨n, n', ws, hn, _, hp, hws, hsim, _⟩ | ⟨n, w0, wk0, ws, hn, _, hwk, hnx, _, _, hws, hw, hg⟩⟩ := oneGen_spec hW h
    · rw [h1]; exact inorder_refl _ _
    · rw [hn, hp, simChunks_sims hsim.shape]; exact hsim.inorder
    · rw [hn, hnx, hwk, simChunks_gens (by intro e he; rw [List.mem_singleton] at he; subst he; exact hg.tag)]
      exact inorder_refl _ _
  | pregen =>
    obtain ⟨_, h1 | ⟨h1, _⟩ | ⟨n', ws, _, hp, _, hws, hsim, _⟩⟩ := pregen_spec hW h
    · rw [h1]; exact inorder_refl _ _
    · rw [h1]; exact inorder_refl _ _
    · rw [hp, simChunks_sims hsim.shape]; exact hsim.inorder

/-- Successive calls: `persis_info` is handed from call to call, everything else (worker table, history, cancelled rows,
scheduler) may change arbitrarily in between.  The rows given to simulations, in order, and the final `persis_info`;
an exception ends the sequence. -/
def callSeq (k : Kind) (o : UserOpts) : PInfo → List (Ctx × Sched) → List Nat × PInfo
  | p, [] => ([], p)
  | p, (c, s) :: cs =>
    match callOrd k c o p s with
    | .error _ => ([], p)
    | .ok a => let r := callSeq k o a.pinfo cs; ((simChunks a.work).flatten ++ r.1, r.2)

/-- In-order allocation over any sequence of calls: the rows given out are strictly increasing (so none is given twice), none
lies before the starting pointer, and every row between the starting and the final pointer that was not given out was
marked cancelled in one of the calls. -/
theorem C35_in_order (k : Kind) (o : UserOpts) : ∀ (cs : List (Ctx × Sched)) (p : PInfo),
    (∀ x ∈ cs, (x.1.W.map (·.id)).Nodup) →
    (callSeq k o p cs).1.Pairwise (· < ·) ∧
    (∀ i ∈ (callSeq k o p cs).1, p.nextToGive.getD 0 ≤ i ∧ i < (callSeq k o p cs).2.nextToGive.getD 0) ∧
    p.nextToGive.getD 0 ≤ (callSeq k o p cs).2.nextToGive.getD 0 ∧
    (∀ i, p.nextToGive.getD 0 ≤ i → i < (callSeq k o p cs).2.nextToGive.getD 0 → i ∉ (callSeq k o p cs).1 →
      ∃ x ∈ cs, ∃ r, x.1.H[i]? = some r ∧ r.flag .cancelRequested = true) := by
  intro cs
  induction cs with
  | nil => intro p _; exact ⟨List.Pairwise.nil, by simp [callSeq], Nat.le_refl _, by intro i h1 h2; simp only [callSeq] at h2; omega⟩
  | cons x cs ih =>
    intro p hW
    obtain ⟨c, s⟩ := x
    unfold callSeq
    cases h : callOrd k c o p s with
    | error e => exact ⟨List.Pairwise.nil, by simp, Nat.le_refl _, by intro i h1 h2; simp only at h2; omega⟩
    | ok a =>
      simp only
      obtain ⟨j1, j2, j3, j4⟩ := ih a.pinfo (fun x hx => hW x (List.mem_cons_of_mem _ hx))
      obtain ⟨f1, f2, f3, f4, f5⟩ := (callOrd_inorder (hW (c, s) List.mem_cons_self) h).facts
      refine ⟨?_, ?_, Nat.le_trans f1 j3, ?_⟩
      · rw [List.pairwise_append]
        refine ⟨f2, j1, ?_⟩
        intro x hx y hy
        have := (f4 x hx).2.1
        have := (j2 y hy).1
        omega
      · intro i hi
        rcases List.mem_append.mp hi with hi | hi
        · have := f4 i hi; omega
        · have := j2 i hi; omega
      · intro i h1 h2 h3
        rw [List.mem_append, not_or] at h3
        rcases Nat.lt_or_ge i (a.pinfo.nextToGive.getD 0) with h4 | h4
        · obtain ⟨r, hr, hc⟩ := f5 i h1 h4 h3.1
          exact ⟨(c, s), List.mem_cons_self, r, hr, hc⟩
        · obtain ⟨x, hx, hr⟩ := j4 i h4 h2 h3.2
          exact ⟨x, List.mem_cons_of_mem _ hx, hr⟩

/-- A row given out in a call is not cancelled in the history of that call. -/
theorem C35_skips_cancelled (k : Kind) (c : Ctx) (hW : (c.W.map (·.id)).Nodup) (o : UserOpts) (p : PInfo) (s : Sched) (a : Answer)
    (h : callOrd k c o p s = .ok a) (w : Nat) (wk : Work) (hm : (w, wk) ∈ a.work) (ht : wk.tag = EVAL_SIM) :
    ∃ i, wk.rows = [i] ∧ ∀ r, c.H[i]? = some r → r.flag .cancelRequested = false := by
  obtain ⟨_, _, f3, f4, _⟩ := (callOrd_inorder hW h).facts
  have hch : wk.rows ∈ simChunks a.work := by
    unfold simChunks
    exact List.mem_map.mpr ⟨(w, wk), List.mem_filter.mpr ⟨hm, by simpa using ht⟩, rfl⟩
  obtain ⟨i, hi⟩ := f3 _ hch
  refine ⟨i, hi, ?_⟩
  intro r hr
  have := (f4 i (List.mem_flatten.mpr ⟨_, hch, by rw [hi]; exact List.mem_singleton.mpr rfl⟩)).2.2
  cases hc : r.flag .cancelRequested with
  | false => rfl
  | true => exact absurd ⟨r, hr, hc⟩ this

/-- `fast_alloc` only gives out rows that exist. -/
theorem C35_fast_alloc_rows_exist (c : Ctx) (hW : (c.W.map (·.id)).Nodup) (o : UserOpts) (p : PInfo) (s : Sched) (a : Answer)
    (h : fastAlloc c o p s = .ok a) (w : Nat) (wk : Work) (hm : (w, wk) ∈ a.work) (ht : wk.tag = EVAL_SIM) :
    ∀ i ∈ wk.rows, i < c.H.length := by
  obtain ⟨_, _, h1 | ⟨n, n', ws, sims, gens, _, _, hwk, _, _, hex, _, _, _, _, _, hg⟩⟩ := fast_spec hW h
  · rw [h1] at hm; cases hm
  · rw [hwk] at hm
    rcases List.mem_append.mp hm with hm | hm
    · exact hex _ (List.mem_map.mpr ⟨_, hm, rfl⟩)
    · rw [(hg _ hm).2.tag] at ht; exact absurd ht (by decide)

theorem mem_dset' {β} {d : List (Nat × β)} {k : Nat} {v : β} {e : Nat × β} (h : e ∈ dset d k v) : e = (k, v) ∨ e ∈ d := by
  induction d with
  | nil => simp [dset] at h; exact Or.inl h
  | cons p d ih =>
    obtain ⟨k', v'⟩ := p
    unfold dset at h
    split at h
    · rcases List.mem_cons.mp h with e1 | h1
      · exact Or.inl e1
      · exact Or.inr (List.mem_cons_of_mem _ h1)
    · rcases List.mem_cons.mp h with e1 | h1
      · right; rw [e1]; exact List.mem_cons_self
      · rcases ih h1 with h2 | h2
        · exact Or.inl h2
        · exact Or.inr (List.mem_cons_of_mem _ h2)

theorem orderSims_exist (c : Ctx) (hlast : ∀ r, c.H.getLast? = some r → r.flag .cancelRequested = false) :
    ∀ (ws : List Nat) (st st' : LoopSt) (n : Nat), orderSims c ws st = .ok st' → st.p.nextToGive = some n → n < c.H.length →
    (∀ e ∈ st.work, ∀ i ∈ e.2.rows, i < c.H.length) → ∀ e ∈ st'.work, ∀ i ∈ e.2.rows, i < c.H.length := by
  intro ws
  induction ws with
  | nil => intro st st' n h _ _ hw; unfold orderSims at h; cases h; exact hw
  | cons w ws ih =>
    intro st st' n h hn hlt hw
    unfold orderSims at h
    rw [hn] at h
    simp only at h
    have hsk := skip_spec c.H n
    have hm : skipCanceled c.H n < c.H.length := by
      rcases Nat.lt_or_ge (skipCanceled c.H n) c.H.length with h1 | h1
      · exact h1
      · obtain ⟨r, hr, hc⟩ := hsk.2.1 (c.H.length - 1) (by omega) (by omega)
        have := hlast r (by rw [List.getLast?_eq_getElem?]; exact hr)
        rw [this] at hc; cases hc
    split at h
    · cases h; exact hw
    · cases h
    · rename_i s' wk hsw
      obtain ⟨_, _, _, hr, _⟩ := simWork_ok hsw
      have hw' : ∀ e ∈ dset st.work w wk, ∀ i ∈ e.2.rows, i < c.H.length := by
        intro e he i hi
        rcases mem_dset' he with e1 | he
        · subst e1; rw [hr, List.mem_singleton] at hi; subst hi; exact hm
        · exact hw e he i hi
      split at h
      · cases h; exact hw'
      · rename_i hge
        exact ih _ _ (skipCanceled c.H n + 1) h rfl (by omega) hw'

/-- `ensure_one_active_gen` and `give_pregenerated_sim_work` only give out rows that exist.  Partial: proved when the
last row of the history is not cancelled; without this the statement is false (witness below). -/
theorem C35_rows_exist_partial (k : Kind) (c : Ctx) (hlast : ∀ r, c.H.getLast? = some r → r.flag .cancelRequested = false)
    (hW : (c.W.map (·.id)).Nodup) (o : UserOpts) (p : PInfo) (s : Sched) (a : Answer) (h : callOrd k c o p s = .ok a)
    (w : Nat) (wk : Work) (hm : (w, wk) ∈ a.work) (ht : wk.tag = EVAL_SIM) : ∀ i ∈ wk.rows, i < c.H.length := by
  cases k with
  | fast => exact C35_fast_alloc_rows_exist c hW o p s a h w wk hm ht
  | oneGen =>
    unfold callOrd oneGenAlloc at h
    simp only at h
    split at h
    · cases h; cases hm
    · split at h
      · cases h
      · rename_i n hn
        split at h
        · rename_i hlt
          split at h
          · cases h
          · rename_i ws hws
            obtain ⟨st, hst, ha⟩ := map_ok h
            subst ha
            exact orderSims_exist c hlast ws _ st n hst hn hlt (by simp) _ hm
        · split at h
          · cases h; cases hm
          · split at h
            · cases h
            · cases h
            · split at h
              · cases h; cases hm
              · split at h
                · cases h; cases hm
                · cases h
                · rename_i s' wk' hgw
                  split at h
                  · cases h
                  · injection h with h
                    subst h
                    simp at hm
                    obtain ⟨_, e⟩ := hm
                    subst e
                    rw [(genWork_ok hgw).2.1] at ht
                    exact absurd ht (by decide)
  | pregen =>
    unfold callOrd pregenAlloc at h
    simp only at h
    split at h
    · cases h; cases hm
    · split at h
      · cases h; cases hm
      · rename_i hlt
        split at h
        · cases h
        · rename_i ws hws
          obtain ⟨st, hst, ha⟩ := map_ok h
          subst ha
          exact orderSims_exist c hlast ws _ st _ hst rfl (by omega) (by simp) _ hm

/-- If the only remaining rows are cancelled, both functions order the simulation of a row that does not exist. -/
theorem C35_missing_row_witness :
    let c : Ctx := { exCtx with manage := false, H := [mkRow [(.cancelRequested, .s 1)]] }
    (callOrd .oneGen c {} { nextToGive := some 0 } noSched).map (fun a => a.work.map (fun e => (e.1, e.2.tag, e.2.rows))) = .ok [(1, 1, [1])] ∧
    (callOrd .pregen c {} {} noSched).map (fun a => a.work.map (fun e => (e.1, e.2.tag, e.2.rows))) = .ok [(1, 1, [1])] ∧
    c.H.length = 1 := by decide +kernel

/-- Two calls of `fast_alloc`: rows 0 and 2 go out, row 1 is cancelled; later row 3 follows. -/
example :
    let c1 : Ctx := { exCtx with manage := false, H := [mkRow [], mkRow [(.cancelRequested, .s 1)], mkRow [], mkRow []] }
    let c2 : Ctx := { c1 with W := [{ id := 1 }, { id := 2, active := 1 }] }
    callSeq .fast {} { nextToGive := some 0, totalGenCalls := some 0 } [(c1, noSched), (c2, noSched)] =
      ([0, 2, 3], { nextToGive := some 4, totalGenCalls := some 0 }) := by decide +kernel
example : (callSeq .pregen {} {} [({ exCtx with manage := false }, noSched)]).1 = [0, 1] := by decide +kernel
example : (callSeq .oneGen {} { nextToGive := some 0 } [({ exCtx with manage := false }, noSched)]).1 = [0, 1] := by decide +kernel

end Verif.Alloc
