import Verif.Manager.Ended
/-
Orders for evaluation of the bundled allocation functions.
-/
namespace Verif.Manager
open Verif.History Verif.Res Verif.Sched Verif.Alloc

/-- Orders for evaluation go to idle workers of the table, in passive mode. -/
theorem sim_answer {b : Bundled} {c : Ctx} (hW : IdsOk c.W) (hord : ∀ l, (c.ord l).Perm l)
    {p : PInfo} {s : Sched} {a : Answer} (hl : b.behind p []) (h : b.call c p s = .ok a) :
    ∀ e ∈ a.work, e.2.tag = EVAL_SIM → e.2.activeRecv = none ∧ ∃ k ∈ c.W, k.id = e.1 ∧ k.active = 0 := by
  have notGen : ∀ {e : Nat × Work} {Q : Prop}, e.2.tag = EVAL_GEN → e.2.tag = EVAL_SIM → Q := by
    intro e Q h1 h2; rw [h1] at h2; simp [EVAL_GEN, EVAL_SIM] at h2
  have avail : ∀ {ws : List Nat} {es : WorkD} {e : Nat × Work} {z g : Option Bool} {q : Option Nat}, availIds c.W q false z g = .ok ws →
      (keys es).Sublist ws → e ∈ es → ∃ k ∈ c.W, k.id = e.1 ∧ k.active = 0 := by
    intro ws es e z g q hws hk he
    obtain ⟨k, h1, h2, h3, _⟩ := availIds_idle hws (hk.subset (List.mem_map_of_mem he))
    exact ⟨k, h1, h2, h3⟩
  intro e he ht
  have more : b.more = true → e.2.activeRecv = none ∧ ∃ k ∈ c.W, k.id = e.1 ∧ k.active = 0 := by
    intro hb
    rcases more_answer hb h with h1 | ⟨_, _, _, _, _, _, _, _, _, _, hp⟩
    · rw [h1] at he; simp at he
    · exact ⟨hp.recv he, hp.idle he⟩
  cases b with
  | simFirst o =>
    obtain ⟨_, _, _, h1 | ⟨_, ws, pts', hws, hs⟩ | ⟨_, _, ws, _, _, hg, _⟩⟩ := gswf_spec hW h
    · rw [h1] at he; simp at he
    · exact ⟨(hs.shape e he).recv, avail hws hs.keys he⟩
    · exact notGen (hg e he).tag ht
  | fast o =>
    obtain ⟨_, _, h1 | ⟨n, n', ws, sims, gens, hn, hn', hwk, hws, hsim, _, _, _, _, _, _, hg⟩⟩ := fast_spec hW h
    · rw [h1] at he; simp at he
    · rw [hwk, List.mem_append] at he
      rcases he with he | he
      · exact ⟨(hsim.shape e he).recv, avail hws hsim.keys he⟩
      · exact notGen (hg e he).2.tag ht
  | oneGen =>
    obtain ⟨_, _, h1 | ⟨n, n', ws, hn, _, hp, hws, hsim, _⟩ | ⟨n, w0, wk0, ws, hn, _, hwk, hnx, _, _, hws, hw, hg⟩⟩ := oneGen_spec hW h
    · rw [h1] at he; simp at he
    · exact ⟨(hsim.shape e he).recv, avail hws hsim.keys he⟩
    · rw [hwk, List.mem_singleton] at he
      subst he
      exact notGen (e := (w0, wk0)) hg.tag ht
  | pregen =>
    obtain ⟨_, h1 | ⟨h1, _⟩ | ⟨n', ws, _, hp, _, hws, hsim, _⟩⟩ := pregen_spec hW h
    · rw [h1] at he; simp at he
    · rw [h1] at he; simp at he
    · exact ⟨(hsim.shape e he).recv, avail hws hsim.keys he⟩
  | persGens o =>
    rcases opg_spec hW hord h with h1 | ⟨h1, _⟩ | ⟨rets, sims, gens, wr, wsim, wg, pts', hp⟩
    · rw [h1] at he; simp at he
    · rw [h1] at he; simp at he
    · have he' := hp.perm.mem_iff.mp he
      simp only [List.mem_append, List.mem_filter] at he'
      rcases he' with (he' | he') | he'
      · exact notGen (hp.ret e he').1.tag ht
      · refine ⟨(hp.sim.shape e he'.1).recv, ?_⟩
        obtain ⟨k, h1, h2, h3, _⟩ := (opgSimWorkers_facts hW hord hp.simw).2 e.1 (hp.sim.keys.subset (List.mem_map_of_mem he'.1))
        exact ⟨k, h1, h2, h3⟩
      · exact notGen (hp.gen e he').tag ht
  | aposmm lp n0 =>
    rcases apo_spec hW (fun hf => (hl.2 hf).1) h with ⟨h1, _⟩ | ⟨h1, _⟩ | ⟨p1, rets, sims, gens, wr, wsim, wg, n, n', hn, hf1, hsame, hfirst, hp⟩
    · rw [h1] at he; simp at he
    · rw [h1] at he; simp at he
    · have he' := hp.perm.mem_iff.mp he
      simp only [List.mem_append, List.mem_filter] at he'
      rcases he' with (he' | he') | he'
      · exact notGen (hp.ret e he').1.tag ht
      · exact ⟨(hp.sim.shape e he'.1).recv, avail hp.simw hp.sim.keys he'.1⟩
      · exact notGen (hp.gen e he').tag ht
  | fd o => exact more rfl
  | invBayes o like => exact more rfl
  | localOpt o => exact more rfl

/-- Rows of the orders of an answer are not cancelled. -/
theorem sim_rows_answer {b : Bundled} {c : Ctx} (hW : IdsOk c.W) (hord : ∀ l, (c.ord l).Perm l)
    {p : PInfo} {s : Sched} {a : Answer} (hl : b.behind p []) (h : b.call c p s = .ok a) :
    ∀ i ∈ workRows a.work, ¬ Cancelled c.H i := by
  intro i hi
  cases hb : b.byPriority with
  | true =>
    obtain ⟨r, h1, _, h2⟩ := mem_waiting.mp ((prio_answer hb hW hord h).2 i hi)
    rintro ⟨r', h3, h4⟩
    rw [h1] at h3
    cases h3
    rw [h2] at h4; simp at h4
  | false => exact ((ord_answer hb hW hl h).2.1 i hi).2

/-- What the options promise about `persis_info` at the beginning: `persistent_aposmm_alloc` called before has the pointer. -/
theorem behind_any {b : Bundled} {env : AllocEnv} {c : Start} (h0 : b.behind c.pinfo []) {p : Ph} {s : St}
    (h : Reach c.sp (b.P env c.sp) c.st p s) (hg : p.going = true) : b.behind s.pinfo [] := by
  cases hb : b.byPriority with
  | true =>
    cases b with
    | simFirst o => intro i hi; simp at hi
    | persGens o => intro i hi; simp at hi
    | fd o => intro i hi; simp at hi
    | invBayes o like => intro i hi; simp at hi
    | localOpt o => intro i hi; simp at hi
    | _ => simp [Bundled.byPriority] at hb
  | false => exact behind_mem ((once_ord hb h0 h).2 hg) (fun i hi => by simp at hi)

theorem start_behind {b : Bundled} {c : Start} (h0 : ∀ lp n, b = .aposmm lp n → c.pinfo.firstCall = false → c.pinfo.nextToGive ≠ none) :
    b.behind c.pinfo [] := by
  cases b with
  | aposmm lp n => exact ⟨fun _ => rfl, fun hf => ⟨h0 lp n rfl hf, by simp⟩⟩
  | _ => intro i hi; simp at hi

variable {sp : Specs} {P : St → Reply → Prop} {s0 : St}

/-- Orders still to be handed out come from the answer of the allocation function; what holds of them then still holds. -/
theorem Reach.handQ {Q : Hist → Nat → Work → Prop} {p : Ph} {s : St} (h : Reach sp P s0 p s)
    (hP : ∀ s cs work p, Reach sp P s0 .alloc s → P s (.ok cs work false p) → ∀ e ∈ work, Q (doOp s (.requestCancel cs)).1.hist e.1 e.2)
    (hQ : ∀ s wk w t w' wk', Q s.hist w' wk' → Q (handOut sp s wk w t).1.hist w' wk') :
    ∀ l, p = .hand l → ∀ x ∈ l, Q s.hist x.1 x.2.1 := by
  induction h with
  | allocOk cs work p t hr hp ih =>
    intro l hl x hx
    injection hl with hl
    subst hl
    simp only [List.mem_map] at hx
    obtain ⟨e, he, rfl⟩ := hx
    exact hP _ cs work p hr hp e he
  | give hr hm hok ih =>
    intro l hl x hx
    injection hl with hl
    subst hl
    exact hQ _ _ _ _ _ _ (ih _ rfl x (List.mem_cons_of_mem _ hx))
  | _ => intro l hl; cases hl

/-- A worker of the table is addressed by its own number. -/
theorem idAt_wPos {c : Start} {key q n : Nat} (hk : key ≠ 0 ∨ c.sp.gom = true) (h : wPos c.sp.gom n key = some q) : idAt c.sp q = key := by
  simp only [wPos] at h
  simp only [idAt]
  split at h
  · split at h
    · rename_i h1 h2
      rw [if_pos h1]
      simpa using h.symm
    · simp at h
  · rename_i h1
    rw [if_neg h1]
    have h0 : key ≠ 0 := by
      rcases hk with h | h
      · exact h
      · exact absurd h h1
    rw [if_neg h0] at h
    split at h
    · have : key - 1 = q := by simpa using h
      omega
    · simp at h

/-- Worker 0 exists only with `gen_on_manager`. -/
theorem start_ids_pos {c : Start} {p : Ph} {s : St} (h : Reach c.sp P c.st p s) {k : Wrk} (hk : k ∈ s.W) : k.id ≠ 0 ∨ c.sp.gom = true := by
  have h1 : ids s = ids c.st := h.micros.ids
  have h2 : k.id ∈ ids s := List.mem_map_of_mem hk
  rw [h1] at h2
  simp only [ids, Start.st, initSt, initW, List.map_map] at h2
  cases hg : c.sp.gom with
  | true => exact .inr rfl
  | false =>
    left
    rw [hg] at h2
    simp only [Bool.false_eq_true, if_false, List.mem_map, List.mem_range'] at h2
    obtain ⟨i, ⟨j, _, hj⟩, h3⟩ := h2
    simp only [Function.comp] at h3
    omega

/-- What the manager needs of an order for evaluation: a worker of the table, active receive only with persistent. -/
def SimOrderOk (gom : Bool) (key : Nat) (wk : Work) : Prop :=
  wk.tag = EVAL_SIM → (key ≠ 0 ∨ gom = true) ∧ (wk.persistent = true ∨ wk.activeRecv = none)

/-- All orders for evaluation of the run are of this kind. -/
def OrdersOk (gom : Bool) (tr : List Ev) : Prop := ∀ to key wk, .order to key wk ∈ tr → SimOrderOk gom key wk

theorem OrdersOk.recv {gom : Bool} {tr : List Ev} (h : OrdersOk gom tr) : RecvOk tr := fun to key wk hm ht => (h to key wk hm ht).2

theorem OrdersOk.key {gom : Bool} {tr : List Ev} (h : OrdersOk gom tr) {to key i : Nat} (hs : SentTo tr to key i) : key ≠ 0 ∨ gom = true := by
  obtain ⟨wk, vals, l1, l2, rfl, ht, _⟩ := hs
  exact (h to key wk (by simp) ht).1

/-- The orders of the bundled functions are. -/
theorem bundled_orders {b : Bundled} {env : AllocEnv} {c : Start} (h0 : b.behind c.pinfo []) {p : Ph} {s : St}
    (h : Reach c.sp (b.P env c.sp) c.st p s) : OrdersOk c.sp.gom s.tr := by
  have h1 : Always (onOrder fun pre _ key wk => Manager.hasFinal pre = false → SimOrderOk c.sp.gom key wk) s.tr := by
    refine h.orders (by rw [start_tr]; exact .nil) (by rw [start_tr]; rfl) (fun pre to key wk hf h => by rw [hf] at h; simp at h) ?_
    intro s w wk t rest k wk' l0 hr _ _ _ hwk _ _ ht
    have hq := hr.handQ (Q := fun _ w wk => SimOrderOk c.sp.gom w wk) (fun s cs work p hr hP e he ht => ?_) (fun _ _ _ _ _ _ h => h)
      _ rfl (w, wk, t) (by simp)
    · have ht' : wk.tag = EVAL_SIM := by rw [hwk] at ht; exact ht
      have := hq ht'
      rw [hwk]
      exact this
    · obtain ⟨now, ord, hord, rfl, hcall⟩ := hP.ok
      have hW : IdsOk (ctxOf env c.sp ord (b.marked now s)).W := by have h9 := start_idsOk hr; exact h9
      obtain ⟨g1, k, g2, g3, _⟩ := sim_answer hW hord (behind_any h0 hr rfl) hcall e he ht
      exact ⟨by rw [← g3]; exact start_ids_pos hr g2, .inr g1⟩
  intro to key wk hm ht
  obtain ⟨post, pre, he⟩ := List.append_of_mem hm
  cases hf : Manager.hasFinal pre with
  | false => exact h1 post _ pre he hf ht
  | true =>
    have := h.lateOrders start_tr post _ pre he hf
    rw [this] at ht
    simp [PERSIS_STOP, EVAL_SIM] at ht

end Verif.Manager
