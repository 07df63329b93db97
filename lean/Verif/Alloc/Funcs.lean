import Verif.Alloc.Order
/-! Helper lemmas: what each bundled allocation function answers. -/
namespace Verif.Alloc
open Verif.History Verif.Res Verif.Sched

theorem map_ok {α β ε} {r : Except ε α} {f : α → β} {b : β} (h : r.map f = .ok b) : ∃ a, r = .ok a ∧ b = f a := by
  cases r with
  | error e => cases h
  | ok a => injection h with h; exact ⟨a, rfl, h.symm⟩

theorem puts_nil_left {es : WorkD} (hn : (keys es).Nodup) : puts [] es = es := by
  rw [puts_fresh hn (by simp)]; rfl

/-- Simulation part of an answer by priority. -/
structure SimsPrio (c : Ctx) (batch pers : Bool) (ws : List Nat) (es : WorkD) (pts pts' : List Nat) : Prop where
  keys : (keys es).Sublist ws
  shape : ∀ e ∈ es, SimShape c pers e.2
  greedy : Greedy c.fields c.H batch pts (rowsOf es) pts'

theorem gswf_spec {c : Ctx} {o : UserOpts} {p : PInfo} {s : Sched} {a : Answer} (hW : IdsOk c.W)
    (h : giveSimWorkFirst c o p s = .ok a) :
    a.pinfo = p ∧ a.flag = false ∧ (∃ s', Steps c s a.work s') ∧
    (a.work = [] ∨
     (waiting c.H ≠ [] ∧ ∃ ws pts', availIds c.W none false none (some false) = .ok ws ∧
        SimsPrio c o.batchGive false ws a.work (waiting c.H) pts') ∨
     (waiting c.H = [] ∧ a.work ≠ [] ∧ ∃ ws, availIds c.W none false none (some true) = .ok ws ∧ (keys a.work).Sublist ws ∧
        (∀ e ∈ a.work, GenShape c.genIn (if c.genIn.isEmpty then [] else List.range c.H.length) false none e.2) ∧
        (∀ N, o.numActiveGens = some N → countGens c.W + a.work.length ≤ N) ∧
        (o.batchMode = true → allSimEnded c.H (fun _ => true) = true))) := by
  unfold giveSimWorkFirst at h
  split at h
  · cases h; exact ⟨rfl, rfl, ⟨s, .nil _⟩, Or.inl rfl⟩
  · obtain ⟨st, hst, ha⟩ := map_ok h
    subst ha
    split at hst
    · rename_i hemp
      split at hst
      · cases hst
      · rename_i ws hws
        obtain ⟨es, h1, h2, h3, h4, h5, h6, h7⟩ := gswfGens_spec c o ws _ st hst
        have hn : (keys es).Nodup := h3.nodup (availIds_nodup hW hws)
        simp only at h2
        rw [puts_nil_left hn] at h2
        have hwk : (st.answer false).work = es := h2
        refine ⟨h5, rfl, ⟨st.s, by rw [hwk]; exact h1⟩, ?_⟩
        rw [hwk]
        by_cases hes : es = []
        · exact Or.inl hes
        · exact Or.inr (Or.inr ⟨by simpa using hemp, hes, ws, hws, h3, h4, (h7 hes).1, (h7 hes).2⟩)
    · rename_i hemp
      split at hst
      · cases hst
      · rename_i ws hws
        obtain ⟨es, h1, h2, h3, h4, h5, h6, h7⟩ := gswfSims_spec c o.batchGive ws _ st hst
        have hn : (keys es).Nodup := h3.nodup (availIds_nodup hW hws)
        simp only at h2
        rw [puts_nil_left hn] at h2
        have hwk : (st.answer false).work = es := h2
        refine ⟨h6, rfl, ⟨st.s, by rw [hwk]; exact h1⟩, ?_⟩
        rw [hwk]
        exact Or.inr (Or.inl ⟨by simpa using hemp, ws, st.pts, hws, ⟨h3, h4, h5⟩⟩)

/-- Simulation part of an answer in row order. -/
structure SimsOrd (c : Ctx) (ws : List Nat) (es : WorkD) (n n' : Nat) : Prop where
  keys : (keys es).Sublist ws
  shape : ∀ e ∈ es, SimShape c false e.2
  inorder : InOrder c.H n (rowsOf es) n'

theorem fast_spec {c : Ctx} {o : UserOpts} {p : PInfo} {s : Sched} {a : Answer} (hW : IdsOk c.W)
    (h : fastAlloc c o p s = .ok a) :
    a.flag = false ∧ (∃ s', Steps c s a.work s') ∧
    (a = ⟨[], p, false⟩ ∨
     ∃ n n' ws sims gens, p.nextToGive = some n ∧ a.pinfo.nextToGive = some n' ∧ a.work = sims ++ gens ∧
       availIds c.W none false none (some false) = .ok ws ∧ SimsOrd c ws sims n n' ∧
       (∀ ids ∈ rowsOf sims, ∀ i ∈ ids, i < c.H.length) ∧ (n ≤ c.H.length → n' ≤ c.H.length) ∧
       (gens ≠ [] → n' ≥ c.H.length ∧ ∀ N, o.numActiveGens = some N → countGens c.W + gens.length ≤ N) ∧
       ∃ ws2, availIds c.W none false none (some true) = .ok ws2 ∧ (keys gens).Sublist ws2 ∧
       (∀ e ∈ gens, e.1 ∉ keys sims ∧
         GenShape c.genIn (if c.genIn.isEmpty then [] else List.range c.H.length) false none e.2)) := by
  unfold fastAlloc at h
  split at h
  · cases h; exact ⟨rfl, ⟨s, .nil _⟩, Or.inl rfl⟩
  · split at h
    · cases h
    · rename_i ws hws
      split at h
      · cases h
      · rename_i st hst
        have hnext : ∃ n, p.nextToGive = some n ∨ ws = [] := by
          cases hp : p.nextToGive with
          | some n => exact ⟨n, Or.inl rfl⟩
          | none =>
            refine ⟨0, Or.inr ?_⟩
            cases ws with
            | nil => rfl
            | cons w ws => simp [fastSims, hp] at hst
        obtain ⟨n, hn⟩ := hnext
        split at h
        · cases h
        · rename_i m hm
          have hn' : p.nextToGive = some m ∧ ws = [] ∨ p.nextToGive = some n := by
            rcases hn with hn | hn
            · exact Or.inr hn
            · refine Or.inl ⟨?_, hn⟩
              subst hn
              unfold fastSims at hst
              cases hst
              exact hm
          obtain ⟨n0, hn0⟩ : ∃ n0, p.nextToGive = some n0 := by
            rcases hn' with ⟨h1, _⟩ | h1
            · exact ⟨_, h1⟩
            · exact ⟨_, h1⟩
          obtain ⟨es, n', h1, h2, h3, h4, h5, h6, h7, h8, h9⟩ := fastSims_spec c ws _ st n0 hst hn0
          have hnd : (keys es).Nodup := h3.nodup (availIds_nodup hW hws)
          simp only at h2
          rw [puts_nil_left hnd] at h2
          have hmn : m = n' := by rw [h5] at hm; injection hm with hm; exact hm.symm
          subst hmn
          obtain ⟨ws2, hws2⟩ := availIds_noRecv c.W none none (some true)
          split at h
          · rename_i hge
            rw [hws2] at h
            simp only at h
            obtain ⟨st2, hst2, ha⟩ := map_ok h
            subst ha
            obtain ⟨gs, g1, g2, g3, g4, g5, g6, g7⟩ := fastGens_spec c o ws2 st st2 hst2 (availIds_nodup hW hws2)
            have hgn : (keys gs).Nodup := g3.nodup (availIds_nodup hW hws2)
            have hfr : st2.work = es ++ gs := by
              rw [g2, h2]
              apply puts_fresh hgn
              intro k hk
              obtain ⟨e, he, rfl⟩ := List.mem_map.mp hk
              have := (g4 e he).1
              rw [h2] at this
              exact this
            refine ⟨rfl, ⟨st2.s, ?_⟩, Or.inr ⟨n0, m, ws, es, gs, hn0, ?_, hfr, hws, ⟨h3, h4, h7⟩, h8, h9, ?_, ws2, hws2, g3, ?_⟩⟩
            · show Steps c s st2.work st2.s
              rw [hfr]; exact h1.trans g1
            · show st2.p.nextToGive = some m
              rw [g5]; exact hm
            · intro hgs
              refine ⟨hge, ?_⟩
              intro N hN
              have := g7 hgs N hN
              rw [h6] at this
              exact this
            · intro e he
              have := g4 e he
              rw [h2] at this
              exact this
          · injection h with h
            subst h
            refine ⟨rfl, ⟨st.s, ?_⟩, Or.inr ⟨n0, m, ws, es, [], hn0, hm, by rw [List.append_nil]; exact h2, hws, ⟨h3, h4, h7⟩, h8, h9, by simp, ws2, hws2, List.nil_sublist _, by simp⟩⟩
            show Steps c s st.work st.s
            rw [h2]; exact h1

theorem oneGen_spec {c : Ctx} {p : PInfo} {s : Sched} {a : Answer} (hW : IdsOk c.W) (h : oneGenAlloc c p s = .ok a) :
    a.flag = false ∧ (∃ s', Steps c s a.work s') ∧
    (a = ⟨[], p, false⟩ ∨
     (∃ n n' ws, p.nextToGive = some n ∧ n < c.H.length ∧ a.pinfo = { p with nextToGive := some n' } ∧
       availIds c.W none false none (some false) = .ok ws ∧ SimsOrd c ws a.work n n' ∧
       (∀ ids ∈ rowsOf a.work, ∀ i ∈ ids, i ≤ c.H.length)) ∨
     (∃ n w wk ws, p.nextToGive = some n ∧ c.H.length ≤ n ∧ a.work = [(w, wk)] ∧ a.pinfo.nextToGive = some n ∧ testAnyGen c.W = false ∧
       allSimEnded c.H (fun _ => true) = true ∧ availIds c.W none false none (some true) = .ok ws ∧ w ∈ ws ∧
       GenShape c.genIn (if c.genIn.isEmpty then [] else List.range c.H.length) false none wk)) := by
  unfold oneGenAlloc at h
  split at h
  · cases h; exact ⟨rfl, ⟨s, .nil _⟩, Or.inl rfl⟩
  · split at h
    · cases h
    · rename_i n hn
      split at h
      · rename_i hlt
        split at h
        · cases h
        · rename_i ws hws
          obtain ⟨st, hst, ha⟩ := map_ok h
          subst ha
          obtain ⟨es, n', h1, h2, h3, h4, h5, h6, h7⟩ := orderSims_spec c ws _ st n hst hn
          have hnd : (keys es).Nodup := h3.nodup (availIds_nodup hW hws)
          simp only at h2
          rw [puts_nil_left hnd] at h2
          have hwk : (st.answer false).work = es := h2
          refine ⟨rfl, ⟨st.s, by rw [hwk]; exact h1⟩, Or.inr (Or.inl ⟨n, n', ws, hn, hlt, h5, hws, ?_, ?_⟩)⟩
          · rw [hwk]; exact ⟨h3, h4, h6⟩
          · rw [hwk]; exact h7 (by omega)
      · rename_i hge
        split at h
        · cases h; exact ⟨rfl, ⟨s, .nil _⟩, Or.inl rfl⟩
        · rename_i hany
          split at h
          · cases h
          · cases h
          · rename_i w ws hws
            split at h
            · cases h; exact ⟨rfl, ⟨s, .nil _⟩, Or.inl rfl⟩
            · rename_i hend
              split at h
              · cases h; exact ⟨rfl, ⟨s, .nil _⟩, Or.inl rfl⟩
              · cases h
              · rename_i s' wk hgw
                obtain ⟨hu, ht, hf, hr, hp, har⟩ := genWork_ok hgw
                split at h
                · cases h
                · injection h with h
                  subst h
                  refine ⟨rfl, ⟨s', .cons _ w _ wk hu (.nil _)⟩, Or.inr (Or.inr ⟨n, w, wk, w :: ws, hn, by omega, rfl, hn, ?_, ?_, hws, List.mem_cons_self, ht, hf, hr, hp, har⟩)⟩
                  · simpa using hany
                  · simpa using hend

theorem pregen_spec {c : Ctx} {p : PInfo} {s : Sched} {a : Answer} (hW : IdsOk c.W) (h : pregenAlloc c p s = .ok a) :
    (∃ s', Steps c s a.work s') ∧
    (a = ⟨[], p, false⟩ ∨
     (a = ⟨[], { p with nextToGive := some (p.nextToGive.getD 0) }, true⟩ ∧ c.H.length ≤ p.nextToGive.getD 0) ∨
     (∃ n' ws, p.nextToGive.getD 0 < c.H.length ∧ a.pinfo = { p with nextToGive := some n' } ∧ a.flag = false ∧
       availIds c.W none false none (some false) = .ok ws ∧ SimsOrd c ws a.work (p.nextToGive.getD 0) n' ∧
       (∀ ids ∈ rowsOf a.work, ∀ i ∈ ids, i ≤ c.H.length))) := by
  unfold pregenAlloc at h
  split at h
  · cases h; exact ⟨⟨s, .nil _⟩, Or.inl rfl⟩
  · simp only at h
    split at h
    · rename_i hge; cases h; exact ⟨⟨s, .nil _⟩, Or.inr (Or.inl ⟨rfl, hge⟩)⟩
    · rename_i hlt
      split at h
      · cases h
      · rename_i ws hws
        obtain ⟨st, hst, ha⟩ := map_ok h
        subst ha
        obtain ⟨es, n', h1, h2, h3, h4, h5, h6, h7⟩ := orderSims_spec c ws _ st (p.nextToGive.getD 0) hst rfl
        have hnd : (keys es).Nodup := h3.nodup (availIds_nodup hW hws)
        simp only at h2
        rw [puts_nil_left hnd] at h2
        have hwk : (st.answer false).work = es := h2
        refine ⟨⟨st.s, by rw [hwk]; exact h1⟩, Or.inr (Or.inr ⟨n', ws, by omega, h5, rfl, hws, ?_, ?_⟩)⟩
        · rw [hwk]; exact ⟨h3, h4, h6⟩
        · rw [hwk]; exact h7 (by omega)

theorem same_wrk : ∀ {L : List Wrk}, IdsOk L → ∀ {k k2 : Wrk}, k ∈ L → k2 ∈ L → k.id = k2.id → k = k2 := by
  intro L
  induction L with
  | nil => intro _ k k2 h; cases h
  | cons a L ih =>
    intro hn k k2 ha hb e
    unfold IdsOk at hn
    rw [List.map_cons, List.nodup_cons] at hn
    rcases List.mem_cons.mp ha with ea | ha'
    · rcases List.mem_cons.mp hb with eb | hb'
      · rw [ea, eb]
      · exact absurd (List.mem_map.mpr ⟨k2, hb', by rw [← e, ea]⟩) hn.1
    · rcases List.mem_cons.mp hb with eb | hb'
      · exact absurd (List.mem_map.mpr ⟨k, ha', by rw [e, eb]⟩) hn.1
      · exact ih hn.2 ha' hb' e

theorem availIds_persis {W : List Wrk} {p : Nat} {ar : Bool} {z g : Option Bool} {l : List Nat}
    (h : availIds W (some p) ar z g = .ok l) {w : Nat} (hw : w ∈ l) :
    ∃ k ∈ W, k.id = w ∧ k.persis = p ∧ (ar = true → k.activeRecv = true) ∧ (ar = false → k.active = 0) := by
  rw [(availIds_ok h).2, List.mem_map] at hw
  obtain ⟨k, hk, e⟩ := hw
  rw [List.mem_filter] at hk
  simp only [Bool.and_eq_true] at hk
  refine ⟨k, hk.1, e, by simpa using hk.2.1.1.2, ?_, ?_⟩
  · intro ha; have := hk.2.1.1.1; rw [if_pos ha] at this; exact this
  · intro ha; have := hk.2.1.1.1; rw [if_neg (by rw [ha]; simp)] at this; simpa using this

/-- The three parts of an answer of `only_persistent_gens` and how the dictionary combines them. -/
structure OpgParts (c : Ctx) (o : UserOpts) (p : PInfo) (s : Sched) (a : Answer) (rets sims gens : WorkD) (wr wsim wg : List Nat) (pts' : List Nat) : Prop where
  steps : ∃ s', Steps c s (rets ++ sims ++ gens) s'
  perm : a.work.Perm (rets ++ sims.filter (fun x => decide (x.1 ∉ keys gens)) ++ gens)
  nodup : (keys a.work).Nodup
  run : p.numGensStarted ≤ countPersisGens c.W
  retw : availIds c.W (some EVAL_GEN) o.activeRecvGen none none = .ok wr
  retk : (keys rets).Sublist wr
  ret : ∀ e ∈ rets, GenShape c.persisIn (owed c.H e.1) true (some o.activeRecvGen) e.2 ∧ owed c.H e.1 ≠ [] ∧
        ((o.asyncReturn && decide (c.H.countP (·.flag .simEnded) ≥ o.initSample)) = false → allSimEnded c.H (ofGen e.1) = true)
  simw : opgSimWorkers c o = .ok wsim
  sim : SimsPrio c o.batchGive o.altType wsim sims (waiting c.H) pts'
  genw : availIds c.W (some 0) false (some true) (some true) = .ok wg
  genk : (keys gens).Sublist wg
  gen : ∀ e ∈ gens, GenShape c.genIn (List.range c.H.length) true (some o.activeRecvGen) e.2
  genmax : gens ≠ [] → countPersisGens c.W + gens.length ≤ o.numActiveGens.getD 1
  genlast : gens ≠ [] → pts' = []
  pinfo : a.pinfo = { p with numGensStarted := p.numGensStarted + gens.length }
  flag : a.flag = false

theorem opgSimWorkers_facts {c : Ctx} {o : UserOpts} {ws : List Nat} (hW : IdsOk c.W) (hord : ∀ l, (c.ord l).Perm l)
    (h : opgSimWorkers c o = .ok ws) :
    ws.Nodup ∧ ∀ w ∈ ws, ∃ k ∈ c.W, k.id = w ∧ k.active = 0 ∧ k.persis ≠ EVAL_GEN := by
  unfold opgSimWorkers at h
  split at h
  · split at h
    · rename_i a b ha hb
      injection h with h
      subst h
      unfold unionIds
      refine ⟨(hord _).symm.nodup (nodup_eraseDups _), ?_⟩
      intro w hw
      rw [(hord _).mem_iff, List.mem_eraseDups, List.mem_append] at hw
      rcases hw with hw | hw
      · obtain ⟨k, h1, h2, h3, h4⟩ := availIds_idle ha hw
        exact ⟨k, h1, h2, h3, by rw [h4 0 rfl]; decide⟩
      · obtain ⟨k, h1, h2, h3, h4⟩ := availIds_idle hb hw
        exact ⟨k, h1, h2, h3, by rw [h4 _ rfl]; decide⟩
    · cases h
    · cases h
  · refine ⟨availIds_nodup hW h, ?_⟩
    intro w hw
    obtain ⟨k, h1, h2, h3, h4⟩ := availIds_idle h hw
    exact ⟨k, h1, h2, h3, by rw [h4 0 rfl]; decide⟩

theorem opg_spec {c : Ctx} {o : UserOpts} {p : PInfo} {s : Sched} {a : Answer} (hW : IdsOk c.W) (hord : ∀ l, (c.ord l).Perm l)
    (h : onlyPersistentGens c o p s = .ok a) :
    a = ⟨[], p, false⟩ ∨ (a = ⟨[], p, true⟩ ∧ countPersisGens c.W < p.numGensStarted) ∨
    ∃ rets sims gens wr wsim wg pts', OpgParts c o p s a rets sims gens wr wsim wg pts' := by
  unfold onlyPersistentGens at h
  split at h
  · cases h; exact Or.inl rfl
  · simp only at h
    split at h
    · rename_i hlt; cases h; exact Or.inr (Or.inl ⟨rfl, hlt⟩)
    · rename_i hrun
      split at h
      · cases h
      · rename_i wr hwr
        split at h
        · cases h
        · rename_i st hst
          obtain ⟨rets, r1, r2, r3, r4, r5, r6, r7⟩ := opgReturns_spec c o _ wr _ st hst
          simp only at r2 r5 r6 r7
          split at h
          · cases h
          · rename_i wsim hwsim
            split at h
            · cases h
            · rename_i st2 hst2
              obtain ⟨sims, m1, m2, m3, m4, m5, m6, m7⟩ := opgSims_spec c o wsim st st2 hst2
              obtain ⟨hsn, hsidle⟩ := opgSimWorkers_facts hW hord hwsim
              obtain ⟨wg, hwg⟩ := availIds_noRecv c.W (some 0) (some true) (some true)
              have hrn : (keys rets).Nodup := r3.nodup (availIds_nodup hW hwr)
              have hmn : (keys sims).Nodup := m3.nodup hsn
              rw [puts_nil_left hrn] at r2
              rw [r7] at m5
              have hdisj : ∀ k ∈ keys sims, k ∉ keys rets := by
                intro k hk hk2
                obtain ⟨q, q1, q2, q3, q4⟩ := hsidle k (m3.subset hk)
                obtain ⟨q', q1', q2', q3', _⟩ := availIds_persis hwr (r3.subset hk2)
                have := same_wrk hW q1 q1' (q2.trans q2'.symm)
                subst this
                exact q4 q3'
              have hw2 : st2.work = rets ++ sims := by rw [m2, r2]; exact puts_fresh hmn hdisj
              have hgdisj : ∀ k ∈ wg, k ∉ keys rets := by
                intro k hk hk2
                obtain ⟨q, q1, q2, q3, q4⟩ := availIds_idle hwg hk
                obtain ⟨q', q1', q2', q3', _⟩ := availIds_persis hwr (r3.subset hk2)
                have := same_wrk hW q1 q1' (q2.trans q2'.symm)
                subst this
                rw [q4 0 rfl] at q3'
                exact absurd q3' (by decide)
              have hrs : (keys (rets ++ sims)).Nodup := by
                unfold keys
                rw [List.map_append, List.nodup_append]
                exact ⟨hrn, hmn, fun a ha b hb e => hdisj b hb (e ▸ ha)⟩
              split at h
              · rename_i hemp
                rw [hwg] at h
                simp only at h
                obtain ⟨st3, hst3, ha⟩ := map_ok h
                subst ha
                obtain ⟨gens, g1, g2, g3, g4, g5, g6, g7⟩ := opgGens_spec c o wg st2 st3 hst3
                have hgn : (keys gens).Nodup := g3.nodup (availIds_nodup hW hwg)
                refine Or.inr (Or.inr ⟨rets, sims, gens, wr, wsim, wg, st2.pts, ?_⟩)
                have hpt : st2.pts = [] := by simpa using hemp
                refine ⟨⟨st3.s, (r1.trans m1).trans g1⟩, ?_, ?_, by omega, hwr, r3, r4, hwsim, ⟨m3, m4, m5⟩, hwg, g3, g4, ?_, fun _ => hpt, ?_, rfl⟩
                · show st3.work.Perm _
                  rw [g2, hw2]
                  refine (puts_perm hrs hgn).trans ?_
                  rw [List.filter_append]
                  apply List.Perm.append_right
                  apply List.Perm.append_right
                  rw [List.filter_eq_self.mpr]
                  intro x hx
                  apply decide_eq_true
                  intro hx2
                  exact hgdisj x.1 (g3.subset hx2) (List.mem_map.mpr ⟨x, hx, rfl⟩)
                · show (keys st3.work).Nodup
                  rw [g2, hw2]
                  exact puts_nodup hrs
                · intro hne
                  have := g6 hne
                  rw [m7, r6] at this
                  exact this
                · show st3.p = _
                  rw [g7, m6, r5]
              · injection h with h
                subst h
                refine Or.inr (Or.inr ⟨rets, sims, [], wr, wsim, wg, st2.pts, ?_⟩)
                refine ⟨⟨st2.s, by rw [List.append_nil]; exact r1.trans m1⟩, ?_, ?_, by omega, hwr, r3, r4, hwsim, ⟨m3, m4, m5⟩, hwg, List.nil_sublist _, by simp, by simp, by simp, ?_, rfl⟩
                · show st2.work.Perm _
                  rw [hw2, List.append_nil, List.filter_eq_self.mpr (by simp [keys])]
                · show (keys st2.work).Nodup
                  rw [hw2]; exact hrs
                · show st2.p = _
                  rw [m6, r5]; rfl

/-- The three parts of an answer of `persistent_aposmm_alloc`. -/
structure ApoParts (c : Ctx) (initSample : Nat) (p : PInfo) (s : Sched) (a : Answer) (rets sims gens : WorkD) (wr wsim wg : List Nat) (n n' : Nat) : Prop where
  steps : ∃ s', Steps c s (rets ++ sims ++ gens) s'
  perm : a.work.Perm (rets ++ sims.filter (fun x => decide (x.1 ∉ keys gens)) ++ gens)
  nodup : (keys a.work).Nodup
  retw : availIds c.W (some EVAL_GEN) false none none = .ok wr
  retk : (keys rets).Sublist wr
  ret : ∀ e ∈ rets, GenShape c.persisIn (rowsWhere c.H fun r => r.flag .simEnded && !r.flag .genInformed) true none e.2 ∧ e.2.rows ≠ [] ∧
        (p.sampleDone = true ∨ c.H.countP (·.flag .simEnded) ≥ initSample + p.samplesInH0)
  retall : (p.sampleDone = true ∨ c.H.countP (·.flag .simEnded) ≥ initSample + p.samplesInH0) →
        (rowsWhere c.H fun r => r.flag .simEnded && !r.flag .genInformed) ≠ [] → keys rets = wr
  simw : availIds c.W (some 0) false none (some false) = .ok wsim
  sim : SimsOrd c wsim sims n n'
  exist : ∀ ids ∈ rowsOf sims, ∀ i ∈ ids, i < c.H.length
  genw : availIds c.W (some 0) false none (some true) = .ok wg
  genk : (keys gens).Sublist wg
  gen : ∀ e ∈ gens, GenShape c.genIn (List.range c.H.length) true none e.2
  genone : gens.length ≤ 1
  genfirst : gens ≠ [] → p.genStarted = false ∧ a.pinfo.genStarted = true
  genkeep : p.genStarted = true → a.pinfo.genStarted = true
  sample : a.pinfo.sampleDone = true → p.sampleDone = true ∨ c.H.countP (·.flag .simEnded) ≥ initSample + p.samplesInH0
  inH0 : a.pinfo.samplesInH0 = p.samplesInH0
  next : a.pinfo.nextToGive = some n'
  flag : a.flag = false
  first : a.pinfo.firstCall = p.firstCall

theorem apoBody_spec {c : Ctx} {initSample : Nat} {p : PInfo} {s : Sched} {a : Answer} {n : Nat} (hW : IdsOk c.W)
    (hn : p.nextToGive = some n) (h : apoBody c initSample p s = .ok a) :
    ∃ rets sims gens wr wsim wg n', ApoParts c initSample p s a rets sims gens wr wsim wg n n' := by
  unfold apoBody at h
  split at h
  · cases h
  · rename_i wr hwr
    split at h
    · cases h
    · rename_i st hst
      obtain ⟨rets, r1, r2, r3, r4, ⟨b, r5, r6⟩, r7⟩ := apoReturns_spec c initSample wr _ st hst
      simp only at r2 r5
      split at h
      · cases h
      · rename_i wsim hwsim
        split at h
        · cases h
        · rename_i st2 hst2
          obtain ⟨sims, n', m1, m2, m3, m4, m5, m6, m7⟩ := apoSims_spec c wsim st st2 n hst2 (by rw [r5]; exact hn)
          obtain ⟨wg, hwg⟩ := availIds_noRecv c.W (some 0) none (some true)
          have hrn : (keys rets).Nodup := r3.nodup (availIds_nodup hW hwr)
          have hmn : (keys sims).Nodup := m3.nodup (availIds_nodup hW hwsim)
          rw [puts_nil_left hrn] at r2
          have hd : ∀ {z g : Option Bool} {l : List Nat}, availIds c.W (some 0) false z g = .ok l → ∀ k ∈ l, k ∉ keys rets := by
            intro z g l hl k hk hk2
            obtain ⟨q, q1, q2, q3, q4⟩ := availIds_idle hl hk
            obtain ⟨q', q1', q2', q3', _⟩ := availIds_persis hwr (r3.subset hk2)
            have := same_wrk hW q1 q1' (q2.trans q2'.symm)
            subst this
            rw [q4 0 rfl] at q3'
            exact absurd q3' (by decide)
          have hdisj : ∀ k ∈ keys sims, k ∉ keys rets := fun k hk => hd hwsim k (m3.subset hk)
          have hw2 : st2.work = rets ++ sims := by rw [m2, r2]; exact puts_fresh hmn hdisj
          have hrs : (keys (rets ++ sims)).Nodup := by
            unfold keys
            rw [List.map_append, List.nodup_append]
            exact ⟨hrn, hmn, fun a ha b hb e => hdisj b hb (e ▸ ha)⟩
          have hgs : st2.p.genStarted = p.genStarted := by rw [m5, r5]
          split at h
          · rename_i hstd
            injection h with h
            subst h
            refine ⟨rets, sims, [], wr, wsim, wg, n', ?_⟩
            refine ⟨⟨st2.s, by rw [List.append_nil]; exact r1.trans m1⟩, ?_, ?_, hwr, r3, r4, r7, hwsim, ⟨m3, m4, m6⟩, m7, hwg, List.nil_sublist _, by simp, by simp, by simp, fun _ => hstd, ?_, ?_, ?_, rfl, ?_⟩
            · show st2.work.Perm _
              rw [hw2, List.append_nil, List.filter_eq_self.mpr (by simp [keys])]
            · show (keys st2.work).Nodup
              rw [hw2]; exact hrs
            · show st2.p.sampleDone = true → _
              rw [m5, r5]; exact r6
            · show st2.p.samplesInH0 = _
              rw [m5, r5]
            · show st2.p.nextToGive = _
              rw [m5]
            · show st2.p.firstCall = _
              rw [m5, r5]
          · rename_i hstd
            rw [hwg] at h
            simp only at h
            obtain ⟨st3, hst3, ha⟩ := map_ok h
            subst ha
            obtain ⟨gens, g1, g2, g3, g4, g5, ⟨b3, g6⟩, g7⟩ := apoStart_spec c wg st2 st3 hst3
            have hgn : (keys gens).Nodup := g3.nodup (availIds_nodup hW hwg)
            refine ⟨rets, sims, gens, wr, wsim, wg, n', ?_⟩
            refine ⟨⟨st3.s, (r1.trans m1).trans g1⟩, ?_, ?_, hwr, r3, r4, r7, hwsim, ⟨m3, m4, m6⟩, m7, hwg, g3, g5, g4, ?_, ?_, ?_, ?_, ?_, rfl, ?_⟩
            · show st3.work.Perm _
              rw [g2, hw2]
              refine (puts_perm hrs hgn).trans ?_
              rw [List.filter_append]
              apply List.Perm.append_right
              apply List.Perm.append_right
              rw [List.filter_eq_self.mpr]
              intro x hx
              apply decide_eq_true
              intro hx2
              exact hd hwg x.1 (g3.subset hx2) (List.mem_map.mpr ⟨x, hx, rfl⟩)
            · show (keys st3.work).Nodup
              rw [g2, hw2]
              exact puts_nodup hrs
            · intro hne
              refine ⟨?_, g7 hne⟩
              rw [← hgs]; simpa using hstd
            · intro hp
              rw [hgs] at hstd
              exact absurd hp hstd
            · show st3.p.sampleDone = true → _
              rw [g6, m5, r5]; exact r6
            · show st3.p.samplesInH0 = _
              rw [g6, m5, r5]
            · show st3.p.nextToGive = _
              rw [g6, m5]
            · show st3.p.firstCall = _
              rw [g6, m5, r5]

theorem apo_spec {c : Ctx} {lp : Field} {initSample : Nat} {p : PInfo} {s : Sched} {a : Answer} (hW : IdsOk c.W)
    (hn : p.firstCall = false → p.nextToGive ≠ none) (h : aposmmAlloc c lp initSample p s = .ok a) :
    (a = ⟨[], p, false⟩ ∧ (c.simMaxGiven = true ∨ c.anyIdle = false)) ∨ (a = ⟨[], p, true⟩ ∧ p.firstCall = false ∧ countPersisGens c.W = 0) ∨
    ∃ p1 rets sims gens wr wsim wg n n', p1.nextToGive = some n ∧ p1.firstCall = false ∧
      (p.firstCall = false → p1 = p) ∧
      (p.firstCall = true → n = c.H.length ∧ p1.genStarted = p.genStarted ∧ p1.sampleDone = p.sampleDone ∧ p1.samplesInH0 = c.H.countP (fun r => !r.flag lp) ∧
        (∀ r ∈ c.H, r.flag .cancelRequested = true ∨ r.flag .simStarted = true)) ∧
      ApoParts c initSample p1 s a rets sims gens wr wsim wg n n' := by
  unfold aposmmAlloc at h
  split at h
  · rename_i hg; cases h; exact Or.inl ⟨rfl, by simpa using hg⟩
  · split at h
    · rename_i hf
      split at h
      · cases h
      · rename_i p1 hp1
        unfold apoFirst at hp1
        split at hp1
        · rename_i hall
          injection hp1 with hp1
          subst hp1
          obtain ⟨rets, sims, gens, wr, wsim, wg, n', hh⟩ := apoBody_spec hW rfl h
          refine Or.inr (Or.inr ⟨_, rets, sims, gens, wr, wsim, wg, c.H.length, n', rfl, rfl, ?_, ?_, hh⟩)
          · intro hf2; rw [hf] at hf2; cases hf2
          · intro _
            refine ⟨rfl, rfl, rfl, rfl, ?_⟩
            intro r hr
            simp only [Bool.and_eq_true] at hall
            have := hall.1.1
            unfold allSimStarted at this
            rw [List.all_eq_true] at this
            have := this r hr
            revert this
            cases r.flag .cancelRequested <;> simp
        · cases hp1
    · rename_i hf
      split at h
      · rename_i hz; cases h; exact Or.inr (Or.inl ⟨rfl, by simpa using hf, hz⟩)
      · cases hp : p.nextToGive with
        | none => exact absurd hp (hn (by simpa using hf))
        | some n =>
          obtain ⟨rets, sims, gens, wr, wsim, wg, n', hh⟩ := apoBody_spec hW hp h
          exact Or.inr (Or.inr ⟨p, rets, sims, gens, wr, wsim, wg, n, n', hp, by simpa using hf, fun _ => rfl, fun hf2 => absurd hf2 hf, hh⟩)

end Verif.Alloc
