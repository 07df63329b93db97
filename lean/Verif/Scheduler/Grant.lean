import Verif.Scheduler.Session
/-! Helper lemmas: requests that are granted. -/
namespace Verif.Sched
open Verif.Res

theorem sortedLens_sorted (d : ByGroup) : (sortedLens d).Pairwise (fun a b => b ≤ a) := by
  have h : (sortedLens d).Pairwise (fun a b => decide (b ≤ a) = true) := by
    apply pairwise_isort
    · intro a b c h1 h2; simp at *; omega
    · intro a b; simp; omega
  exact h.imp (by simp)

theorem mem_sortedLens {d : ByGroup} {k : Nat} : k ∈ sortedLens d ↔ ∃ p ∈ d, p.2.length = k := by
  unfold sortedLens
  rw [mem_isort, List.mem_map]

theorem sortedLens_head {d : ByGroup} {p : Nat × List Nat} (hp : p ∈ d) : ∃ k, (sortedLens d)[0]? = some k ∧ p.2.length ≤ k := by
  have hm : p.2.length ∈ sortedLens d := mem_sortedLens.mpr ⟨p, hp, rfl⟩
  have hs := sortedLens_sorted d
  cases hl : sortedLens d with
  | nil => rw [hl] at hm; cases hm
  | cons a as =>
    refine ⟨a, rfl, ?_⟩
    rw [hl] at hm hs
    rcases List.mem_cons.mp hm with e | e
    · omega
    · exact (List.pairwise_cons.mp hs).1 _ e

theorem map_id_snd (d : ByGroup) : (d.map fun p => (p.1, p.2)) = d := by
  conv => rhs; rw [← List.map_id d]
  rfl

theorem slots_length {rm : RM} (hw : LWF rm) {valid : ByGroup} (hd : DWF rm valid) {p : Nat × List Nat} (hp : p ∈ valid) :
    ((p.2.map (slotOf rm)).eraseDups).length = p.2.length := by
  have hnd : (p.2.map (slotOf rm)).Nodup := by
    have hs : p.2.Nodup := (hd.sorted p hp).imp (fun h => Nat.ne_of_lt h)
    rw [List.Nodup, List.pairwise_map]
    apply List.Pairwise.imp_of_mem _ hs
    intro a b ha hb hab e
    have h1 := hd.elems p hp a ha
    have h2 := hd.elems p hp b hb
    exact hab (hw.inj h1.1 h2.1 (by rw [h1.2, h2.2]) e)
  have := length_eq_of_nodup_mem (nodup_eraseDups (p.2.map (slotOf rm))) hnd (fun a => List.mem_eraseDups)
  rw [this, List.length_map]

/-- One node suffices: the team has exactly the requested size and lies on one node with the fewest sufficient sets. -/
theorem choose_single {rm : RM} (hw : LWF rm) {ord : List Nat → List Nat} (hord : ∀ l, (ord l).Perm l)
    {d : ByGroup} (hd : DWF rm d) (hdl : d.length = rm.numGroups) (sf ms : Bool) {req : Nat} (hr : 0 < req)
    {t : Option Bool} (hle : req ≤ totalOf rm t) (hmax : ∀ p ∈ filterType rm t d, p.2.length ≤ maxGrpsize rm t)
    (params : List Nat)
    (hex : ∃ p ∈ filterType rm t d, req ≤ p.2.length) :
    ∃ team p, chooseTeam rm ord sf ms d req t params = .ok team ∧ p ∈ filterType rm t d ∧ req ≤ p.2.length ∧
      team.length = req ∧ (∀ i ∈ team, grpOf rm i = p.1) ∧
      ∀ q ∈ filterType rm t d, req ≤ q.2.length → p.2.length ≤ q.2.length := by
  have hv := filterType_dwf (t := t) hd
  obtain ⟨p0, hp0, hp0l⟩ := hex
  have hlen : (sortedLens (filterType rm t d)).length = rm.numGroups := by
    rw [sortedLens_length, filterType, List.length_map, hdl]
  obtain ⟨req', ng, rpg, he, _, _, _, _, _, _, hone⟩ :=
    evenGrps_spec hr (maxGrp_pos hw hr hle) (Nat.le_trans hle (hw.total_le t))
  obtain ⟨e1, e2, e3⟩ := hone (Nat.le_trans hp0l (hmax p0 hp0))
  subst e1; subst e2; subst e3
  unfold chooseTeam
  simp only [he]
  rw [if_neg (by omega)]
  obtain ⟨k, hk, hkl⟩ := sortedLens_head hp0
  rw [Nat.sub_self, hk]
  simp only
  rw [if_neg (by omega)]
  cases ms with
  | true =>
    rw [if_pos rfl]
    have hlk : ∀ q ∈ slotsByGroup rm (filterType rm t d), ∃ l, (q.1, l) ∈ filterType rm t d ∧
        q.2.length = l.length := by
      intro q hq
      unfold slotsByGroup at hq
      rw [List.mem_map] at hq
      obtain ⟨p, hp, rfl⟩ := hq
      exact ⟨p.2, hp, slots_length hw hv hp⟩
    have hone : ∀ q ∈ filterType rm t d, req' ≤ q.2.length →
        [(q.1, (q.2.map (slotOf rm)).eraseDups)].Sublist (slotsOfLen (slotsByGroup rm (filterType rm t d)) req') := by
      intro q hq hql
      rw [List.singleton_sublist, slotsOfLen, List.mem_filter]
      refine ⟨List.mem_map.mpr ⟨q, hq, rfl⟩, ?_⟩
      simp only [decide_eq_true_eq]
      rw [slots_length hw hv hq]; exact hql
    have hint : ∀ q ∈ filterType rm t d,
        (interAll ([(q.1, (q.2.map (slotOf rm)).eraseDups)].map (·.2))).length = q.2.length := by
      intro q hq
      simp only [List.map_cons, List.map_nil, interAll]
      rw [List.filter_eq_self.mpr (by simp)]
      exact slots_length hw hv hq
    rcases matchingSlots_spec (slots := slotsByGroup rm (filterType rm t d)) (ng := 1) (rpg := req') (by omega) with
      ⟨_, hno⟩ | ⟨c, c1, c2, c3, c4, c5⟩
    · have := hno _ (hone p0 hp0 hp0l) rfl
      rw [hint p0 hp0] at this
      omega
    · rw [c4]
      simp only
      obtain ⟨team, t1, t2, t3, t4⟩ := cand_team hw hord hv (ng := 1) (rpg := req') (need := req')
        ⟨c, c1, c2, c3, rfl⟩ (by omega)
      obtain ⟨q, rfl⟩ : ∃ q, c = [q] := by
        cases c with
        | nil => simp at c2
        | cons q qs =>
          cases qs with
          | nil => exact ⟨q, rfl⟩
          | cons _ _ => simp at c2
      have hq : q ∈ slotsByGroup rm (filterType rm t d) := (c1.trans List.filter_sublist).subset (by simp)
      unfold slotsByGroup at hq
      rw [List.mem_map] at hq
      obtain ⟨p, hp, rfl⟩ := hq
      rw [hint p hp] at c3 c5
      refine ⟨team, p, t1, hp, c3, by omega, ?_, ?_⟩
      · intro i hi
        have := t4 i hi
        simpa using this
      · intro r hrm hrl
        have := c5 _ (hone r hrm hrl) rfl (by rw [hint r hrm]; exact hrl)
        rw [hint r hrm] at this
        exact this
  | false =>
    rw [if_neg (by simp), if_neg (by omega)]
    unfold anySlots
    simp only
    rcases findCandidate_best [] req' (filterType rm t d) (maxGrpsize rm t + 1) none with ⟨_, h2⟩ | ⟨p, h1, _, h3, _, h5, h6⟩
    · have := h2 p0 hp0 (by simp) hp0l
      have := hmax p0 hp0
      omega
    · have hloop : anySlotsLoop req' (maxGrpsize rm t + 1) 1 (filterType rm t d) [] [] = p.2.take req' := by
        simp only [anySlotsLoop, h5, List.nil_append]
      rw [hloop]
      have hl : (p.2.take req').length = req' := by rw [List.length_take]; omega
      rw [if_pos hl]
      refine ⟨_, p, rfl, h1, h3, by rw [length_sortNat, hl], ?_, ?_⟩
      · intro i hi
        rw [mem_sortNat] at hi
        exact (hv.elems p h1 i (List.mem_of_mem_take hi)).2
      · intro q hq hql; exact h6 q hq (by simp) hql

/-- All groups have the same available slots: any request up to the total is granted. -/
theorem choose_even {rm : RM} (hw : LWF rm) {ord : List Nat → List Nat} (hord : ∀ l, (ord l).Perm l)
    {d : ByGroup} (hd : DWF rm d) (hdl : d.length = rm.numGroups) (sf ms : Bool) {req : Nat} (hr : 0 < req)
    {t : Option Bool} (hle : req ≤ totalOf rm t) (hfull : ∀ p ∈ filterType rm t d, p.2.length = maxGrpsize rm t)
    (hslot : ∀ p ∈ filterType rm t d, ∀ q ∈ filterType rm t d, ∀ i ∈ p.2, ∃ j ∈ q.2, slotOf rm j = slotOf rm i)
    (params : List Nat) : ∃ team, chooseTeam rm ord sf ms d req t params = .ok team := by
  have hv := filterType_dwf (t := t) hd
  have hvl : (filterType rm t d).length = rm.numGroups := by rw [filterType, List.length_map, hdl]
  have hlen : (sortedLens (filterType rm t d)).length = rm.numGroups := by
    rw [sortedLens_length, hvl]
  obtain ⟨req', ng, rpg, he, hreq', hge, hng, hrpg, hngle, hrpgle, _⟩ :=
    evenGrps_spec hr (maxGrp_pos hw hr hle) (Nat.le_trans hle (hw.total_le t))
  unfold chooseTeam
  simp only [he]
  rw [if_neg (by omega : ¬ ng = 0)]
  have hidx : ng - 1 < (sortedLens (filterType rm t d)).length := by omega
  have hev : (sortedLens (filterType rm t d))[ng - 1] = maxGrpsize rm t := by
    have hm : (sortedLens (filterType rm t d))[ng - 1] ∈ sortedLens (filterType rm t d) := List.getElem_mem hidx
    rw [mem_sortedLens] at hm
    obtain ⟨p, hp, hpl⟩ := hm
    rw [← hpl]; exact hfull p hp
  rw [List.getElem?_eq_getElem hidx, hev]
  simp only
  rw [if_neg (by omega)]
  cases ms with
  | true =>
    rw [if_pos rfl]
    rcases matchingSlots_spec (slots := slotsByGroup rm (filterType rm t d)) (ng := ng) (rpg := rpg) hng with
      ⟨_, hno⟩ | ⟨c, c1, c2, c3, c4, _⟩
    · exfalso
      have hall : slotsOfLen (slotsByGroup rm (filterType rm t d)) rpg = slotsByGroup rm (filterType rm t d) := by
        unfold slotsOfLen
        rw [List.filter_eq_self]
        intro q hq
        unfold slotsByGroup at hq
        rw [List.mem_map] at hq
        obtain ⟨p, hp, rfl⟩ := hq
        simp only [decide_eq_true_eq]
        rw [slots_length hw hv hp, hfull p hp]; exact hrpgle
      have hsub : ((slotsByGroup rm (filterType rm t d)).take ng).Sublist
          (slotsOfLen (slotsByGroup rm (filterType rm t d)) rpg) := by
        rw [hall]; exact List.take_sublist _ _
      have hsl : (slotsByGroup rm (filterType rm t d)).length = rm.numGroups := by
        rw [slotsByGroup, List.length_map, hvl]
      have h1 := hno _ hsub (by rw [List.length_take]; omega)
      have hne : ∃ q qs, (slotsByGroup rm (filterType rm t d)).take ng = q :: qs := by
        cases hc : (slotsByGroup rm (filterType rm t d)).take ng with
        | nil =>
          have := congrArg List.length hc
          rw [List.length_take, List.length_nil] at this
          omega
        | cons q qs => exact ⟨q, qs, rfl⟩
      obtain ⟨q, qs, hqq⟩ := hne
      rw [hqq] at h1
      simp only [List.map_cons, interAll] at h1
      have hmemAll : ∀ x ∈ q :: qs, ∃ p ∈ filterType rm t d, x = (p.1, (p.2.map (slotOf rm)).eraseDups) := by
        intro x hx
        have : x ∈ slotsByGroup rm (filterType rm t d) := by
          rw [← hqq] at hx; exact List.mem_of_mem_take hx
        unfold slotsByGroup at this
        rw [List.mem_map] at this
        obtain ⟨p, hp, e⟩ := this
        exact ⟨p, hp, e.symm⟩
      obtain ⟨p, hp, e⟩ := hmemAll q List.mem_cons_self
      rw [List.filter_eq_self.mpr, e] at h1
      · simp only at h1
        rw [slots_length hw hv hp, hfull p hp] at h1
        omega
      · intro x hx
        rw [List.all_eq_true]
        intro s hs
        rw [List.mem_map] at hs
        obtain ⟨y, hy, rfl⟩ := hs
        obtain ⟨p', hp', e'⟩ := hmemAll y (List.mem_cons_of_mem _ hy)
        rw [e] at hx
        simp only [List.mem_eraseDups, List.mem_map] at hx
        obtain ⟨i, hi, rfl⟩ := hx
        obtain ⟨j, hj, hji⟩ := hslot p hp p' hp' i hi
        rw [e']
        simp only [decide_eq_true_eq, List.mem_eraseDups, List.mem_map]
        exact ⟨j, hj, hji⟩
    · rw [c4]
      simp only
      obtain ⟨team, t1, _⟩ := cand_team hw hord hv (ng := ng) (rpg := rpg) (need := req)
        ⟨c, c1, c2, c3, rfl⟩ (by omega)
      exact ⟨team, t1⟩
  | false =>
    rw [if_neg (by simp), if_neg (by omega)]
    unfold anySlots
    simp only
    have := anySlotsLoop_all rpg (maxGrpsize rm t + 1) (filterType rm t d) (by
      intro p hp; rw [hfull p hp]; omega) ng (·.2) [] [] (by simp) (by
      rw [List.filter_eq_self.mpr]
      · rw [hvl]; exact hngle
      · intro p hp
        rw [hfull p hp]; simp [hrpgle]) hv.keys
    rw [map_id_snd] at this
    rw [if_pos (by rw [this, hreq']; simp)]
    exact ⟨_, rfl⟩

/-- Every (group, slot) pair below the size is in the table. -/
theorem blocks_exists {gpn : Nat} : ∀ {sizes : List Nat} {g0 g k x : Nat}, g0 ≤ g → sizes[g - g0]? = some k → x < k →
    ⟨g, x, decide (x < gpn)⟩ ∈ blocks gpn g0 sizes := by
  intro sizes
  induction sizes with
  | nil => intro g0 g k x _ h; simp at h
  | cons s ss ih =>
    intro g0 g k x hg hk hx
    rw [blocks, List.mem_append]
    by_cases e : g = g0
    · subst e
      left
      simp at hk; subst hk
      exact List.mem_map.mpr ⟨x, List.mem_range.mpr hx, rfl⟩
    · right
      rw [show g - g0 = (g - (g0 + 1)) + 1 by omega, List.getElem?_cons_succ] at hk
      exact ih (by omega) hk hx

theorem zipIdx_blocks {α} (gpn : Nat) (f : Nat → Nat) : ∀ (l : List α) (s : Nat),
    (l.zipIdx s).flatMap (fun p => (List.range (f p.2)).map fun j => (⟨p.2 + 1, j, decide (j < gpn)⟩ : RS))
      = blocks gpn (s + 1) ((List.range' s l.length).map f) := by
  intro l
  induction l with
  | nil => intro s; rfl
  | cons x xs ih =>
    intro s
    rw [List.zipIdx_cons, List.flatMap_cons, ih (s + 1), List.length_cons, List.range'_succ, List.map_cons, blocks]

end Verif.Sched
