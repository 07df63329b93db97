import Verif.Scheduler.Choice
/-! Helper lemmas: the scheduler's answer is a proper team or "not enough free". -/
namespace Verif.Sched
open Verif.Res

theorem ceilDiv_pos {a b : Nat} (ha : 0 < a) (hb : 0 < b) : 0 < ceilDiv a b := by
  unfold ceilDiv
  have h := Nat.div_add_mod a b
  by_cases hm : a % b > 0
  · rw [if_pos hm]; exact Nat.succ_pos _
  · rw [if_neg hm]
    have : a % b = 0 := by omega
    rw [this] at h
    have : a / b ≠ 0 := by intro e; rw [e] at h; simp at h; omega
    exact Nat.pos_of_ne_zero this

theorem ceilDiv_mul_ge (a : Nat) {b : Nat} (hb : 0 < b) : a ≤ ceilDiv a b * b := by
  unfold ceilDiv
  have h := Nat.div_add_mod a b
  have hm := Nat.mod_lt a hb
  rw [Nat.add_mul, Nat.mul_comm (a / b) b]
  split <;> omega

theorem ceilDiv_le_of_le_mul {a b c : Nat} (hb : 0 < b) (h : a ≤ c * b) : ceilDiv a b ≤ c := by
  unfold ceilDiv
  have h1 := Nat.div_add_mod a b
  by_cases hm : a % b > 0
  · rw [if_pos hm]
    apply Nat.succ_le_of_lt
    apply Nat.lt_of_not_le
    intro hc
    have : b * c ≤ b * (a / b) := Nat.mul_le_mul_left b hc
    rw [Nat.mul_comm c b] at h
    omega
  · rw [if_neg hm]
    apply Nat.le_of_not_lt
    intro hc
    have : b * (c + 1) ≤ b * (a / b) := Nat.mul_le_mul_left b hc
    rw [Nat.mul_add] at this
    rw [Nat.mul_comm c b] at h
    omega

theorem evenGrps_spec {req maxGrp maxGroups : Nat} (hr : 0 < req) (hm : 0 < maxGrp) (hle : req ≤ maxGroups * maxGrp) :
    ∃ req' ng rpg, evenGrps req maxGrp maxGroups = .ok (req', ng, rpg) ∧ req' = ng * rpg ∧ req ≤ req' ∧ 0 < ng ∧
      0 < rpg ∧ ng ≤ maxGroups ∧ rpg ≤ maxGrp ∧ (req ≤ maxGrp → ng = 1 ∧ rpg = req ∧ req' = req) := by
  unfold evenGrps
  rw [if_neg (by omega), if_neg (by omega)]
  simp only
  have hn0 := ceilDiv_pos hr hm
  have hnle := ceilDiv_le_of_le_mul hm hle
  have hge := ceilDiv_mul_ge req hm
  by_cases hn : ceilDiv req maxGrp > 1
  · rw [if_pos hn]
    have hgt : ¬ req ≤ maxGrp := by
      intro h
      have : ceilDiv req maxGrp ≤ 1 := ceilDiv_le_of_le_mul (c := 1) hm (by omega)
      omega
    have hrpg : ceilDiv req (ceilDiv req maxGrp) ≤ maxGrp :=
      ceilDiv_le_of_le_mul hn0 (by rw [Nat.mul_comm]; exact hge)
    cases hf : (List.range' (ceilDiv req maxGrp) (maxGroups + 1 - ceilDiv req maxGrp)).find?
        (fun t => decide (req % t = 0)) with
    | none =>
      refine ⟨_, _, _, rfl, rfl, ?_, hn0, ceilDiv_pos hr hn0, hnle, hrpg, fun h => absurd h hgt⟩
      rw [Nat.mul_comm]; exact ceilDiv_mul_ge req hn0
    | some t =>
      have h1 := List.find?_some hf
      have h2 := List.mem_of_find?_eq_some hf
      rw [List.mem_range'_1] at h2
      simp at h1
      have hdiv := Nat.div_add_mod req t
      rw [h1, Nat.add_zero] at hdiv
      refine ⟨_, _, _, rfl, hdiv.symm, Nat.le_refl _, by omega, ?_, by omega, ?_, fun h => absurd h hgt⟩
      · apply Nat.pos_of_ne_zero
        intro e
        rw [e] at hdiv; simp at hdiv; omega
      · apply Nat.le_of_not_lt
        intro hc
        have h3 : t * (maxGrp + 1) ≤ t * (req / t) := Nat.mul_le_mul_left t hc
        have h4 : ceilDiv req maxGrp * maxGrp ≤ t * maxGrp := Nat.mul_le_mul_right _ h2.1
        rw [Nat.mul_add] at h3
        omega
  · rw [if_neg hn]
    have he : ceilDiv req maxGrp = 1 := by omega
    rw [he] at hge
    refine ⟨_, _, _, rfl, by rw [he]; omega, Nat.le_refl _, hn0, hr, hnle, by omega, fun _ => ⟨he, rfl, rfl⟩⟩

theorem unevenSplit_err (lens : List Nat) (maxGrps : Nat) (hl : lens.length = maxGrps) (params : List Nat) (req : Nat) :
    ∀ rpg ngroups e, 0 < ngroups → unevenSplit lens maxGrps params req rpg ngroups = .error e →
      e = .insufficientFree := by
  intro rpg ngroups
  induction rpg, ngroups using unevenSplit.induct lens maxGrps params req with
  | case1 rpg n h => intro e hn _; omega
  | case2 rpg n h1 h2 =>
    intro e hn he; unfold unevenSplit at he; rw [if_neg h1, if_pos h2] at he; cases he
  | case3 rpg n h1 h2 h3 ih =>
    intro e hn he; unfold unevenSplit at he; rw [if_neg h1, if_neg h2, if_pos h3] at he
    exact ih e hn he
  | case4 rpg n h1 h2 h3 h4 =>
    intro e hn he; unfold unevenSplit at he; rw [if_neg h1, if_neg h2, if_neg h3, if_pos h4] at he
    cases he; rfl
  | case5 rpg n h1 h2 h3 h4 h5 =>
    intro e hn he
    rw [List.getElem?_eq_none_iff] at h5
    omega
  | case6 rpg n h1 h2 h3 h4 l h5 ih =>
    intro e hn he; unfold unevenSplit at he
    rw [if_neg h1, if_neg h2, if_neg h3, if_neg h4] at he
    split at he
    · rename_i hl; rw [h5] at hl; cases hl
    · rename_i l' hl
      rw [h5] at hl; injection hl with hl; subst hl
      exact ih e (by omega) he

/-- Candidates that `get_matching_slots` can return. -/
def IsCand (slots : ByGroup) (ng rpg : Nat) (cand : List Nat × List Nat) : Prop :=
  ∃ c : List (Nat × List Nat), c.Sublist (slotsOfLen slots rpg) ∧ c.length = ng ∧
    rpg ≤ (interAll (c.map (·.2))).length ∧ cand = (c.map (·.1), interAll (c.map (·.2)))

theorem splitLoop_spec (slots : ByGroup) (lens : List Nat) (maxGrps : Nat) (hl : lens.length = maxGrps)
    (params : List Nat) (req : Nat) (hreq : 0 < req) (evenSize : Nat) :
    ∀ (m ngroups : Nat), req + 1 - ngroups ≤ m → 0 < ngroups →
      (∃ ng rpg cand, splitLoop slots lens maxGrps params req hreq evenSize ngroups = .ok (ng, rpg, cand) ∧
        0 < ng ∧ ng * rpg = req ∧ IsCand slots ng rpg cand) ∨
      splitLoop slots lens maxGrps params req hreq evenSize ngroups = .error .insufficientFree := by
  intro m
  induction m with
  | zero =>
    intro ngroups hm hn
    unfold splitLoop
    split
    · rename_i e he
      right
      rw [unevenSplit_err lens maxGrps hl params req _ _ e hn he]
    · rename_i ng rpg hok
      obtain ⟨h1, h2, h3⟩ := unevenSplit_ok _ _ _ _ _ _ _ _ hok
      exfalso
      have h3 : 0 < rpg := by
        apply Nat.pos_of_ne_zero; intro e; subst e; simp at h2; omega
      have h4 : ng ≤ req := by
        rw [← h2]; exact Nat.le_mul_of_pos_left ng h3
      omega
  | succ m ih =>
    intro ngroups hm hn
    unfold splitLoop
    split
    · rename_i e he
      right
      rw [unevenSplit_err lens maxGrps hl params req _ _ e hn he]
    · rename_i ng rpg hok
      obtain ⟨h1, h2, h3⟩ := unevenSplit_ok _ _ _ _ _ _ _ _ hok
      rcases matchingSlots_spec (slots := slots) (ng := ng) (rpg := rpg) (by omega) with ⟨ha, _⟩ | ⟨c, c1, c2, c3, c4, _⟩
      · rw [ha]
        exact ih (ng + 1) (by omega) (by omega)
      · rw [c4]
        left
        exact ⟨ng, rpg, _, rfl, by omega, by rw [Nat.mul_comm]; exact h2, c, c1, c2, c3, rfl⟩

theorem filterType_dwf {rm : RM} {t : Option Bool} {d : ByGroup} (h : DWF rm d) : DWF rm (filterType rm t d) := by
  constructor
  · have : (filterType rm t d).map (·.1) = d.map (·.1) := by
      unfold filterType; rw [List.map_map]; rfl
    rw [this]; exact h.keys
  · intro p hp
    unfold filterType at hp
    rw [List.mem_map] at hp
    obtain ⟨q, hq, rfl⟩ := hp
    exact List.Pairwise.filter _ (h.sorted q hq)
  · intro p hp i hi
    unfold filterType at hp
    rw [List.mem_map] at hp
    obtain ⟨q, hq, rfl⟩ := hp
    exact h.elems q hq i (List.mem_filter.mp hi).1

theorem sortedLens_length (d : ByGroup) : (sortedLens d).length = d.length := by
  unfold sortedLens; rw [length_isort, List.length_map]

/-- A candidate of `get_matching_slots` yields a team. -/
theorem cand_team {rm : RM} (hw : LWF rm) {ord : List Nat → List Nat} (hord : ∀ l, (ord l).Perm l)
    {valid : ByGroup} (hd : DWF rm valid) {ng rpg need : Nat} {gs ss : List Nat}
    (hc : IsCand (slotsByGroup rm valid) ng rpg (gs, ss)) (hneed : need ≤ ng * rpg) :
    ∃ team, teamFromSlots rm ord gs ss rpg = .ok team ∧ TeamOf rm true valid need team ∧
      team.length = ng * rpg ∧ ∀ i ∈ team, grpOf rm i ∈ gs := by
  obtain ⟨c, hc1, hc2, hc3, hc4⟩ := hc
  injection hc4 with e1 e2
  subst e1; subst e2
  have hsub : c.Sublist (slotsByGroup rm valid) := hc1.trans List.filter_sublist
  have hkeys : ((slotsByGroup rm valid).map (·.1)).Nodup := by
    have : (slotsByGroup rm valid).map (·.1) = valid.map (·.1) := by
      unfold slotsByGroup; rw [List.map_map]; rfl
    rw [this]; exact hd.keys
  have hmemc : ∀ q ∈ c, ∃ l, (q.1, l) ∈ valid ∧ q.2 = (l.map (slotOf rm)).eraseDups := by
    intro q hq
    have := hsub.subset hq
    unfold slotsByGroup at this
    rw [List.mem_map] at this
    obtain ⟨p, hp, rfl⟩ := this
    exact ⟨p.2, hp, rfl⟩
  have := teamFromSlots_ok hw hord hd (gs := c.map (·.1)) (ss := interAll (c.map (·.2))) (rpg := rpg) (need := need)
    (hkeys.sublist (hsub.map _))
    (interAll_nodup (by
      intro t ht
      rw [List.mem_map] at ht
      obtain ⟨q, hq, rfl⟩ := ht
      obtain ⟨l, _, e⟩ := hmemc q hq
      rw [e]; exact nodup_eraseDups _))
    hc3
    (by
      intro g hg
      rw [List.mem_map] at hg
      obtain ⟨q, hq, rfl⟩ := hg
      obtain ⟨l, hl, e⟩ := hmemc q hq
      refine ⟨l, hl, ?_⟩
      intro s hs
      have h1 := interAll_mem hs q.2 (List.mem_map.mpr ⟨q, hq, rfl⟩)
      rw [e, List.mem_eraseDups, List.mem_map] at h1
      exact h1)
    (by rw [List.length_map, hc2]; exact hneed)
  rw [List.length_map, hc2] at this
  exact this

theorem anySlots_spec {rm : RM} {valid : ByGroup} (hd : DWF rm valid) (maxGrp req ng rpg need : Nat) (hneed : need ≤ req) :
    (∃ team, anySlots valid maxGrp req ng rpg = .ok team ∧ TeamOf rm false valid need team) ∨
      anySlots valid maxGrp req ng rpg = .error .insufficientFree := by
  unfold anySlots
  simp only
  obtain ⟨gs, h1, h2, h3, h4, h5⟩ := anySlotsLoop_groups rpg (maxGrp + 1) valid hd.keys ng (·.2) [] [] (by simp)
  simp only [List.nil_append, List.map_id'] at h1
  by_cases hl : (anySlotsLoop rpg (maxGrp + 1) ng valid [] []).length = req
  · rw [if_pos hl]
    left
    refine ⟨_, rfl, ?_⟩
    rw [h1] at hl ⊢
    have hlk : ∀ g ∈ gs, ∃ l, (g, l) ∈ valid ∧ rpg ≤ l.length ∧ lookup valid g = l := by
      intro g hg
      obtain ⟨l, hl1, hl2⟩ := h4 g hg
      exact ⟨l, hl1, hl2, lookup_of_mem hd.keys hl1⟩
    have hlen : ∀ g ∈ gs, ((lookup valid g).take rpg).length = rpg := by
      intro g hg
      obtain ⟨l, hl1, hl2, hl3⟩ := hlk g hg
      rw [hl3, List.length_take]; omega
    apply team_of_groups h2 _ _ hlen _ _ (by simp)
    · intro g hg
      obtain ⟨l, hl1, hl2, hl3⟩ := hlk g hg
      rw [hl3]
      have hs := hd.sorted (g, l) hl1
      have : l.Nodup := hs.imp (fun h => Nat.ne_of_lt h)
      exact this.sublist (List.take_sublist _ _)
    · intro g hg i hi
      obtain ⟨l, hl1, hl2, hl3⟩ := hlk g hg
      rw [hl3] at hi
      exact (hd.elems (g, l) hl1 i (List.mem_of_mem_take hi)).2
    · intro g hg i hi
      obtain ⟨l, hl1, hl2, hl3⟩ := hlk g hg
      rw [hl3] at hi
      exact ⟨(g, l), hl1, List.mem_of_mem_take hi⟩
    · rw [flatMap_length hlen] at hl
      omega
  · rw [if_neg hl]; right; rfl

theorem maxGrp_pos {rm : RM} (hw : LWF rm) {t : Option Bool} {req : Nat} (hr : 0 < req) (hle : req ≤ totalOf rm t) :
    0 < maxGrpsize rm t := by
  have := hw.total_le t
  apply Nat.pos_of_ne_zero
  intro e
  rw [e] at this
  simp at this
  omega

/-- The choice of a team: a proper team or "not enough free". -/
theorem chooseTeam_spec {rm : RM} (hw : LWF rm) {ord : List Nat → List Nat} (hord : ∀ l, (ord l).Perm l)
    {d : ByGroup} (hd : DWF rm d) (hdl : d.length = rm.numGroups) (sf ms : Bool) {req : Nat} (hr : 0 < req)
    {t : Option Bool} (hle : req ≤ totalOf rm t) (params : List Nat) :
    (∃ team, chooseTeam rm ord sf ms d req t params = .ok team ∧ TeamOf rm ms (filterType rm t d) req team) ∨
      chooseTeam rm ord sf ms d req t params = .error .insufficientFree := by
  have hv := filterType_dwf (t := t) hd
  have hlen : (sortedLens (filterType rm t d)).length = rm.numGroups := by
    rw [sortedLens_length, filterType, List.length_map, hdl]
  obtain ⟨req', ng, rpg, he, hreq', hge, hng, hrpg, hngle, hrpgle, _⟩ :=
    evenGrps_spec hr (maxGrp_pos hw hr hle) (Nat.le_trans hle (hw.total_le t))
  unfold chooseTeam
  simp only [he]
  rw [if_neg (by omega : ¬ ng = 0)]
  have hidx : ng - 1 < (sortedLens (filterType rm t d)).length := by omega
  rw [List.getElem?_eq_getElem hidx]
  simp only
  generalize (sortedLens (filterType rm t d))[ng - 1] = evenSize
  split
  · right; rfl
  · split
    · rename_i hms
      subst hms
      rcases matchingSlots_spec (slots := slotsByGroup rm (filterType rm t d)) (ng := ng) (rpg := rpg) hng with
        ⟨ha, _⟩ | ⟨c, c1, c2, c3, c4, _⟩
      · rw [ha]
        simp only
        split
        · right; rfl
        · split
          · rw [dif_pos (by omega : 0 < req')]
            rcases splitLoop_spec (slotsByGroup rm (filterType rm t d)) (sortedLens (filterType rm t d)) rm.numGroups
              hlen params req' (by omega) evenSize _ ng (Nat.le_refl _) hng with ⟨ng', rpg', cand, h1, h2, h3, h4⟩ | h1
            · rw [h1]
              simp only
              obtain ⟨team, t1, t2, _⟩ := cand_team hw hord hv (need := req) h4 (by omega)
              left
              exact ⟨team, t1, t2⟩
            · rw [h1]; right; rfl
          · right; rfl
      · rw [c4]
        simp only
        obtain ⟨team, t1, t2, _⟩ := cand_team hw hord hv (ng := ng) (rpg := rpg) (need := req)
          ⟨c, c1, c2, c3, rfl⟩ (by omega)
        left
        exact ⟨team, t1, t2⟩
    · rename_i hms
      have hms : ms = false := by simpa using hms
      subst hms
      split
      · split
        · rename_i e he
          right
          rw [unevenSplit_err _ _ hlen _ _ _ _ e hng he]
        · rename_i ng' rpg' _
          exact anySlots_spec hv _ _ _ _ _ hge
      · exact anySlots_spec hv _ _ _ _ _ hge

end Verif.Sched
