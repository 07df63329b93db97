import Verif.Scheduler.Sound
/-! Helper lemmas: sequences of requests to one scheduler object. -/
namespace Verif.Sched
open Verif.Res

theorem freshAvail_dwf (rm : RM) : DWF rm (freshAvail rm) := by
  constructor
  · have : (freshAvail rm).map (·.1) = groupsOf rm := by
      unfold freshAvail; rw [List.map_map]; exact List.map_id' _
    rw [this]; exact nodup_groupsOf rm
  · intro p hp
    unfold freshAvail at hp
    rw [List.mem_map] at hp
    obtain ⟨g, _, rfl⟩ := hp
    exact List.Pairwise.filter _ List.pairwise_lt_range
  · intro p hp i hi
    unfold freshAvail at hp
    rw [List.mem_map] at hp
    obtain ⟨g, _, rfl⟩ := hp
    rw [List.mem_filter, List.mem_range] at hi
    simp at hi
    exact ⟨hi.1, hi.2.2⟩

theorem filterOut_dwf {rm : RM} {d : ByGroup} (h : DWF rm d) (T : List Nat) : DWF rm (filterOut d T) := by
  constructor
  · have : (filterOut d T).map (·.1) = d.map (·.1) := by
      unfold filterOut; rw [List.map_map]; rfl
    rw [this]; exact h.keys
  · intro p hp
    unfold filterOut at hp
    rw [List.mem_map] at hp
    obtain ⟨q, hq, rfl⟩ := hp
    exact List.Pairwise.filter _ (h.sorted q hq)
  · intro p hp i hi
    unfold filterOut at hp
    rw [List.mem_map] at hp
    obtain ⟨q, hq, rfl⟩ := hp
    exact h.elems q hq i (List.mem_filter.mp hi).1

theorem filterOut_append (d : ByGroup) (P T : List Nat) : filterOut (filterOut d P) T = filterOut d (P ++ T) := by
  unfold filterOut
  rw [List.map_map]
  apply List.map_congr_left
  intro p _
  simp only [Function.comp_def, List.filter_filter]
  congr 1
  apply List.filter_congr
  intro i _
  by_cases h1 : i ∈ P <;> by_cases h2 : i ∈ T <;> simp [h1, h2]

theorem filterOut_nil (d : ByGroup) : filterOut d [] = d := by
  unfold filterOut
  have h : ∀ p ∈ d, (fun p : Nat × List Nat => (p.1, p.2.filter fun i => decide (i ∉ ([] : List Nat)))) p = p := by
    intro p _; simp only [List.not_mem_nil, not_false_eq_true, decide_true]; rw [List.filter_eq_self.mpr (by simp)]
  rw [List.map_congr_left h, List.map_id']

theorem freshAvail_length (rm : RM) : (freshAvail rm).length = (groupsOf rm).length := by
  unfold freshAvail; rw [List.length_map]

/-- Free, unpromised sets of group `g` and type `t`. -/
def availOf (rm : RM) (P : List Nat) (t : Option Bool) (g : Nat) : List Nat :=
  (List.range rm.rsets.length).filter fun i =>
    isFree rm i && decide (grpOf rm i = g) && decide (i ∉ P) && typeOk rm t i

theorem valid_eq (rm : RM) (P : List Nat) (t : Option Bool) :
    filterType rm t (filterOut (freshAvail rm) P) = (groupsOf rm).map fun g => (g, availOf rm P t g) := by
  unfold filterType filterOut freshAvail
  rw [List.map_map, List.map_map]
  apply List.map_congr_left
  intro g _
  simp only [Function.comp_def, List.filter_filter, availOf]
  congr 1
  apply List.filter_congr
  intro i _
  cases isFree rm i <;> cases decide (grpOf rm i = g) <;> cases decide (i ∉ P) <;> cases typeOk rm t i <;> rfl

theorem mem_availOf {rm : RM} {P : List Nat} {t : Option Bool} {g i : Nat} :
    i ∈ availOf rm P t g ↔ i < rm.rsets.length ∧ rm.assigned[i]? = some none ∧ grpOf rm i = g ∧ i ∉ P ∧
      typeOk rm t i = true := by
  unfold availOf isFree
  rw [List.mem_filter, List.mem_range]
  simp [and_assoc]

/-- Number of free, unpromised sets of a type. -/
def freeCount (rm : RM) (P : List Nat) (t : Option Bool) : Nat :=
  (List.range rm.rsets.length).countP fun i => isFree rm i && decide (i ∉ P) && typeOk rm t i

theorem availOf_le (rm : RM) (P : List Nat) (t : Option Bool) (g : Nat) : (availOf rm P t g).length ≤ freeCount rm P t := by
  unfold availOf freeCount
  rw [← List.countP_eq_length_filter]
  apply List.countP_mono_left
  intro i _ h
  simp at h ⊢
  exact ⟨⟨h.1.1.1, h.1.2⟩, h.2⟩

theorem availOf_le_max {rm : RM} (hw : LWF rm) (P : List Nat) (t : Option Bool) (g : Nat) :
    (availOf rm P t g).length ≤ maxGrpsize rm t := by
  refine Nat.le_trans ?_ (hw.bound t g)
  rw [groupCount_eq]
  unfold availOf
  rw [← List.countP_eq_length_filter]
  apply List.countP_mono_left
  intro i _ h
  simp at h ⊢
  exact ⟨h.1.1.2, h.2⟩

theorem freeCount_le_total (rm : RM) (P : List Nat) (t : Option Bool) : freeCount rm P t ≤ totalOf rm t := by
  rw [totalOf_eq]
  unfold freeCount
  apply List.countP_mono_left
  intro i _ h
  simp at h
  exact h.2

theorem countP_split_mem (l T : List Nat) (hT : T.Nodup) (hl : l.Nodup) (q : Nat → Bool) (hsub : ∀ i ∈ T, i ∈ l ∧ q i = true) :
    l.countP q = l.countP (fun i => q i && decide (i ∉ T)) + T.length := by
  have h1 : T.length = (l.filter fun i => q i && decide (i ∈ T)).length := by
    apply length_eq_of_nodup_mem hT (List.Pairwise.filter _ hl)
    intro a
    rw [List.mem_filter]
    constructor
    · intro ha; have := hsub a ha; simp [this.1, this.2, ha]
    · intro ha; simp at ha; exact ha.2.2
  rw [h1, ← List.countP_eq_length_filter, ← countP_or_disjoint]
  · apply List.countP_congr
    intro i _
    by_cases hi : i ∈ T <;> simp [hi]
  · intro a ⟨h2, h3⟩
    simp at h2 h3
    exact h2.2 h3.2

theorem freeCount_append {rm : RM} {P T : List Nat} {t : Option Bool} (hT : T.Nodup)
    (h : ∀ i ∈ T, i < rm.rsets.length ∧ isFree rm i = true ∧ i ∉ P ∧ typeOk rm t i = true) :
    freeCount rm P t = freeCount rm (P ++ T) t + T.length := by
  unfold freeCount
  rw [countP_split_mem _ T hT List.nodup_range _ (by
    intro i hi
    obtain ⟨h1, h2, h3, h4⟩ := h i hi
    exact ⟨List.mem_range.mpr h1, by simp [h2, h3, h4]⟩)]
  congr 1
  apply List.countP_congr
  intro i _
  by_cases h1 : i ∈ P <;> by_cases h2 : i ∈ T <;> simp [h1, h2]

theorem freeCount_append_le (rm : RM) (P T : List Nat) (t : Option Bool) :
    freeCount rm (P ++ T) t ≤ freeCount rm P t := by
  unfold freeCount
  apply List.countP_mono_left
  intro i _ h
  simp at h ⊢
  exact ⟨⟨h.1.1, h.1.2.1⟩, h.2⟩

/-- State of a scheduler object that has promised the sets `P`. -/
structure SInv (rm : RM) (sf ms : Bool) (P : List Nat) (s : Sched) : Prop where
  avail : getAvail rm s = filterOut (freshAvail rm) P
  sf : s.split2fit = sf
  ms : s.matchSlots = ms

/-- The counters of the scheduler object are at least the numbers of free unpromised sets. -/
structure CInv (rm : RM) (P : List Nat) (s : Sched) : Prop where
  all : (freeCount rm P none : Int) ≤ s.rsetsFree
  gpu : (freeCount rm P (some true) : Int) ≤ s.gpuFree
  nongpu : (freeCount rm P (some false) : Int) ≤ s.nongpuFree

theorem mkSched_inv (rm : RM) (sf ms : Bool) : SInv rm sf ms [] (mkSched rm sf ms) :=
  ⟨by rw [filterOut_nil]; rfl, rfl, rfl⟩

theorem numFree_eq (rm : RM) (hlen : rm.assigned.length = rm.rsets.length) (t : Option Bool) :
    numFree rm (rsOk t) = freeCount rm [] t := by
  unfold numFree freeCount
  rw [← count_range_zip (rsOk t) (fun o : Option Nat => o.isNone) (rsOk t) rfl rm.rsets rm.assigned hlen,
    List.countP_filter, hlen]
  apply List.countP_congr
  intro i hi
  obtain ⟨r, hr⟩ := get_of_lt (List.mem_range.mp hi)
  rw [typeOk_get hr]
  have hi' : i < rm.assigned.length := by rw [hlen]; exact List.mem_range.mp hi
  simp [hr, isFree, List.getElem?_eq_getElem hi', and_comm]

theorem mkSched_cinv {rm : RM} (h : Exact rm) (sf ms : Bool) : CInv rm [] (mkSched rm sf ms) := by
  have h1 := numFree_eq rm h.len none
  have h2 := numFree_eq rm h.len (some true)
  have h3 := numFree_eq rm h.len (some false)
  constructor
  · show _ ≤ rm.rsetsFree; rw [h.all, ← h1]; exact Int.le_refl _
  · show _ ≤ rm.gpuFree; rw [h.gpu, ← h2]; exact Int.le_refl _
  · show _ ≤ rm.nongpuFree; rw [h.nongpu, ← h3]; exact Int.le_refl _

/-- Sets promised by an answer. -/
def granted : Except SErr (List Nat) → List Nat
  | .ok team => team
  | .error _ => []

theorem ct_if {a b : Prop} [Decidable a] [Decidable b] {o : Option SErr}
    (h : (if a then some SErr.insufficientResources else if b then some SErr.insufficientFree else none) = o) :
    (o = none ∧ ¬ a ∧ ¬ b) ∨ (o = some .insufficientResources ∧ a) ∨ (o = some .insufficientFree ∧ ¬ a ∧ b) := by
  by_cases ha : a
  · rw [if_pos ha] at h; exact Or.inr (Or.inl ⟨h.symm, ha⟩)
  · rw [if_neg ha] at h
    by_cases hb : b
    · rw [if_pos hb] at h; exact Or.inr (Or.inr ⟨h.symm, ha, hb⟩)
    · rw [if_neg hb] at h; exact Or.inl ⟨h.symm, ha, hb⟩

/-- The counter of the scheduler object for a type. -/
def cnt (s : Sched) : Option Bool → Int
  | none => s.rsetsFree
  | some true => s.gpuFree
  | some false => s.nongpuFree

theorem checkTotal_cases (rm : RM) (s : Sched) (req : Nat) (t : Option Bool) :
    (checkTotal rm s req t = none ∧ ¬ req > totalOf rm t ∧ ¬ (req : Int) > cnt s t) ∨
    (checkTotal rm s req t = some .insufficientResources ∧ req > totalOf rm t) ∨
    (checkTotal rm s req t = some .insufficientFree ∧ ¬ req > totalOf rm t ∧ (req : Int) > cnt s t) := by
  match t with
  | none => exact ct_if rfl
  | some true => exact ct_if rfl
  | some false => exact ct_if rfl

theorem checkTotal_none {rm : RM} {s : Sched} {req : Nat} {t : Option Bool} (h : checkTotal rm s req t = none) :
    req ≤ totalOf rm t := by
  rcases checkTotal_cases rm s req t with h1 | h1 | h1
  · omega
  · rw [h] at h1; cases h1.1
  · rw [h] at h1; cases h1.1

theorem checkTotal_err {rm : RM} {s : Sched} {req : Nat} {t : Option Bool} {e : SErr} (h : checkTotal rm s req t = some e) :
    e = .insufficientResources ∨ e = .insufficientFree := by
  rcases checkTotal_cases rm s req t with h1 | h1 | h1
  · rw [h] at h1; cases h1.1
  · rw [h] at h1; injection h1.1 with h2; exact Or.inl h2
  · rw [h] at h1; injection h1.1 with h2; exact Or.inr h2

/-- Answers of the scheduler in a state with promised sets `P`. -/
theorem assign_spec {rm : RM} (hw : LWF rm) {ord : List Nat → List Nat} (hord : ∀ l, (ord l).Perm l)
    {sf ms : Bool} {P : List Nat} {s : Sched} (hs : SInv rm sf ms P s) (req : Nat) (t : Option Bool) (params : List Nat) :
    SInv rm sf ms (P ++ granted (assign rm ord s req t params).2) (assign rm ord s req t params).1 ∧
    ((∃ team, (assign rm ord s req t params).2 = .ok team ∧
        TeamOf rm ms (filterType rm t (filterOut (freshAvail rm) P)) req team) ∨
      (assign rm ord s req t params).2 = .error .insufficientFree ∨
      (assign rm ord s req t params).2 = .error .insufficientResources) := by
  unfold assign
  by_cases h0 : req = 0
  · rw [if_pos h0]
    refine ⟨by simp only [granted, List.append_nil]; exact hs, Or.inl ⟨[], rfl, ?_⟩⟩
    exact ⟨by simp, List.Pairwise.nil, by simp [h0], ⟨0, by simp⟩, by simp⟩
  · rw [if_neg h0]
    cases hc : checkTotal rm s req t with
    | some e =>
      refine ⟨by simp only [granted, List.append_nil]; exact hs, Or.inr ?_⟩
      rcases checkTotal_err hc with h | h
      · right; rw [h]
      · left; rw [h]
    | none =>
      simp only
      rw [hs.avail, hs.sf, hs.ms]
      have hd := filterOut_dwf (freshAvail_dwf rm) P
      have hdl : (filterOut (freshAvail rm) P).length = rm.numGroups := by
        rw [filterOut, List.length_map, freshAvail_length, hw.ngroups]
      rcases chooseTeam_spec hw hord hd hdl sf ms (by omega : 0 < req) (checkTotal_none hc) params with
        ⟨team, h1, h2⟩ | h1
      · rw [h1]
        refine ⟨?_, Or.inl ⟨team, rfl, h2⟩⟩
        exact ⟨by simp only [granted, getAvail, Option.getD_some]; exact filterOut_append _ _ _, rfl, rfl⟩
      · rw [h1]
        refine ⟨?_, Or.inr (Or.inl rfl)⟩
        exact ⟨by simp only [granted, getAvail, Option.getD_some, List.append_nil], rfl, rfl⟩

theorem team_mem {rm : RM} {ms : Bool} {P : List Nat} {t : Option Bool} {req : Nat} {team : List Nat}
    (h : TeamOf rm ms (filterType rm t (filterOut (freshAvail rm) P)) req team) {i : Nat} (hi : i ∈ team) :
    i < rm.rsets.length ∧ rm.assigned[i]? = some none ∧ i ∉ P ∧ typeOk rm t i = true := by
  obtain ⟨p, hp, hip⟩ := h.mem i hi
  rw [valid_eq, List.mem_map] at hp
  obtain ⟨g, _, rfl⟩ := hp
  have := mem_availOf.mp hip
  exact ⟨this.1, this.2.1, this.2.2.2.1, this.2.2.2.2⟩

theorem assign_cinv {rm : RM} (hw : LWF rm) {ord : List Nat → List Nat} (hord : ∀ l, (ord l).Perm l)
    {sf ms : Bool} {P : List Nat} {s : Sched} (hs : SInv rm sf ms P s) (hc : CInv rm P s) (req : Nat) (t : Option Bool)
    (params : List Nat) :
    CInv rm (P ++ granted (assign rm ord s req t params).2) (assign rm ord s req t params).1 := by
  have hspec := (assign_spec hw hord hs req t params).2
  have hteam : ∀ team, (assign rm ord s req t params).2 = .ok team →
      TeamOf rm ms (filterType rm t (filterOut (freshAvail rm) P)) req team := by
    intro team ht
    rcases hspec with ⟨team', h1, h2⟩ | h | h
    · rw [ht] at h1; cases h1; exact h2
    · rw [ht] at h; cases h
    · rw [ht] at h; cases h
  unfold assign at hteam ⊢
  by_cases h0 : req = 0
  · rw [if_pos h0]; simp only [granted, List.append_nil]; exact hc
  · rw [if_neg h0] at hteam ⊢
    cases hct : checkTotal rm s req t with
    | some e => simp only [granted, List.append_nil]; exact hc
    | none =>
      simp only [hct] at hteam ⊢
      cases hch : chooseTeam rm ord s.split2fit s.matchSlots (getAvail rm s) req t params with
      | error e => simp only [granted, List.append_nil]; exact ⟨hc.all, hc.gpu, hc.nongpu⟩
      | ok team =>
        simp only [hch] at hteam ⊢
        have ht := hteam team rfl
        simp only [granted]
        have hnd : team.Nodup := ht.sorted.imp (fun h => Nat.ne_of_lt h)
        have hmem := fun i (hi : i ∈ team) => team_mem ht hi
        have e1 := freeCount_append (t := t) hnd (fun i hi => ⟨(hmem i hi).1, by simp [isFree, (hmem i hi).2.1],
          (hmem i hi).2.2.1, (hmem i hi).2.2.2⟩)
        have e0 := freeCount_append (t := none) hnd (fun i hi => ⟨(hmem i hi).1, by simp [isFree, (hmem i hi).2.1],
          (hmem i hi).2.2.1, rfl⟩)
        have l1 := freeCount_append_le rm P team (some true)
        have l2 := freeCount_append_le rm P team (some false)
        have h1 := hc.all
        have h2 := hc.gpu
        have h3 := hc.nongpu
        constructor
        · simp only; omega
        · simp only
          split
          · rename_i e; subst e; omega
          · omega
        · simp only
          split
          · rename_i e; subst e; omega
          · omega

/-- All sets promised by a list of answers. -/
def grantedAll (as : List (Except SErr (List Nat))) : List Nat := as.flatMap granted

theorem session_inv {rm : RM} (hw : LWF rm) {ord : List Nat → List Nat} (hord : ∀ l, (ord l).Perm l) {sf ms : Bool} :
    ∀ (reqs : List Req) (P : List Nat) (s : Sched), SInv rm sf ms P s →
      SInv rm sf ms (P ++ grantedAll (session rm ord s reqs).2) (session rm ord s reqs).1 := by
  intro reqs
  induction reqs with
  | nil => intro P s h; simpa [session, grantedAll] using h
  | cons r rs ih =>
    intro P s h
    have h1 := (assign_spec hw hord h r.n r.useGpus r.params).1
    have h2 := ih _ _ h1
    unfold session
    simp only [grantedAll, List.flatMap_cons, ← List.append_assoc]
    exact h2

theorem session_cinv {rm : RM} (hw : LWF rm) {ord : List Nat → List Nat} (hord : ∀ l, (ord l).Perm l) {sf ms : Bool} :
    ∀ (reqs : List Req) (P : List Nat) (s : Sched), SInv rm sf ms P s → CInv rm P s →
      CInv rm (P ++ grantedAll (session rm ord s reqs).2) (session rm ord s reqs).1 := by
  intro reqs
  induction reqs with
  | nil => intro P s _ h; simpa [session, grantedAll] using h
  | cons r rs ih =>
    intro P s h hc
    have h1 := (assign_spec hw hord h r.n r.useGpus r.params).1
    have h2 := ih _ _ h1 (assign_cinv hw hord h hc r.n r.useGpus r.params)
    unfold session
    simp only [grantedAll, List.flatMap_cons, ← List.append_assoc]
    exact h2

/-- Answers within a session: each comes from a state that has promised exactly the earlier teams. -/
theorem session_answer {rm : RM} (hw : LWF rm) {ord : List Nat → List Nat} (hord : ∀ l, (ord l).Perm l) {sf ms : Bool} :
    ∀ (reqs : List Req) (P : List Nat) (s : Sched), SInv rm sf ms P s →
      ∀ (k : Nat) (r : Req) (a : Except SErr (List Nat)), reqs[k]? = some r → (session rm ord s reqs).2[k]? = some a →
        ∃ s', SInv rm sf ms (P ++ grantedAll ((session rm ord s reqs).2.take k)) s' ∧
          (assign rm ord s' r.n r.useGpus r.params).2 = a := by
  intro reqs
  induction reqs with
  | nil => intro P s _ k r a h; simp at h
  | cons x xs ih =>
    intro P s h k r a hr ha
    have h1 := (assign_spec hw hord h x.n x.useGpus x.params).1
    unfold session at ha ⊢
    simp only at ha ⊢
    cases k with
    | zero =>
      simp at hr ha
      subst hr
      refine ⟨s, by simpa [grantedAll] using h, ha⟩
    | succ k =>
      simp only [List.getElem?_cons_succ] at hr ha
      obtain ⟨s', a1, a2⟩ := ih _ _ h1 k r a hr ha
      refine ⟨s', ?_, a2⟩
      simpa [grantedAll, List.append_assoc] using a1

/-! ### Failed requests -/

/-- Two scheduler states that give the same answers. -/
structure Eqv (rm : RM) (s s' : Sched) : Prop where
  a : getAvail rm s = getAvail rm s'
  b : s.rsetsFree = s'.rsetsFree
  c : s.gpuFree = s'.gpuFree
  d : s.nongpuFree = s'.nongpuFree
  e : s.split2fit = s'.split2fit
  f : s.matchSlots = s'.matchSlots

theorem checkTotal_eqv {rm : RM} {s s' : Sched} (h : Eqv rm s s') (req : Nat) (t : Option Bool) :
    checkTotal rm s req t = checkTotal rm s' req t := by
  cases t with
  | none => simp only [checkTotal, h.b]
  | some b => cases b <;> simp only [checkTotal, h.c, h.d]

theorem assign_eqv {rm : RM} {ord : List Nat → List Nat} {s s' : Sched} (h : Eqv rm s s') (req : Nat)
    (t : Option Bool) (params : List Nat) :
    (assign rm ord s req t params).2 = (assign rm ord s' req t params).2 ∧
      Eqv rm (assign rm ord s req t params).1 (assign rm ord s' req t params).1 := by
  unfold assign
  by_cases h0 : req = 0
  · rw [if_pos h0, if_pos h0]; exact ⟨rfl, h⟩
  · rw [if_neg h0, if_neg h0, checkTotal_eqv h]
    cases checkTotal rm s' req t with
    | some e => exact ⟨rfl, h⟩
    | none =>
      simp only
      rw [h.a, h.e, h.f]
      cases chooseTeam rm ord s'.split2fit s'.matchSlots (getAvail rm s') req t params with
      | error e => exact ⟨rfl, rfl, h.b, h.c, h.d, rfl, rfl⟩
      | ok team => exact ⟨rfl, rfl, by simp only [h.b], by simp only [h.c], by simp only [h.d], rfl, rfl⟩

theorem session_eqv {rm : RM} {ord : List Nat → List Nat} : ∀ (reqs : List Req) (s s' : Sched), Eqv rm s s' →
    (session rm ord s reqs).2 = (session rm ord s' reqs).2 := by
  intro reqs
  induction reqs with
  | nil => intros; rfl
  | cons r rs ih =>
    intro s s' h
    obtain ⟨h1, h2⟩ := assign_eqv (ord := ord) h r.n r.useGpus r.params
    unfold session
    simp only [h1, ih _ _ h2]

theorem assign_failed {rm : RM} {ord : List Nat → List Nat} {s : Sched} {req : Nat} {t : Option Bool} {params : List Nat}
    {e : SErr} (h : (assign rm ord s req t params).2 = .error e) : Eqv rm (assign rm ord s req t params).1 s := by
  unfold assign at h ⊢
  by_cases h0 : req = 0
  · rw [if_pos h0]; exact ⟨rfl, rfl, rfl, rfl, rfl, rfl⟩
  · rw [if_neg h0] at h ⊢
    cases hc : checkTotal rm s req t with
    | some e => exact ⟨rfl, rfl, rfl, rfl, rfl, rfl⟩
    | none =>
      simp only [hc] at h ⊢
      cases hch : chooseTeam rm ord s.split2fit s.matchSlots (getAvail rm s) req t params with
      | error e => exact ⟨rfl, rfl, rfl, rfl, rfl, rfl⟩
      | ok team => simp only [hch] at h; cases h

end Verif.Sched
