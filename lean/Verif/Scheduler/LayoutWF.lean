import Verif.Scheduler.Model
import Verif.Resources.RsetLemmas
import Verif.Resources.CountLemmas
import Verif.Util.Lists
/-! What the scheduler needs to know about a table of resource sets, and that the tables built by
`ResourceManager.__init__` have it. -/
namespace Verif.Sched
open Verif.Res

/-- Type filter on a table entry. -/
def rsOk : Option Bool → RS → Bool
  | none, _ => true
  | some true, r => r.gpu
  | some false, r => !r.gpu

/-- Number of sets of group `g` and type `t` in the table. -/
def groupCount (rm : RM) (t : Option Bool) (g : Nat) : Nat :=
  rm.rsets.countP fun r => decide (r.group = g) && rsOk t r

/-- Number of sets of a type. -/
def totalOf (rm : RM) : Option Bool → Nat
  | none => rm.total
  | some true => rm.totalGpu
  | some false => rm.totalNongpu

structure LWF (rm : RM) : Prop where
  pair : (rm.rsets.map fun r => (r.group, r.slot)).Nodup
  ngroups : (groupsOf rm).length = rm.numGroups
  bound : ∀ t g, groupCount rm t g ≤ maxGrpsize rm t

theorem typeOk_get {rm : RM} {t : Option Bool} {i : Nat} {r : RS} (h : rm.rsets[i]? = some r) :
    typeOk rm t i = rsOk t r := by
  cases t with
  | none => rfl
  | some b => cases b <;> simp [typeOk, rsOk, isGpu_eq h]

theorem grpOf_get {rm : RM} {i : Nat} {r : RS} (h : rm.rsets[i]? = some r) : grpOf rm i = r.group := by
  simp [grpOf, h]

theorem slotOf_get {rm : RM} {i : Nat} {r : RS} (h : rm.rsets[i]? = some r) : slotOf rm i = r.slot := by
  simp [slotOf, h]

theorem get_of_lt {rm : RM} {i : Nat} (h : i < rm.rsets.length) : ∃ r, rm.rsets[i]? = some r :=
  ⟨_, List.getElem?_eq_getElem h⟩

theorem LWF.inj {rm : RM} (h : LWF rm) {i j : Nat} (hi : i < rm.rsets.length) (hj : j < rm.rsets.length)
    (hg : grpOf rm i = grpOf rm j) (hs : slotOf rm i = slotOf rm j) : i = j := by
  obtain ⟨r, hr⟩ := get_of_lt hi
  obtain ⟨q, hq⟩ := get_of_lt hj
  rw [grpOf_get hr, grpOf_get hq] at hg
  rw [slotOf_get hr, slotOf_get hq] at hs
  apply get_inj_of_nodup h.pair (x := (r.group, r.slot))
  · rw [List.getElem?_map, hr]; rfl
  · rw [List.getElem?_map, hq, hg, hs]; rfl

theorem filter_range_length {α} (P : α → Bool) : ∀ (l : List α),
    (List.range l.length).countP (fun i => ((l[i]?).map P).getD false) = l.countP P := by
  intro l
  induction l with
  | nil => rfl
  | cons x xs ih =>
    rw [List.length_cons, List.range_succ_eq_map, List.countP_cons, List.countP_map, List.countP_cons]
    simp only [Function.comp_def, List.getElem?_cons_succ]
    rw [ih]
    simp

theorem groupCount_eq (rm : RM) (t : Option Bool) (g : Nat) :
    groupCount rm t g = (List.range rm.rsets.length).countP (fun i => decide (grpOf rm i = g) && typeOk rm t i) := by
  unfold groupCount
  rw [← filter_range_length]
  apply List.countP_congr
  intro i hi
  obtain ⟨r, hr⟩ := get_of_lt (List.mem_range.mp hi)
  simp [hr, grpOf_get hr, typeOk_get hr]

theorem totalOf_eq (rm : RM) (t : Option Bool) :
    totalOf rm t = (List.range rm.rsets.length).countP (fun i => typeOk rm t i) := by
  have : totalOf rm t = rm.rsets.countP (rsOk t) := by
    cases t with
    | none => exact (List.countP_eq_length.mpr (fun _ _ => rfl)).symm
    | some b => cases b <;> rfl
  rw [this, ← filter_range_length]
  apply List.countP_congr
  intro i hi
  obtain ⟨r, hr⟩ := get_of_lt (List.mem_range.mp hi)
  simp [hr, typeOk_get hr]

/-- A list whose keys lie in `gs`, each occurring at most `B` times, has at most `|gs|·B` elements. -/
theorem length_le_groups {α} (key : α → Nat) (B : Nat) : ∀ (gs : List Nat) (l : List α),
    (∀ x ∈ l, key x ∈ gs) → (∀ g, l.countP (fun x => decide (key x = g)) ≤ B) → l.length ≤ gs.length * B := by
  intro gs
  induction gs with
  | nil =>
    intro l h _
    cases l with
    | nil => simp
    | cons x xs => exact absurd (h x List.mem_cons_self) (by simp)
  | cons g gs ih =>
    intro l h hB
    have h1 := List.length_eq_countP_add_countP (fun x => decide (key x = g)) (l := l)
    have h2 := ih (l.filter fun x => decide (key x ≠ g)) (by
      intro x hx
      rw [List.mem_filter] at hx
      have := h x hx.1
      simp at hx
      rcases List.mem_cons.mp this with e | e
      · exact absurd e hx.2
      · exact e) (by
      intro g'
      exact Nat.le_trans (List.Sublist.countP_le List.filter_sublist) (hB g'))
    have h3 := hB g
    rw [← List.countP_eq_length_filter] at h2
    have h4 : l.countP (fun a => decide ¬decide (key a = g) = true) = l.countP (fun x => decide (key x ≠ g)) := by
      apply List.countP_congr; intro x _; simp
    rw [List.length_cons, Nat.succ_mul]
    omega

theorem mem_groupsOf {rm : RM} {g : Nat} : g ∈ groupsOf rm ↔ ∃ r ∈ rm.rsets, r.group = g := by
  unfold groupsOf
  rw [mem_sortNat, List.mem_eraseDups, List.mem_map]

theorem grpOf_mem {rm : RM} {i : Nat} (h : i < rm.rsets.length) : grpOf rm i ∈ groupsOf rm := by
  obtain ⟨r, hr⟩ := get_of_lt h
  rw [grpOf_get hr, mem_groupsOf]
  exact ⟨r, List.mem_of_getElem? hr, rfl⟩

theorem nodup_groupsOf (rm : RM) : (groupsOf rm).Nodup :=
  (sortNat_perm _).nodup_iff.mpr (nodup_eraseDups _)

/-- Never more sets of a type than groups times the maximal number per group. -/
theorem LWF.total_le {rm : RM} (h : LWF rm) (t : Option Bool) : totalOf rm t ≤ rm.numGroups * maxGrpsize rm t := by
  rw [totalOf_eq, List.countP_eq_length_filter, ← h.ngroups]
  apply length_le_groups (grpOf rm)
  · intro i hi
    rw [List.mem_filter, List.mem_range] at hi
    exact grpOf_mem hi.1
  · intro g
    rw [List.countP_filter, ← groupCount_eq]
    exact h.bound t g

/-! ### Tables made of blocks -/

theorem blocks_mem {gpn : Nat} : ∀ {sizes : List Nat} {g0 : Nat} {r : RS}, r ∈ blocks gpn g0 sizes →
    ∃ k, sizes[r.group - g0]? = some k ∧ g0 ≤ r.group ∧ r.slot < k ∧ r.gpu = decide (r.slot < gpn) := by
  intro sizes
  induction sizes with
  | nil => intro g0 r h; cases h
  | cons s ss ih =>
    intro g0 r h
    rw [blocks, List.mem_append] at h
    rcases h with h | h
    · rw [List.mem_map] at h
      obtain ⟨j, hj, rfl⟩ := h
      refine ⟨s, by simp, Nat.le_refl _, List.mem_range.mp hj, rfl⟩
    · obtain ⟨k, h1, h2, h3, h4⟩ := ih h
      refine ⟨k, ?_, by omega, h3, h4⟩
      rw [show r.group - g0 = (r.group - (g0 + 1)) + 1 by omega, List.getElem?_cons_succ]
      exact h1

theorem blocks_pair (gpn : Nat) : ∀ (sizes : List Nat) (g0 : Nat),
    ((blocks gpn g0 sizes).map fun r => (r.group, r.slot)).Nodup := by
  intro sizes
  induction sizes with
  | nil => intro g0; exact List.nodup_nil
  | cons s ss ih =>
    intro g0
    rw [blocks, List.map_append, List.nodup_append]
    refine ⟨?_, ih _, ?_⟩
    · rw [List.map_map]
      apply List.Pairwise.map _ _ List.nodup_range
      intro a b hab e
      simp at e
      exact hab e
    · intro a ha b hb e
      rw [List.mem_map] at ha hb
      obtain ⟨r, hr, rfl⟩ := ha
      obtain ⟨q, hq, rfl⟩ := hb
      rw [List.mem_map] at hr
      obtain ⟨j, _, rfl⟩ := hr
      obtain ⟨k, _, h2, _⟩ := blocks_mem hq
      simp at e
      omega

theorem countP_range_lt (s g : Nat) : (List.range s).countP (fun j => decide (j < g)) = min s g := by
  induction s with
  | zero => simp
  | succ s ih =>
    rw [List.range_succ, List.countP_append, ih]
    by_cases h : s < g
    · simp [h]; omega
    · simp [h]; omega

theorem countP_range_ge (s g : Nat) : (List.range s).countP (fun j => !decide (j < g)) = s - g := by
  induction s with
  | zero => simp
  | succ s ih =>
    rw [List.range_succ, List.countP_append, ih]
    by_cases h : s < g
    · simp [h]; omega
    · simp [h]; omega

/-- Number of sets of a type among the `s` sets of one group. -/
def typedSize (gpn : Nat) : Option Bool → Nat → Nat
  | none, s => s
  | some true, s => min s gpn
  | some false, s => s - gpn

theorem blocks_count (gpn : Nat) (t : Option Bool) : ∀ (sizes : List Nat) (g0 g : Nat),
    (blocks gpn g0 sizes).countP (fun r => decide (r.group = g) && rsOk t r)
      = if g0 ≤ g then typedSize gpn t ((sizes[g - g0]?).getD 0) else 0 := by
  intro sizes
  induction sizes with
  | nil =>
    intro g0 g
    cases t with
    | none => simp [blocks, typedSize]
    | some b => cases b <;> simp [blocks, typedSize]
  | cons s ss ih =>
    intro g0 g
    rw [blocks, List.countP_append, ih, List.countP_map]
    by_cases hg : g0 = g
    · subst hg
      rw [if_neg (by omega), if_pos (Nat.le_refl _)]
      simp only [Function.comp_def, decide_true, Bool.true_and, Nat.sub_self, List.getElem?_cons_zero,
        Option.getD_some, Nat.add_zero]
      cases t with
      | none => simp [rsOk, typedSize]
      | some b =>
        cases b
        · exact countP_range_ge s gpn
        · exact countP_range_lt s gpn
    · have h0 : (List.range s).countP ((fun r : RS => decide (r.group = g) && rsOk t r) ∘
          fun j => (⟨g0, j, decide (j < gpn)⟩ : RS)) = 0 := by
        rw [List.countP_eq_zero]
        intro j _
        simp [hg]
      rw [h0, Nat.zero_add]
      by_cases hlt : g0 < g
      · rw [if_pos (by omega), if_pos (by omega), show g - g0 = (g - (g0 + 1)) + 1 by omega,
          List.getElem?_cons_succ]
      · rw [if_neg (by omega), if_neg (by omega)]

theorem blocks_groups_mem {gpn : Nat} : ∀ {sizes : List Nat} {g0 g : Nat}, (∀ k ∈ sizes, 0 < k) →
    ((∃ r ∈ blocks gpn g0 sizes, r.group = g) ↔ g0 ≤ g ∧ g < g0 + sizes.length) := by
  intro sizes
  induction sizes with
  | nil => intro g0 g _; simp [blocks]
  | cons s ss ih =>
    intro g0 g hpos
    rw [blocks]
    simp only [List.mem_append, or_and_right, exists_or]
    rw [ih (fun k hk => hpos k (List.mem_cons_of_mem _ hk))]
    have hs := hpos s List.mem_cons_self
    constructor
    · rintro (⟨r, hr, e⟩ | h)
      · rw [List.mem_map] at hr
        obtain ⟨j, _, rfl⟩ := hr
        simp at e ⊢
        omega
      · simp; omega
    · intro h
      by_cases e : g0 = g
      · left
        exact ⟨⟨g0, 0, decide (0 < gpn)⟩, List.mem_map.mpr ⟨0, List.mem_range.mpr hs, rfl⟩, e⟩
      · right
        simp at h
        omega

theorem blocks_last {gpn : Nat} : ∀ {sizes : List Nat} {g0 : Nat}, sizes ≠ [] → (∀ k ∈ sizes, 0 < k) →
    ((blocks gpn g0 sizes).getLast?.map (·.group)).getD 0 = g0 + sizes.length - 1 := by
  intro sizes
  induction sizes with
  | nil => intro g0 h; exact absurd rfl h
  | cons s ss ih =>
    intro g0 _ hpos
    rw [blocks]
    cases ss with
    | nil =>
      have hs := hpos s List.mem_cons_self
      obtain ⟨k, rfl⟩ : ∃ k, s = k + 1 := ⟨s - 1, by omega⟩
      simp [blocks, List.range_succ]
    | cons s2 ss2 =>
      have h1 := ih (g0 := g0 + 1) (by simp) (fun k hk => hpos k (List.mem_cons_of_mem _ hk))
      have hne : blocks gpn (g0 + 1) (s2 :: ss2) ≠ [] := by
        intro e
        have hs2 := hpos s2 (by simp)
        have := (blocks_groups_mem (gpn := gpn) (sizes := s2 :: ss2) (g0 := g0 + 1) (g := g0 + 1)
          (fun k hk => hpos k (List.mem_cons_of_mem _ hk))).mpr (by simp)
        rw [e] at this
        obtain ⟨r, hr, _⟩ := this
        cases hr
      rw [List.getLast?_append, List.getLast?_eq_some_getLast hne, Option.some_or,
        ← List.getLast?_eq_some_getLast hne, h1]
      simp only [List.length_cons]
      omega

/-- The tables of `ResourceManager.__init__`. -/
theorem mkRM_blocks {α} [DecidableEq α] {n : Nat} {nodes : List α} (hnd : nodes.Nodup) {gpn : Nat} {gpg : Option Nat}
    (hg : gpg ≠ some 0) {rm : RM} (h : mkRM n nodes gpn gpg = some rm) :
    ∃ sizes, sizes ≠ [] ∧ rm.rsets = blocks gpn 1 sizes ∧ (∀ k ∈ sizes, 0 < k ∧ k ≤ rm.rsetsPerNode) ∧
      rm.numGroups = sizes.length ∧ rm.rsetsPerNode = rsetsOnNode n nodes.length ∧
      rm.gpuPerNode = min gpn rm.rsetsPerNode ∧ rm.nongpuPerNode = rm.rsetsPerNode - min gpn rm.rsetsPerNode := by
  unfold mkRM at h
  cases hs : splitList n nodes with
  | none => rw [hs] at h; cases h
  | some p =>
    obtain ⟨split, loc⟩ := p
    rw [hs] at h
    simp at h
    obtain ⟨hn, hne, hlen, hc⟩ := split_count hnd hs
    have hsne : split ≠ [] := by intro e; subst e; simp at hlen; omega
    obtain ⟨sizes, h1, h2, h3⟩ := groupList_blocks gpn gpg hg _ split hsne hc
    have hl := blocks_last (gpn := gpn) (g0 := 1) h1 (fun k hk => (h3 k hk).1)
    refine ⟨sizes, h1, ?_, ?_, ?_, ?_, ?_, ?_⟩
    · rw [← h]; exact h2
    · rw [← h]; exact h3
    · rw [← h]; simp only; rw [h2, hl]; omega
    · rw [← h]
    · rw [← h]
    · rw [← h]

theorem lwf_of_blocks {rm : RM} {gpn : Nat} {sizes : List Nat} (h1 : rm.rsets = blocks gpn 1 sizes)
    (h2 : ∀ k ∈ sizes, 0 < k ∧ k ≤ rm.rsetsPerNode) (h3 : rm.numGroups = sizes.length)
    (h4 : rm.gpuPerNode = min gpn rm.rsetsPerNode) (h5 : rm.nongpuPerNode = rm.rsetsPerNode - min gpn rm.rsetsPerNode) :
    LWF rm := by
  constructor
  · rw [h1]; exact blocks_pair _ _ _
  · rw [h3, ← List.length_range' (s := 1) (n := sizes.length) (step := 1)]
    apply length_eq_of_nodup_mem (nodup_groupsOf rm) List.nodup_range'
    intro g
    rw [mem_groupsOf, h1, blocks_groups_mem (fun k hk => (h2 k hk).1), List.mem_range'_1]
  · intro t g
    unfold groupCount
    rw [h1, blocks_count]
    split
    · cases hk : sizes[g - 1]? with
      | none =>
        cases t with
        | none => simp [typedSize]
        | some b => cases b <;> simp [typedSize]
      | some k =>
        have hb := h2 k (List.mem_of_getElem? hk)
        cases t with
        | none => simp [typedSize, maxGrpsize]; omega
        | some b =>
          cases b
          · simp [typedSize, maxGrpsize, h5]; omega
          · simp [typedSize, maxGrpsize, h4]; omega
    · exact Nat.zero_le _

end Verif.Sched
