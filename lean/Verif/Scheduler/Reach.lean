import Verif.Scheduler.Grant
import Verif.Resources.Props
/-! Helper lemmas: resource managers reached by assignments and releases. -/
namespace Verif.Sched
open Verif.Res

/-- Same table of sets; any owners and any counters. -/
structure SameLayout (a b : RM) : Prop where
  rsets : a.rsets = b.rsets
  len : a.assigned.length = b.assigned.length
  rpn : a.rsetsPerNode = b.rsetsPerNode
  gpn : a.gpuPerNode = b.gpuPerNode
  npn : a.nongpuPerNode = b.nongpuPerNode
  ng : a.numGroups = b.numGroups

theorem SameLayout.refl (a : RM) : SameLayout a a := ⟨rfl, rfl, rfl, rfl, rfl, rfl⟩

theorem SameLayout.trans {a b c : RM} (h : SameLayout a b) (k : SameLayout b c) : SameLayout a c :=
  ⟨h.rsets.trans k.rsets, h.len.trans k.len, h.rpn.trans k.rpn, h.gpn.trans k.gpn, h.npn.trans k.npn, h.ng.trans k.ng⟩

theorem assignLoop_layout (w : Nat) : ∀ (l : List (Nat × Option Nat)) (rm : RM), SameLayout (assignLoop w l rm) rm := by
  intro l
  induction l with
  | nil => intro rm; exact .refl rm
  | cons p rest ih =>
    intro rm
    obtain ⟨i, o⟩ := p
    cases o with
    | none =>
      unfold assignLoop
      exact (ih _).trans ⟨rfl, by simp, rfl, rfl, rfl, rfl⟩
    | some _ => unfold assignLoop; exact ih rm

theorem rmStep_layout (rm : RM) (op : RMOp) : SameLayout (rmStep rm op) rm := by
  cases op with
  | assign team w =>
    show SameLayout ((assignRsets rm team w).getD rm) rm
    unfold assignRsets
    split
    · exact assignLoop_layout _ _ _
    · exact .refl rm
  | free w => exact ⟨rfl, by simp [rmStep, freeRsets], rfl, rfl, rfl, rfl⟩
  | freeAll => exact ⟨rfl, by simp [rmStep, freeAll], rfl, rfl, rfl, rfl⟩

theorem rmRun_layout : ∀ (ops : List RMOp) (rm : RM), SameLayout (rmRun rm ops) rm := by
  intro ops
  induction ops with
  | nil => intro rm; exact .refl rm
  | cons op rest ih => intro rm; exact (ih (rmStep rm op)).trans (rmStep_layout rm op)

theorem rmRun_exact : ∀ (ops : List RMOp) (rm : RM), Exact rm → (∀ team w, RMOp.assign team w ∈ ops → team.Nodup) →
    Exact (rmRun rm ops) := by
  intro ops
  induction ops with
  | nil => intro rm h _; exact h
  | cons op rest ih =>
    intro rm h hops
    show Exact (rmRun (rmStep rm op) rest)
    apply ih _ _ (fun t w ht => hops t w (List.mem_cons_of_mem _ ht))
    cases op with
    | assign team w =>
      show Exact ((assignRsets rm team w).getD rm)
      cases ha : assignRsets rm team w with
      | none => exact h
      | some rm' => exact assign_exact h (hops team w List.mem_cons_self) ha
    | free w => exact free_exact h w
    | freeAll => exact freeAll_exact h

theorem lwf_layout {α} [DecidableEq α] {n : Nat} {nodes : List α} (hnd : nodes.Nodup) {gpn : Nat} {gpg : Option Nat}
    (hg : gpg ≠ some 0) {rm0 rm : RM} (h : mkRM n nodes gpn gpg = some rm0) (hl : SameLayout rm rm0) : LWF rm := by
  obtain ⟨sizes, _, h1, h2, h3, _, h4, h5⟩ := mkRM_blocks hnd hg h
  apply lwf_of_blocks (gpn := gpn) (sizes := sizes)
  · rw [hl.rsets, h1]
  · rw [hl.rpn]; exact h2
  · rw [hl.ng, h3]
  · rw [hl.gpn, hl.rpn, h4]
  · rw [hl.npn, hl.rpn, h5]

/-- Evenly filled layouts: every node has the same number of sets. -/
theorem mkRM_even {α} [DecidableEq α] {n : Nat} {nodes : List α} (hnd : nodes.Nodup) {gpn : Nat}
    {rm : RM} (h : mkRM n nodes gpn none = some rm) (hev : n % nodes.length = 0 ∨ n ≤ nodes.length) :
    ∃ m, rm.rsets = blocks gpn 1 (List.replicate m rm.rsetsPerNode) := by
  unfold mkRM at h
  cases hs : splitList n nodes with
  | none => rw [hs] at h; cases h
  | some p =>
    obtain ⟨hn, hne⟩ := splitList_pos hs
    have hpos : 0 < nodes.length := List.length_pos_iff.mpr hne
    rw [hs] at h
    simp only [Option.map_some, Option.some.injEq] at h
    have hr : rm.rsets = groupList p.1 gpn none := by rw [← h]
    have hrpn : rm.rsetsPerNode = rsetsOnNode n nodes.length := by rw [← h]
    by_cases hle : nodes.length ≤ n
    · rw [splitList_sub hn hne hle] at hs
      injection hs with hs
      subst hs
      refine ⟨nodes.length, ?_⟩
      rw [hr, hrpn]
      have hmod : n % nodes.length = 0 := by
        rcases hev with e | e
        · exact e
        · have : n = nodes.length := by omega
          rw [this]; exact Nat.mod_self _
      have hrep : ∀ i, repeats nodes.length n i = n / nodes.length := by
        intro i; unfold repeats; rw [if_neg (by omega)]
      have hon : rsetsOnNode n nodes.length = n / nodes.length := by
        unfold rsetsOnNode; rw [if_neg (by omega)]; rfl
      have hq : 0 < n / nodes.length := Nat.div_pos hle hpos
      have he : (expandList nodes.length n nodes).1.map (fun x => [x])
          = (nodes.zipIdx 0).flatMap (fun p => List.replicate (repeats nodes.length n p.2) [p.1]) := by
        unfold expandList
        rw [flatMap_map_comm]
        simp only [List.map_replicate]
      rw [he, groupList_nodes gpn (repeats nodes.length n) (fun i => by rw [hrep]; exact hq) nodes hnd,
        zipIdx_blocks gpn (repeats nodes.length n) nodes 0, hon]
      congr 1
      rw [List.eq_replicate_iff]
      refine ⟨by simp, ?_⟩
      intro b hb
      rw [List.mem_map] at hb
      obtain ⟨i, _, rfl⟩ := hb
      exact hrep i
    · have hlt : n < nodes.length := by omega
      rw [splitList_super hn hne hlt] at hs
      injection hs with hs
      subst hs
      refine ⟨n, ?_⟩
      rw [hr, hrpn, groupList_distinct gpn _ (bestSplit_nodup hn (Nat.le_of_lt hlt) hnd)
        (fun hm => bestSplit_nonempty hn (Nat.le_of_lt hlt) [] hm rfl), bestSplit_length]
      have hon : rsetsOnNode n nodes.length = 1 := by
        unfold rsetsOnNode
        rw [Nat.div_eq_of_lt hlt, Nat.mod_eq_of_lt hlt, if_pos hn]
      rw [hon]
      have hone : ∀ (m s : Nat), (List.range' s m).map (fun i => (⟨i, 0, decide (0 < gpn)⟩ : RS))
          = blocks gpn s (List.replicate m 1) := by
        intro m
        induction m with
        | zero => intro s; rfl
        | succ m ih =>
          intro s
          rw [List.range'_succ, List.map_cons, ih, List.replicate_succ, blocks]
          rfl
      exact hone n 1

/-- All sets free on an evenly filled layout: all groups offer the same slots. -/
theorem even_groups {rm : RM} {gpn m : Nat} (hb : rm.rsets = blocks gpn 1 (List.replicate m rm.rsetsPerNode))
    (hlen : rm.assigned.length = rm.rsets.length) (hfree : ∀ o ∈ rm.assigned, o = none)
    (h4 : rm.gpuPerNode = min gpn rm.rsetsPerNode) (h5 : rm.nongpuPerNode = rm.rsetsPerNode - min gpn rm.rsetsPerNode)
    (t : Option Bool) :
    (∀ g ∈ groupsOf rm, (availOf rm [] t g).length = maxGrpsize rm t) ∧
    (∀ g ∈ groupsOf rm, ∀ g' ∈ groupsOf rm, ∀ i ∈ availOf rm [] t g, ∃ j ∈ availOf rm [] t g',
      slotOf rm j = slotOf rm i) := by
  have hf : ∀ i, i < rm.rsets.length → rm.assigned[i]? = some none := by
    intro i hi
    have hi' : i < rm.assigned.length := by omega
    rw [List.getElem?_eq_getElem hi', hfree _ (List.getElem_mem hi')]
  have hgrp : ∀ g ∈ groupsOf rm, 1 ≤ g ∧ (List.replicate m rm.rsetsPerNode)[g - 1]? = some rm.rsetsPerNode := by
    intro g hg
    rw [mem_groupsOf] at hg
    obtain ⟨r, hr, rfl⟩ := hg
    rw [hb] at hr
    obtain ⟨k, h1, h2, _⟩ := blocks_mem hr
    have hk := List.mem_of_getElem? h1
    rw [List.mem_replicate] at hk
    rw [hk.2] at h1
    exact ⟨h2, h1⟩
  constructor
  · intro g hg
    obtain ⟨g1, g2⟩ := hgrp g hg
    have hc : (availOf rm [] t g).length = groupCount rm t g := by
      rw [groupCount_eq]
      unfold availOf
      rw [← List.countP_eq_length_filter]
      apply List.countP_congr
      intro i hi
      simp [isFree, hf i (List.mem_range.mp hi)]
    rw [hc]
    unfold groupCount
    rw [hb, blocks_count, if_pos g1, g2]
    cases t with
    | none => rfl
    | some b =>
      cases b
      · simp only [typedSize, maxGrpsize, h5, Option.getD_some]; omega
      · simp only [typedSize, maxGrpsize, h4, Option.getD_some]; omega
  · intro g hg g' hg' i hi
    rw [mem_availOf] at hi
    obtain ⟨i1, _, i3, _, i5⟩ := hi
    obtain ⟨r, hr⟩ := get_of_lt i1
    obtain ⟨k, h1, h2, h3, h6⟩ := blocks_mem (by rw [← hb]; exact List.mem_of_getElem? hr)
    have hk := List.mem_of_getElem? h1
    rw [List.mem_replicate] at hk
    rw [hk.2] at h3
    obtain ⟨g1, g2⟩ := hgrp g' hg'
    have hex := blocks_exists (gpn := gpn) g1 g2 h3
    rw [← hb] at hex
    obtain ⟨j, hj⟩ := List.mem_iff_getElem?.mp hex
    have hjl : j < rm.rsets.length := (List.getElem?_eq_some_iff.mp hj).1
    refine ⟨j, mem_availOf.mpr ⟨hjl, hf j hjl, by rw [grpOf_get hj], by simp, ?_⟩, ?_⟩
    · rw [typeOk_get hr] at i5
      rw [typeOk_get hj]
      cases t with
      | none => rfl
      | some b => cases b <;> simp [rsOk, h6] at i5 ⊢ <;> exact i5
    · rw [slotOf_get hj, slotOf_get hr]

end Verif.Sched
