import Verif.Aposmm.Update

/-
What the steps of the generator do to the distances.
-/
namespace Verif.Aposmm

variable {α : Type}

/-- Two versions of a row that differ in `started`, `nact`, `lmin` only. -/
structure Core (r r' : ARow α) : Prop where
  x : r'.x = r.x
  f : r'.f = r.f
  loc : r'.isLocal = r.isLocal
  known : r'.known = r.known
  bnd : r'.bnd = r.bnd
  dl : r'.dl = r.dl
  ds : r'.ds = r.ds
  il : r'.il = r.il
  iS : r'.iS = r.iS
  sid : r'.sid = r.sid
  ended : r'.ended = r.ended

theorem Core.refl (r : ARow α) : Core r r := ⟨rfl, rfl, rfl, rfl, rfl, rfl, rfl, rfl, rfl, rfl, rfl⟩

theorem Core.good {r r' : ARow α} (h : Core r r') : r'.good = r.good := by simp [ARow.good, h.f, h.ended]
theorem Core.d {r r' : ARow α} (h : Core r r') (k : Bool) : r'.d k = r.d k := by simp [ARow.d, h.dl, h.ds]
theorem Core.w {r r' : ARow α} (h : Core r r') (k : Bool) : r'.w k = r.w k := by simp [ARow.w, h.il, h.iS]

/-- Row by row, with new rows that have not been evaluated at the end. -/
structure Grow (rows rows' : List (ARow α)) : Prop where
  keep : ∀ (i : Nat) (r : ARow α), rows[i]? = some r → ∃ r', rows'[i]? = some r' ∧ Core r r'
  fresh : ∀ (i : Nat) (r' : ARow α), rows'[i]? = some r' → rows.length ≤ i →
    r'.sid = i ∧ r'.known = false ∧ r'.ended = false ∧ r'.dl = none ∧ r'.ds = none

theorem Grow.old {rows rows' : List (ARow α)} (h : Grow rows rows') {i : Nat} {r' : ARow α} (hi : rows'[i]? = some r') (hl : i < rows.length) :
    ∃ r, rows[i]? = some r ∧ Core r r' := by
  obtain ⟨r2, h2, c⟩ := h.keep i _ (List.getElem?_eq_getElem hl)
  rw [hi] at h2; cases h2
  exact ⟨_, List.getElem?_eq_getElem hl, c⟩

theorem Grow.len {rows rows' : List (ARow α)} (h : Grow rows rows') : rows.length ≤ rows'.length := by
  refine Nat.le_of_not_lt fun hlt => ?_
  obtain ⟨_, h2, _⟩ := h.keep rows'.length _ (List.getElem?_eq_getElem hlt)
  simp at h2

theorem Grow.refl (rows : List (ARow α)) : Grow rows rows :=
  ⟨fun _ r h => ⟨r, h, Core.refl r⟩, fun i r' h hl => absurd (List.getElem?_eq_some_iff.mp h).1 (by omega)⟩

theorem Core.trans {a b c : ARow α} (h : Core a b) (k : Core b c) : Core a c :=
  ⟨k.x.trans h.x, k.f.trans h.f, k.loc.trans h.loc, k.known.trans h.known, k.bnd.trans h.bnd, k.dl.trans h.dl, k.ds.trans h.ds, k.il.trans h.il,
   k.iS.trans h.iS, k.sid.trans h.sid, k.ended.trans h.ended⟩

theorem Grow.trans {a b c : List (ARow α)} (h : Grow a b) (k : Grow b c) : Grow a c := by
  refine ⟨fun i r hr => ?_, fun i r' hr hl => ?_⟩
  · obtain ⟨r1, h1, c1⟩ := h.keep i r hr
    obtain ⟨r2, h2, c2⟩ := k.keep i r1 h1
    exact ⟨r2, h2, c1.trans c2⟩
  · by_cases e : b.length ≤ i
    · exact k.fresh i r' hr e
    · obtain ⟨r, h1, c1⟩ := k.old hr (by omega)
      obtain ⟨a1, a2, a3, a4, a5⟩ := h.fresh i r h1 hl
      exact ⟨c1.sid.trans a1, c1.known.trans a2, c1.ended.trans a3, c1.dl.trans a4, c1.ds.trans a5⟩

theorem Dist.grow {g : Geo α} {rows rows' : List (ARow α)} (h : Dist g rows) (k : Grow rows rows') : Dist g rows' := by
  have nk : ∀ (i : Nat) (r' : ARow α), rows'[i]? = some r' → r'.known = true → i < rows.length := by
    intro i r' hi hk
    refine Nat.lt_of_not_le fun hl => ?_
    have := (k.fresh i r' hi hl).2.1
    rw [hk] at this; cases this
  refine ⟨?_, ?_, ?_, ?_, ?_, ?_⟩
  · intro i r' hi
    by_cases hl : i < rows.length
    · obtain ⟨r, hr, c⟩ := k.old hi hl
      rw [c.sid]; exact h.ids i r hr
    · exact (k.fresh i r' hi (by omega)).1
  · intro i r' hi hk
    obtain ⟨r, hr, c⟩ := k.old hi (nk i r' hi hk)
    rw [c.good]; exact h.known i r hr (by rw [← c.known]; exact hk)
  · intro i r' hi hg b
    by_cases hl : i < rows.length
    · obtain ⟨r, hr, c⟩ := k.old hi hl
      rw [c.d]; exact h.clean i r hr (by rw [← c.good]; exact hg) b
    · obtain ⟨_, _, _, e1, e2⟩ := k.fresh i r' hi (by omega)
      cases b <;> simp [ARow.d, e1, e2]
  · intro i j r' o' hi hj hk1 hk2 hlt
    obtain ⟨r, hr, c⟩ := k.old hi (nk i r' hi hk1)
    obtain ⟨o, ho, e⟩ := k.old hj (nk j o' hj hk2)
    rw [c.f, e.f] at hlt
    rw [c.d, c.x, e.x, e.loc]
    exact h.upper i j r o hr ho (by rw [← c.known]; exact hk1) (by rw [← e.known]; exact hk2) hlt
  · intro i r' b d hi hd
    by_cases hl : i < rows.length
    · obtain ⟨r, hr, c⟩ := k.old hi hl
      rw [c.d] at hd
      obtain ⟨j, o, h1, h2, h3, h4, h5, h6, h7⟩ := h.wit i r b d hr hd
      obtain ⟨o', ho', e⟩ := k.keep j o h3
      exact ⟨j, o', h1, by rw [c.w]; exact h2, ho', by rw [e.good]; exact h4, by rw [e.loc]; exact h5, by rw [c.f, e.f]; exact h6,
        by rw [c.x, e.x]; exact h7⟩
    · obtain ⟨_, _, _, e1, e2⟩ := k.fresh i r' hi (by omega)
      cases b <;> simp [ARow.d, e1, e2] at hd
  · intro i r' hi hk
    obtain ⟨r, hr, c⟩ := k.old hi (nk i r' hi hk)
    rw [c.bnd, c.x]; exact h.bnd i r hr (by rw [← c.known]; exact hk)

theorem Told.grow {rows rows' : List (ARow α)} (h : Told rows) (k : Grow rows rows') : Told rows' := by
  intro i r' hi hg
  by_cases hl : i < rows.length
  · obtain ⟨r, hr, c⟩ := k.old hi hl
    rw [c.known]; exact h i r hr (by rw [← c.good]; exact hg)
  · have := (k.fresh i r' hi (by omega)).2.2.1
    simp [ARow.good, this] at hg

theorem HasBest.grow {rows rows' : List (ARow α)} (h : HasBest rows) (k : Grow rows rows') : HasBest rows' := by
  rintro ⟨r', hr', hl'⟩
  obtain ⟨i, hi⟩ := List.mem_iff_getElem?.mp hr'
  by_cases hlt : i < rows.length
  · obtain ⟨r, hr, c⟩ := k.old hi hlt
    obtain ⟨b, hb, hbl, hbd⟩ := h ⟨r, List.mem_iff_getElem?.mpr ⟨i, hr⟩, by rw [← c.loc]; exact hl'⟩
    obtain ⟨j, hj⟩ := List.mem_iff_getElem?.mp hb
    obtain ⟨b', hb', c'⟩ := k.keep j b hj
    exact ⟨b', List.mem_iff_getElem?.mpr ⟨j, hb'⟩, by rw [c'.loc]; exact hbl, by rw [c'.ds]; exact hbd⟩
  · exact ⟨r', hr', hl', (k.fresh i r' hi (by omega)).2.2.2.2⟩

/-! ### Steps -/

theorem grow_map (rows : List (ARow α)) (f : Nat → ARow α → ARow α) (hf : ∀ i r, Core r (f i r)) : Grow rows (rows.mapIdx f) := by
  refine ⟨fun i r h => ⟨f i r, by simp [h], hf i r⟩, fun i r' h hl => ?_⟩
  exact absurd (List.getElem?_eq_some_iff.mp h).1 (by simp; omega)

theorem grow_modify (rows : List (ARow α)) (k : Nat) (f : ARow α → ARow α) (hf : ∀ r, Core r (f r)) : Grow rows (rows.modify k f) := by
  refine ⟨fun i r h => ?_, fun i r' h hl => ?_⟩
  · rw [List.getElem?_modify, h]
    by_cases e : k = i
    · exact ⟨f r, by simp [e], hf r⟩
    · exact ⟨r, by simp [e], Core.refl r⟩
  · exact absurd (List.getElem?_eq_some_iff.mp h).1 (by simp; omega)

theorem addRow_get (rows : List (ARow α)) (x : α) (loc : Bool) (i : Nat) : (addRow rows x loc)[i]? =
    if i = rows.length then some { x := x, isLocal := loc, nact := if loc then 1 else 0, sid := rows.length } else rows[i]? := by
  rw [addRow, List.getElem?_append]
  by_cases e : i = rows.length
  · subst e; simp
  · by_cases hl : i < rows.length
    · simp [hl, e]
    · have : i - rows.length ≠ 0 := by omega
      simp [hl, e]
      omega

theorem grow_addRow (rows : List (ARow α)) (x : α) (loc : Bool) : Grow rows (addRow rows x loc) := by
  refine ⟨fun i r h => ?_, fun i r' h hl => ?_⟩
  · have := (List.getElem?_eq_some_iff.mp h).1
    exact ⟨r, by rw [addRow_get, if_neg (by omega)]; exact h, Core.refl r⟩
  · rw [addRow_get] at h
    split at h
    · rename_i e; cases h; exact ⟨e.symm, rfl, rfl, rfl, rfl⟩
    · rw [List.getElem?_eq_none hl] at h; cases h

theorem grow_addSamples (cf : Cfg α) (k : Nat) (rows : List (ARow α)) : Grow rows (addSamples cf k rows) := by
  induction k generalizing rows with
  | zero => exact Grow.refl _
  | succ k ih => exact (grow_addRow rows _ false).trans (ih _)

theorem optimal_core (cf : Cfg α) (rows : List (ARow α)) (x : α) (flag : Bool) (run : List Nat) (j : Nat) (rows' : List (ARow α))
    (h : optimal cf rows x flag run = some (j, rows')) : Grow rows rows' := by
  unfold optimal at h
  split at h
  · cases h
  · simp only [Option.some.injEq, Prod.mk.injEq] at h
    obtain ⟨_, rfl⟩ := h
    refine (grow_map rows _ fun i r => ?_).trans (grow_map _ _ fun i r => ?_)
    · split
      · exact ⟨rfl, rfl, rfl, rfl, rfl, rfl, rfl, rfl, rfl, rfl, rfl⟩
      · exact Core.refl _
    · split
      · exact ⟨rfl, rfl, rfl, rfl, rfl, rfl, rfl, rfl, rfl, rfl, rfl⟩
      · exact Core.refl _

/-! ### Receiving -/

/-- Results for rows that exist and have not been evaluated, each once. -/
structure Fresh (rows : List (ARow α)) (vals : List (Nat × FVal)) : Prop where
  nodup : (vals.map (·.1)).Nodup
  open' : ∀ v ∈ vals, ∃ r, rows[v.1]? = some r ∧ r.ended = false

/-- A row after `record`. -/
theorem record_get (vals : List (Nat × FVal)) (rows : List (ARow α)) (hn : (vals.map (·.1)).Nodup) (i : Nat) :
    (record rows vals)[i]? = (rows[i]?).map fun r => match vals.find? (fun v => v.1 == i) with
      | some v => { r with f := v.2, ended := true }
      | none => r := by
  unfold record
  induction vals generalizing rows with
  | nil => simp
  | cons v vals ih =>
    simp only [List.map_cons, List.nodup_cons] at hn
    rw [List.foldl_cons, ih _ hn.2, List.getElem?_modify]
    by_cases e : v.1 = i
    · have hno : vals.find? (fun v => v.1 == i) = none := by
        rw [List.find?_eq_none]
        intro w hw hwi
        have : w.1 = i := by simpa using hwi
        exact hn.1 (List.mem_map.mpr ⟨w, hw, this.trans e.symm⟩)
      rw [hno]
      cases rows[i]? <;> simp [List.find?_cons, e]
    · have hb : (v.1 == i) = false := by simpa using e
      cases rows[i]? <;> simp [List.find?_cons, hb, e]

theorem record_length (rows : List (ARow α)) (vals : List (Nat × FVal)) : (record rows vals).length = rows.length := by
  unfold record
  induction vals generalizing rows with
  | nil => rfl
  | cons v vals ih => rw [List.foldl_cons, ih]; simp

/-- A row after `record`: evaluated now, or as before. -/
theorem record_cases {rows : List (ARow α)} {vals : List (Nat × FVal)} (hf : Fresh rows vals) {i : Nat} {r' : ARow α}
    (h : (record rows vals)[i]? = some r') :
    ∃ r, rows[i]? = some r ∧ ((i ∉ vals.map (·.1) ∧ r' = r) ∨ (∃ y, (i, y) ∈ vals ∧ r.ended = false ∧ r' = { r with f := y, ended := true })) := by
  rw [record_get vals rows hf.nodup, Option.map_eq_some_iff] at h
  obtain ⟨r, hr, h⟩ := h
  refine ⟨r, hr, ?_⟩
  cases hv : vals.find? (fun v => v.1 == i) with
  | none =>
    rw [hv] at h
    refine .inl ⟨fun hm => ?_, h.symm⟩
    obtain ⟨v, hv1, hv2⟩ := List.mem_map.mp hm
    exact List.find?_eq_none.mp hv v hv1 (by simpa using hv2)
  | some v =>
    rw [hv] at h
    have h1 : v.1 = i := by simpa using List.find?_some hv
    have h2 := List.mem_of_find?_eq_some hv
    obtain ⟨r2, hr2, he⟩ := hf.open' v h2
    rw [h1, hr] at hr2; cases hr2
    exact .inr ⟨v.2, by rw [← h1]; exact h2, he, h.symm⟩

theorem Dist.record {g : Geo α} {rows : List (ARow α)} {vals : List (Nat × FVal)} (h : Dist g rows) (hf : Fresh rows vals) :
    Dist g (record rows vals) := by
  -- evaluated rows are as before
  have kn : ∀ (i : Nat) (r' : ARow α), (Aposmm.record rows vals)[i]? = some r' → r'.known = true → rows[i]? = some r' := by
    intro i r' hi hk
    obtain ⟨r, hr, ⟨_, rfl⟩ | ⟨y, _, he, rfl⟩⟩ := record_cases hf hi
    · exact hr
    · have := h.known i r hr hk
      simp [ARow.good, he] at this
  have old : ∀ (i : Nat) (r : ARow α), rows[i]? = some r → r.good = true → (Aposmm.record rows vals)[i]? = some r := by
    intro i r hr hg
    have hl : i < (Aposmm.record rows vals).length := by rw [record_length]; exact (List.getElem?_eq_some_iff.mp hr).1
    have hi := List.getElem?_eq_getElem hl
    obtain ⟨r2, hr2, ⟨_, e⟩ | ⟨y, _, he, _⟩⟩ := record_cases hf hi
    · rw [hr] at hr2; cases hr2; rw [← e]; exact hi
    · rw [hr] at hr2; cases hr2; simp [ARow.good, he] at hg
  refine ⟨?_, ?_, ?_, ?_, ?_, ?_⟩
  · intro i r' hi
    obtain ⟨r, hr, ⟨_, rfl⟩ | ⟨y, _, _, rfl⟩⟩ := record_cases hf hi
    · exact h.ids i _ hr
    · exact h.ids i r hr
  · intro i r' hi hk
    exact h.known i r' (kn i r' hi hk) hk
  · intro i r' hi hg b
    obtain ⟨r, hr, ⟨_, rfl⟩ | ⟨y, _, he, rfl⟩⟩ := record_cases hf hi
    · exact h.clean i _ hr hg b
    · exact h.clean i r hr (by simp [ARow.good, he]) b
  · intro i j r' o' hi hj hk1 hk2 hlt
    exact h.upper i j r' o' (kn i r' hi hk1) (kn j o' hj hk2) hk1 hk2 hlt
  · intro i r' b d hi hd
    obtain ⟨r, hr, ⟨_, rfl⟩ | ⟨y, _, he, rfl⟩⟩ := record_cases hf hi
    · obtain ⟨j, o, h1, h2, h3, h4, h5, h6, h7⟩ := h.wit i _ b d hr hd
      exact ⟨j, o, h1, h2, old j o h3 h4, h4, h5, h6, h7⟩
    · have := h.clean i r hr (by simp [ARow.good, he]) b
      have e : ({ r with f := y, ended := true } : ARow α).d b = r.d b := rfl
      rw [e, this] at hd; cases hd
  · intro i r' hi hk
    exact h.bnd i r' (kn i r' hi hk) hk

end Verif.Aposmm
