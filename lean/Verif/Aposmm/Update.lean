import Verif.Aposmm.Dist

/-
`updateDist` never fails on rows that meet the invariant, keeps it, and makes every evaluated row known.
-/
namespace Verif.Aposmm

variable {α : Type}

/-- Two versions of a row that differ in what `update_history_dist` writes. -/
structure Like (r r' : ARow α) : Prop where
  x : r'.x = r.x
  f : r'.f = r.f
  loc : r'.isLocal = r.isLocal
  sid : r'.sid = r.sid
  ended : r'.ended = r.ended
  started : r'.started = r.started
  nact : r'.nact = r.nact
  lmin : r'.lmin = r.lmin
  paused : r'.paused = r.paused
  known : r.known = true → r'.known = true

theorem Like.refl (r : ARow α) : Like r r := ⟨rfl, rfl, rfl, rfl, rfl, rfl, rfl, rfl, rfl, id⟩

theorem Like.trans {a b c : ARow α} (h : Like a b) (k : Like b c) : Like a c :=
  ⟨k.x.trans h.x, k.f.trans h.f, k.loc.trans h.loc, k.sid.trans h.sid, k.ended.trans h.ended, k.started.trans h.started, k.nact.trans h.nact,
   k.lmin.trans h.lmin, k.paused.trans h.paused, fun e => k.known (h.known e)⟩

theorem Like.good {r r' : ARow α} (h : Like r r') : r'.good = r.good := by simp [ARow.good, h.f, h.ended]

/-- Row by row. -/
structure Frame (rows rows' : List (ARow α)) : Prop where
  len : rows'.length = rows.length
  like : ∀ (i : Nat) (r' : ARow α), rows'[i]? = some r' → ∃ r, rows[i]? = some r ∧ Like r r'

theorem Frame.refl (rows : List (ARow α)) : Frame rows rows := ⟨rfl, fun _ r h => ⟨r, h, Like.refl r⟩⟩

theorem Frame.trans {a b c : List (ARow α)} (h : Frame a b) (k : Frame b c) : Frame a c := by
  refine ⟨k.len.trans h.len, fun i r' hr => ?_⟩
  obtain ⟨r1, h1, l1⟩ := k.like i r' hr
  obtain ⟨r2, h2, l2⟩ := h.like i r1 h1
  exact ⟨r2, h2, l2.trans l1⟩

theorem Frame.back {a b : List (ARow α)} (h : Frame a b) {i : Nat} {r : ARow α} (hr : a[i]? = some r) : ∃ r', b[i]? = some r' ∧ Like r r' := by
  have hl : i < b.length := by rw [h.len]; exact (List.getElem?_eq_some_iff.mp hr).1
  obtain ⟨r2, h2, l2⟩ := h.like i _ (List.getElem?_eq_getElem hl)
  rw [hr] at h2; cases h2
  exact ⟨_, List.getElem?_eq_getElem hl, l2⟩

theorem like_tell (g : Geo α) (r : ARow α) (k : Nat) (o : ARow α) : Like o (tell g r k o) := by
  unfold tell
  (repeat' split) <;> exact ⟨rfl, rfl, rfl, rfl, rfl, rfl, rfl, rfl, rfl, id⟩

theorem like_settle (g : Geo α) (rows : List (ARow α)) (k : Nat) (r : ARow α) : Like r (settle g rows k r) := by
  unfold settle; dsimp only
  split <;> split <;> exact ⟨rfl, rfl, rfl, rfl, rfl, rfl, rfl, rfl, rfl, fun _ => rfl⟩

theorem frame_learn (g : Geo α) (rows : List (ARow α)) (k : Nat) : Frame rows (learn g rows k) := by
  refine ⟨learn_length g rows k, fun i r' h => ?_⟩
  cases hk : rows[k]? with
  | none => rw [show learn g rows k = rows by simp [learn, hk]] at h; exact ⟨r', h, Like.refl _⟩
  | some r =>
    by_cases hc : r.known = false ∧ r.good = true
    · rw [learn_get hk hc.1 hc.2] at h
      by_cases e : i = k
      · subst e
        simp only [if_true, Option.some.injEq] at h
        subst h
        exact ⟨r, hk, like_settle ..⟩
      · simp only [e, if_false, Option.map_eq_some_iff] at h
        obtain ⟨o, ho, rfl⟩ := h
        exact ⟨o, ho, like_tell ..⟩
    · have : learn g rows k = rows := by
        simp only [learn, hk]
        rw [if_neg]
        simpa using hc
      rw [this] at h; exact ⟨r', h, Like.refl _⟩

theorem frame_learns (g : Geo α) (l : List Nat) (rows : List (ARow α)) : Frame rows (l.foldl (learn g) rows) := by
  induction l generalizing rows with
  | nil => exact Frame.refl _
  | cons k l ih => exact (frame_learn g rows k).trans (ih _)

theorem Dist.learns {g : Geo α} (l : List Nat) {rows : List (ARow α)} (h : Dist g rows) : Dist g (l.foldl (Aposmm.learn g) rows) := by
  induction l generalizing rows with
  | nil => exact h
  | cons k l ih => exact ih (h.learn k)

/-- A row is known after its turn. -/
theorem learn_knows (g : Geo α) (rows : List (ARow α)) (k : Nat) (r' : ARow α) (h : (learn g rows k)[k]? = some r') (hg : r'.good = true) :
    r'.known = true := by
  obtain ⟨r, hr, l⟩ := (frame_learn g rows k).like k r' h
  cases hn : r.known with
  | true => exact l.known hn
  | false =>
    rw [learn_get hr hn (by rw [← l.good]; exact hg)] at h
    simp only [if_true, Option.some.injEq] at h
    subst h; exact settle_known ..

theorem learns_know (g : Geo α) (l : List Nat) (rows : List (ARow α)) (k : Nat) (hk : k ∈ l) (r' : ARow α) (h : (l.foldl (learn g) rows)[k]? = some r')
    (hg : r'.good = true) : r'.known = true := by
  induction l generalizing rows with
  | nil => simp at hk
  | cons a l ih =>
    by_cases e : k ∈ l
    · exact ih _ e h
    · have : k = a := (List.mem_cons.mp hk).resolve_right e
      subst this
      obtain ⟨r, hr, lk⟩ := (frame_learns g l (learn g rows k)).like k r' h
      exact lk.known (learn_knows g rows k r hr (by rw [← lk.good]; exact hg))

/-! ### The best sample point -/

theorem minF_spec : ∀ (l : List FVal), l ≠ [] → (∀ a ∈ l, a ≠ .nan) → minF l ∈ l ∧ ∀ a ∈ l, FVal.lt a (minF l) = false
  | [], h, _ => absurd rfl h
  | [a], _, _ => by simp [minF, lt_irrefl]
  | a :: b :: l, _, hn => by
    have ⟨h1, h2⟩ := minF_spec (b :: l) (by simp) (fun c hc => hn c (List.mem_cons_of_mem _ hc))
    have ha := hn a List.mem_cons_self
    have hm : minF (b :: l) ≠ .nan := hn _ (List.mem_cons_of_mem _ h1)
    rw [minF]
    · rw [if_neg (by simp [ha, hm])]
      split
      · rename_i hl
        refine ⟨List.mem_cons_of_mem _ h1, fun c hc => ?_⟩
        rcases List.mem_cons.mp hc with rfl | hc
        · exact lt_asymm hl
        · exact h2 c hc
      · rename_i hl
        refine ⟨List.mem_cons_self, fun c hc => ?_⟩
        rcases List.mem_cons.mp hc with rfl | hc
        · exact lt_irrefl _
        · exact not_lt_trans hm (h2 c hc) (by simpa using hl)
    · simp

/-- The rows all of whose evaluated rows are known. -/
def Told (rows : List (ARow α)) : Prop := ∀ (i : Nat) (r : ARow α), rows[i]? = some r → r.good = true → r.known = true

/-- If there is a sample point, some sample point has no better sample point. -/
def HasBest (rows : List (ARow α)) : Prop := (∃ r ∈ rows, r.isLocal = false) → ∃ r ∈ rows, r.isLocal = false ∧ r.ds = none

theorem breakTie_spec {g : Geo α} {rows : List (ARow α)} (h : Dist g rows) (ht : Told rows) :
    ∃ rows', breakTie rows = .ok rows' ∧ Dist g rows' ∧ Told rows' ∧ HasBest rows' ∧ Frame rows rows' := by
  unfold breakTie
  dsimp only
  by_cases hc : (!(rows.filter fun r => !r.isLocal).isEmpty && (rows.filter fun r => !r.isLocal).all (fun r => r.ds.isSome)) = true
  case neg =>
    rw [if_neg hc]
    refine ⟨rows, rfl, h, ht, ?_, Frame.refl _⟩
    rintro ⟨r, hr, hl⟩
    refine Decidable.byContradiction fun hno => hc ?_
    simp only [Bool.and_eq_true, Bool.not_eq_true', List.isEmpty_eq_false_iff, List.all_eq_true]
    refine ⟨List.ne_nil_of_mem (List.mem_filter.mpr ⟨hr, by simp [hl]⟩), fun o ho => ?_⟩
    obtain ⟨ho1, ho2⟩ := List.mem_filter.mp ho
    cases hd : o.ds with
    | some _ => rfl
    | none => exact absurd ⟨o, ho1, by simpa using ho2, hd⟩ hno
  rw [if_pos hc]
  simp only [Bool.and_eq_true, Bool.not_eq_true', List.isEmpty_eq_false_iff, List.all_eq_true] at hc
  obtain ⟨hne, hall⟩ := hc
  -- every sample point is evaluated
  have good : ∀ r ∈ rows.filter (fun r => !r.isLocal), r.good = true := by
    intro r hr
    have hd := hall r hr
    obtain ⟨i, hi⟩ := List.mem_iff_getElem?.mp (List.mem_filter.mp hr).1
    cases hg : r.good with
    | true => rfl
    | false => have := h.clean i r hi hg false; simp only [ARow.d, Bool.false_eq_true, if_false] at this; simp [this] at hd
  have nonan : ∀ a ∈ (rows.filter (fun r => !r.isLocal)).map (·.f), a ≠ .nan := by
    intro a ha
    obtain ⟨r, hr, rfl⟩ := List.mem_map.mp ha
    have := good r hr
    simp only [ARow.good, Bool.and_eq_true, decide_eq_true_eq] at this
    exact this.2
  -- there are two of them
  have two : ¬ (rows.filter fun r => !r.isLocal).length < 2 := by
    intro hlt
    obtain ⟨r, l, hl⟩ := List.exists_cons_of_ne_nil hne
    have hnil : l = [] := by rw [hl] at hlt; simp only [List.length_cons] at hlt; exact List.length_eq_zero_iff.mp (by omega)
    have hr : r ∈ rows.filter (fun r => !r.isLocal) := by rw [hl]; exact List.mem_cons_self
    obtain ⟨i, hi⟩ := List.mem_iff_getElem?.mp (List.mem_filter.mp hr).1
    obtain ⟨d, hd⟩ := Option.isSome_iff_exists.mp (hall r hr)
    obtain ⟨j, o, hji, _, hj, _, hk, _⟩ := h.wit i r false d hi (by simp [ARow.d, hd])
    have ho : o ∈ rows.filter (fun r => !r.isLocal) := List.mem_filter.mpr ⟨List.mem_iff_getElem?.mpr ⟨j, hj⟩, by simp [hk]⟩
    rw [hl, hnil, List.mem_singleton] at ho
    subst ho
    exact hji ((h.ids j o hj).symm.trans (h.ids i o hi))
  rw [if_neg two]
  obtain ⟨hm1, hm2⟩ := minF_spec ((rows.filter (fun r => !r.isLocal)).map (·.f)) (by simpa using hne) nonan
  have hmn := nonan _ hm1
  obtain ⟨b0, hb0, hb0f⟩ := List.mem_map.mp hm1
  cases hh : ((rows.filter fun r => !r.isLocal).filter fun r => r.f.eqv (minF ((rows.filter fun r => !r.isLocal).map (·.f)))).head? with
  | none =>
    rw [List.head?_eq_none_iff, List.filter_eq_nil_iff] at hh
    exact absurd (by simp [FVal.eqv, hb0f, hmn]) (hh b0 hb0)
  | some b =>
    dsimp only
    have hb := List.mem_of_head? hh
    obtain ⟨hb1, hb2⟩ := List.mem_filter.mp hb
    obtain ⟨hb3, hb4⟩ := List.mem_filter.mp hb1
    simp only [FVal.eqv, Bool.and_eq_true, decide_eq_true_eq] at hb2
    obtain ⟨i, hi⟩ := List.mem_iff_getElem?.mp hb3
    have hs := h.ids i b hi
    have hlen : b.sid < rows.length := by rw [hs]; exact (List.getElem?_eq_some_iff.mp hi).1
    rw [if_pos hlen, hs]
    have get : ∀ j, (rows.modify i fun r => { r with ds := none, iS := -1 })[j]? = if j = i then some { b with ds := none, iS := -1 } else rows[j]? := by
      intro j
      rw [List.getElem?_modify]
      by_cases e : j = i
      · subst e; simp [hi]
      · have : ¬ i = j := fun e' => e e'.symm
        cases rows[j]? <;> simp [e, this]
    have fr : Frame rows (rows.modify i fun r => { r with ds := none, iS := -1 }) := by
      refine ⟨by simp, fun j r' hj => ?_⟩
      rw [get] at hj
      split at hj
      · rename_i e; subst e; cases hj; exact ⟨b, hi, ⟨rfl, rfl, rfl, rfl, rfl, rfl, rfl, rfl, rfl, id⟩⟩
      · exact ⟨r', hj, Like.refl _⟩
    -- a row of the new list
    have old : ∀ (j : Nat) (r' : ARow α), (rows.modify i fun r => { r with ds := none, iS := -1 })[j]? = some r' →
        ∃ r, rows[j]? = some r ∧ r'.x = r.x ∧ r'.f = r.f ∧ r'.isLocal = r.isLocal ∧ r'.sid = r.sid ∧ r'.good = r.good ∧ r'.known = r.known ∧
          r'.bnd = r.bnd ∧ (∀ k, (r'.d k = r.d k ∧ r'.w k = r.w k) ∨ (k = false ∧ j = i ∧ r = b ∧ r'.d k = none)) := by
      intro j r' hj
      rw [get] at hj
      split at hj
      · rename_i e
        subst e; cases hj
        refine ⟨b, hi, rfl, rfl, rfl, rfl, rfl, rfl, rfl, fun k => ?_⟩
        cases k
        · exact .inr ⟨rfl, rfl, rfl, rfl⟩
        · exact .inl ⟨rfl, rfl⟩
      · exact ⟨r', hj, rfl, rfl, rfl, rfl, rfl, rfl, rfl, fun _ => .inl ⟨rfl, rfl⟩⟩
    refine ⟨_, rfl, ⟨?_, ?_, ?_, ?_, ?_, ?_⟩, ?_, ?_, fr⟩
    · intro j r' hj
      obtain ⟨r, hr, _, _, _, e, _⟩ := old j r' hj
      rw [e]; exact h.ids j r hr
    · intro j r' hj hk
      obtain ⟨r, hr, _, _, _, _, e1, e2, _⟩ := old j r' hj
      rw [e1]; exact h.known j r hr (by rw [← e2]; exact hk)
    · intro j r' hj hg k
      obtain ⟨r, hr, _, _, _, _, e1, _, _, e3⟩ := old j r' hj
      rcases e3 k with e | e
      · rw [e.1]; exact h.clean j r hr (by rw [← e1]; exact hg) k
      · exact e.2.2.2
    · intro j l r' o' hj hl hk1 hk2 hlt
      obtain ⟨r, hr, x1, f1, _, _, _, n1, _, e3⟩ := old j r' hj
      obtain ⟨o, ho, x2, f2, l2, _, _, n2, _, _⟩ := old l o' hl
      rw [f1, f2] at hlt
      rw [n1] at hk1
      rw [n2] at hk2
      obtain ⟨d, hd, hle⟩ := h.upper j l r o hr ho hk1 hk2 hlt
      rw [l2, x1, x2]
      rcases e3 o.isLocal with e | ⟨e, _, rfl, _⟩
      · exact ⟨d, by rw [e.1]; exact hd, hle⟩
      · have hmo : o ∈ rows.filter (fun r => !r.isLocal) := List.mem_filter.mpr ⟨List.mem_iff_getElem?.mpr ⟨l, ho⟩, by simp [e]⟩
        have := hm2 o.f (List.mem_map.mpr ⟨o, hmo, rfl⟩)
        rw [← hb2.2, hlt] at this; cases this
    · intro j r' k d hj hd
      obtain ⟨r, hr, x1, f1, _, _, _, _, _, e3⟩ := old j r' hj
      rcases e3 k with e | e
      · obtain ⟨m, o, h1, h2, h3, h4, h5, h6, h7⟩ := h.wit j r k d hr (by rw [← e.1]; exact hd)
        obtain ⟨o', ho', lo⟩ := fr.back h3
        exact ⟨m, o', h1, by rw [e.2]; exact h2, ho', by rw [lo.good]; exact h4, by rw [lo.loc]; exact h5, by rw [f1, lo.f]; exact h6,
          by rw [x1, lo.x]; exact h7⟩
      · rw [e.2.2.2] at hd; cases hd
    · intro j r' hj hk
      obtain ⟨r, hr, x1, _, _, _, _, n1, b1, _⟩ := old j r' hj
      rw [b1, x1]; exact h.bnd j r hr (by rw [← n1]; exact hk)
    · intro j r' hj hg
      obtain ⟨r, hr, _, _, _, _, e1, e2, _⟩ := old j r' hj
      rw [e2]; exact ht j r hr (by rw [← e1]; exact hg)
    · intro _
      have hgi := get i
      simp only [if_true] at hgi
      exact ⟨_, List.mem_iff_getElem?.mpr ⟨i, hgi⟩, by simpa using hb4, rfl⟩

/-- `updateDist` never fails and keeps the invariant. -/
theorem updateDist_spec {g : Geo α} {rows : List (ARow α)} (h : Dist g rows) :
    ∃ rows', updateDist g rows = .ok rows' ∧ Dist g rows' ∧ Told rows' ∧ HasBest rows' ∧ Frame rows rows' := by
  have fr := frame_learns g (List.range rows.length) rows
  have ht : Told ((List.range rows.length).foldl (learn g) rows) := by
    intro i r hr hg
    refine learns_know g _ rows i ?_ r hr hg
    have := (List.getElem?_eq_some_iff.mp hr).1
    rw [fr.len] at this
    exact List.mem_range.mpr this
  obtain ⟨rows', h1, h2, h3, h4, h5⟩ := breakTie_spec (h.learns (List.range rows.length)) ht
  exact ⟨rows', h1, h2, h3, h4, fr.trans h5⟩

end Verif.Aposmm
