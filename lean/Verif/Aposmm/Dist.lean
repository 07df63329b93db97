import Verif.Aposmm.Model

/-
The distances kept by APOSMM: an invariant of `learn`, `breakTie` and `updateDist`.
-/
namespace Verif.Aposmm

variable {α : Type}

theorem lt_irrefl (a : FVal) : FVal.lt a a = false := by
  cases a <;> simp [FVal.lt]

theorem lt_asymm {a b : FVal} (h : FVal.lt a b = true) : FVal.lt b a = false := by
  cases a <;> cases b <;> simp_all [FVal.lt]; omega

theorem lt_trans' {a b c : FVal} (h : FVal.lt a b = true) (h' : FVal.lt b c = true) : FVal.lt a c = true := by
  cases a <;> cases b <;> cases c <;> simp_all [FVal.lt]; omega

theorem not_lt_trans {a b c : FVal} (hb : b ≠ .nan) (h : FVal.lt a b = false) (h' : FVal.lt b c = false) : FVal.lt a c = false := by
  cases a <;> cases b <;> cases c <;> simp_all [FVal.lt]; omega

/-- The distance of a row to a better point of a kind (`true`: local points). -/
def ARow.d (r : ARow α) (k : Bool) : Option Int := if k then r.dl else r.ds

/-- The row of that point. -/
def ARow.w (r : ARow α) (k : Bool) : Int := if k then r.il else r.iS

theorem nearest_mem {l : List (Nat × Int)} {a : Nat × Int} (h : nearest l = some a) : a ∈ l := by
  induction l generalizing a with
  | nil => simp [nearest] at h
  | cons b l ih =>
    rw [nearest] at h
    split at h
    · simp_all
    · rename_i c hc
      split at h
      · simp only [Option.some.injEq] at h; subst h; exact List.mem_cons_of_mem _ (ih hc)
      · simp only [Option.some.injEq] at h; subst h; exact List.mem_cons_self

theorem nearest_le {l : List (Nat × Int)} {b : Nat × Int} (hb : b ∈ l) : ∃ a, nearest l = some a ∧ a.2 ≤ b.2 := by
  induction l with
  | nil => simp at hb
  | cons c l ih =>
    rw [nearest]
    rcases List.mem_cons.mp hb with rfl | hb
    · cases h : nearest l with
      | none => exact ⟨_, rfl, Int.le_refl _⟩
      | some a => dsimp only; split
                  · exact ⟨_, rfl, by omega⟩
                  · exact ⟨_, rfl, Int.le_refl _⟩
    · obtain ⟨a, ha, hl⟩ := ih hb
      rw [ha]; dsimp only; split
      · exact ⟨_, rfl, hl⟩
      · exact ⟨_, rfl, by omega⟩

/-! ### Fields -/

section
variable (g : Geo α) (r : ARow α) (k : Nat) (o : ARow α)

theorem tell_x : (tell g r k o).x = o.x := by unfold tell; (repeat' split) <;> rfl
theorem tell_f : (tell g r k o).f = o.f := by unfold tell; (repeat' split) <;> rfl
theorem tell_loc : (tell g r k o).isLocal = o.isLocal := by unfold tell; (repeat' split) <;> rfl
theorem tell_known : (tell g r k o).known = o.known := by unfold tell; (repeat' split) <;> rfl
theorem tell_sid : (tell g r k o).sid = o.sid := by unfold tell; (repeat' split) <;> rfl
theorem tell_ended : (tell g r k o).ended = o.ended := by unfold tell; (repeat' split) <;> rfl
theorem tell_good : (tell g r k o).good = o.good := by simp [ARow.good, tell_f, tell_ended]

theorem tell_self : tell g r k r = r := by simp [tell, lt_irrefl]

theorem tell_d (b : Bool) : (tell g r k o).d b =
    if o.good = true ∧ FVal.lt r.f o.f = true ∧ b = r.isLocal ∧ ltInf (g.dist r.x o.x) (o.d b) = true then some (g.dist r.x o.x) else o.d b := by
  cases b <;> cases hl : r.isLocal <;> cases hg : o.good <;> cases hf : FVal.lt r.f o.f <;> simp [tell, ARow.d, hl, hg, hf] <;> split <;> simp_all

theorem tell_w (b : Bool) : (tell g r k o).w b =
    if o.good = true ∧ FVal.lt r.f o.f = true ∧ b = r.isLocal ∧ ltInf (g.dist r.x o.x) (o.d b) = true then (k : Int) else o.w b := by
  cases b <;> cases hl : r.isLocal <;> cases hg : o.good <;> cases hf : FVal.lt r.f o.f <;> simp [tell, ARow.d, ARow.w, hl, hg, hf] <;> split <;> simp_all

end

section
variable (g : Geo α) (rows : List (ARow α)) (k : Nat) (r : ARow α)

theorem settle_x : (settle g rows k r).x = r.x := by unfold settle; dsimp only; split <;> split <;> rfl
theorem settle_f : (settle g rows k r).f = r.f := by unfold settle; dsimp only; split <;> split <;> rfl
theorem settle_loc : (settle g rows k r).isLocal = r.isLocal := by unfold settle; dsimp only; split <;> split <;> rfl
theorem settle_known : (settle g rows k r).known = true := by unfold settle; dsimp only; split <;> split <;> rfl
theorem settle_sid : (settle g rows k r).sid = r.sid := by unfold settle; dsimp only; split <;> split <;> rfl
theorem settle_ended : (settle g rows k r).ended = r.ended := by unfold settle; dsimp only; split <;> split <;> rfl
theorem settle_good : (settle g rows k r).good = r.good := by simp [ARow.good, settle_f, settle_ended]
theorem settle_bnd : (settle g rows k r).bnd = some (g.bound r.x) := by unfold settle; dsimp only; split <;> split <;> rfl

theorem rivals_congr (r' : ARow α) (hf : r'.f = r.f) (hx : r'.x = r.x) (b : Bool) : rivals g rows r' k b = rivals g rows r k b := by
  simp [rivals, hf, hx]

theorem settle_d (b : Bool) : (settle g rows k r).d b = match nearest (rivals g rows r k b) with | some a => some a.2 | none => r.d b := by
  unfold settle
  dsimp only
  have e : ∀ b, rivals g rows { r with known := true, bnd := some (g.bound r.x) } k b = rivals g rows r k b := fun b => rivals_congr _ _ _ _ _ rfl rfl b
  rw [e]
  cases h1 : nearest (rivals g rows r k true) with
  | none =>
    simp only [e]
    cases h2 : nearest (rivals g rows r k false) <;> cases b <;> simp [ARow.d, h1, h2]
  | some a =>
    have e2 : rivals g rows { r with known := true, bnd := some (g.bound r.x), dl := some a.2, il := a.1 } k false = rivals g rows r k false :=
      rivals_congr _ _ _ _ _ rfl rfl _
    simp only [e2]
    cases h2 : nearest (rivals g rows r k false) <;> cases b <;> simp [ARow.d, h1, h2]

theorem settle_w (b : Bool) : (settle g rows k r).w b = match nearest (rivals g rows r k b) with | some a => (a.1 : Int) | none => r.w b := by
  unfold settle
  dsimp only
  have e : ∀ b, rivals g rows { r with known := true, bnd := some (g.bound r.x) } k b = rivals g rows r k b := fun b => rivals_congr _ _ _ _ _ rfl rfl b
  rw [e]
  cases h1 : nearest (rivals g rows r k true) with
  | none =>
    simp only [e]
    cases h2 : nearest (rivals g rows r k false) <;> cases b <;> simp [ARow.w, h1, h2]
  | some a =>
    have e2 : rivals g rows { r with known := true, bnd := some (g.bound r.x), dl := some a.2, il := a.1 } k false = rivals g rows r k false :=
      rivals_congr _ _ _ _ _ rfl rfl _
    simp only [e2]
    cases h2 : nearest (rivals g rows r k false) <;> cases b <;> simp [ARow.w, h1, h2]

end

/-- The invariant. -/
structure Dist (g : Geo α) (rows : List (ARow α)) : Prop where
  ids : ∀ (i : Nat) (r : ARow α), rows[i]? = some r → r.sid = i
  known : ∀ (i : Nat) (r : ARow α), rows[i]? = some r → r.known = true → r.good = true
  clean : ∀ (i : Nat) (r : ARow α), rows[i]? = some r → r.good = false → ∀ k, r.d k = none
  upper : ∀ (i j : Nat) (r o : ARow α), rows[i]? = some r → rows[j]? = some o → r.known = true → o.known = true → FVal.lt o.f r.f = true →
    ∃ d, r.d o.isLocal = some d ∧ d ≤ g.dist r.x o.x
  wit : ∀ (i : Nat) (r : ARow α) (k : Bool) (d : Int), rows[i]? = some r → r.d k = some d →
    ∃ (j : Nat) (o : ARow α), j ≠ i ∧ r.w k = (j : Int) ∧ rows[j]? = some o ∧ o.good = true ∧ o.isLocal = k ∧ FVal.lt r.f o.f = false ∧ g.dist r.x o.x = d
  bnd : ∀ (i : Nat) (r : ARow α), rows[i]? = some r → r.known = true → r.bnd = some (g.bound r.x)

/-- Row `i` after `learn`. -/
theorem learn_get {g : Geo α} {rows : List (ARow α)} {k : Nat} {r : ARow α} (hk : rows[k]? = some r) (hn : r.known = false) (hg : r.good = true)
    (i : Nat) : (learn g rows k)[i]? = if i = k then some (settle g (rows.map (tell g r k)) k r) else (rows[i]?).map (tell g r k) := by
  simp only [learn, hk, hn, hg, Bool.not_false, Bool.and_self, if_true, List.getElem?_modify, List.getElem?_map]
  by_cases h : i = k
  · subst h; simp [hk, tell_self]
  · have : ¬ k = i := fun e => h e.symm
    simp [h, this]

theorem mem_rivals {g : Geo α} {rows : List (ARow α)} {r : ARow α} {k : Nat} {b : Bool} {a : Nat × Int} :
    a ∈ rivals g rows r k b ↔ ∃ (j : Nat) (o : ARow α), rows[j]? = some o ∧ o.good = true ∧ FVal.lt r.f o.f = false ∧ o.isLocal = b ∧ o.sid ≠ k ∧
      a = (o.sid, g.dist r.x o.x) := by
  simp only [rivals, List.mem_map, List.mem_filter, Bool.and_eq_true, Bool.not_eq_true', beq_iff_eq, decide_eq_true_eq]
  constructor
  · rintro ⟨o, ⟨hm, ⟨⟨h1, h2⟩, h3⟩, h4⟩, rfl⟩
    obtain ⟨j, hj⟩ := List.mem_iff_getElem?.mp hm
    exact ⟨j, o, hj, h1, h2, h3, h4, rfl⟩
  · rintro ⟨j, o, hj, h1, h2, h3, h4, rfl⟩
    exact ⟨o, ⟨List.mem_iff_getElem?.mpr ⟨j, hj⟩, ⟨⟨h1, h2⟩, h3⟩, h4⟩, rfl⟩

theorem rivals_tell (g : Geo α) (rows : List (ARow α)) (r : ARow α) (k : Nat) (b : Bool) :
    rivals g (rows.map (tell g r k)) r k b = rivals g rows r k b := by
  simp only [rivals, List.filter_map, List.map_map]
  have e1 : ((fun o : ARow α => o.good && !FVal.lt r.f o.f && (o.isLocal == b) && decide (o.sid ≠ k)) ∘ tell g r k) =
      fun o : ARow α => o.good && !FVal.lt r.f o.f && (o.isLocal == b) && decide (o.sid ≠ k) := by
    funext o; simp [tell_good, tell_f, tell_loc, tell_sid]
  have e2 : ((fun o : ARow α => (o.sid, g.dist r.x o.x)) ∘ tell g r k) = fun o : ARow α => (o.sid, g.dist r.x o.x) := by
    funext o; simp [tell_x, tell_sid]
  rw [e1, e2]

/-- The fields of every row that `learn` leaves alone. -/
theorem learn_fields (g : Geo α) (rows : List (ARow α)) (k i : Nat) (r' : ARow α) (h : (learn g rows k)[i]? = some r') :
    ∃ r, rows[i]? = some r ∧ r'.x = r.x ∧ r'.f = r.f ∧ r'.isLocal = r.isLocal ∧ r'.sid = r.sid ∧ r'.ended = r.ended ∧ r'.good = r.good ∧
      (r.known = true → r'.known = true) := by
  cases hk : rows[k]? with
  | none => rw [show learn g rows k = rows by simp [learn, hk]] at h; exact ⟨r', h, rfl, rfl, rfl, rfl, rfl, rfl, id⟩
  | some r =>
    by_cases hc : r.known = false ∧ r.good = true
    · rw [learn_get hk hc.1 hc.2] at h
      by_cases e : i = k
      · subst e
        simp only [if_true, Option.some.injEq] at h
        subst h
        exact ⟨r, hk, settle_x .., settle_f .., settle_loc .., settle_sid .., settle_ended .., settle_good .., fun _ => settle_known ..⟩
      · simp only [e, if_false, Option.map_eq_some_iff] at h
        obtain ⟨o, ho, rfl⟩ := h
        exact ⟨o, ho, tell_x .., tell_f .., tell_loc .., tell_sid .., tell_ended .., tell_good .., fun h => by rw [tell_known]; exact h⟩
    · have : learn g rows k = rows := by
        simp only [learn, hk]
        rw [if_neg]
        simpa using hc
      rw [this] at h; exact ⟨r', h, rfl, rfl, rfl, rfl, rfl, rfl, id⟩

theorem learn_length (g : Geo α) (rows : List (ARow α)) (k : Nat) : (learn g rows k).length = rows.length := by
  unfold learn; split
  · rfl
  · split
    · simp
    · rfl

theorem Dist.learn {g : Geo α} {rows : List (ARow α)} (h : Dist g rows) (k : Nat) : Dist g (learn g rows k) := by
  cases hk : rows[k]? with
  | none => rw [show Aposmm.learn g rows k = rows by simp [Aposmm.learn, hk]]; exact h
  | some n =>
    by_cases hc : n.known = false ∧ n.good = true
    case neg =>
      have : Aposmm.learn g rows k = rows := by
        simp only [Aposmm.learn, hk]
        rw [if_neg]
        simpa using hc
      rw [this]; exact h
    obtain ⟨hn, hg⟩ := hc
    have get := learn_get (g := g) hk hn hg
    have sidk := h.ids k n hk
    -- a row of the new list, by its old row
    have old : ∀ (i : Nat) (r' : ARow α), (Aposmm.learn g rows k)[i]? = some r' → ∃ r, rows[i]? = some r ∧
        ((i = k ∧ r = n ∧ r' = settle g (rows.map (tell g n k)) k n) ∨ (i ≠ k ∧ r' = tell g n k r)) := by
      intro i r' hi
      rw [get] at hi
      by_cases e : i = k
      · subst e; simp only [if_true, Option.some.injEq] at hi; exact ⟨n, hk, .inl ⟨rfl, rfl, hi.symm⟩⟩
      · simp only [e, if_false, Option.map_eq_some_iff] at hi
        obtain ⟨o, ho, rfl⟩ := hi
        exact ⟨o, ho, .inr ⟨e, rfl⟩⟩
    have new : ∀ (j : Nat) (o : ARow α), rows[j]? = some o → ∃ o', (Aposmm.learn g rows k)[j]? = some o' ∧ o'.x = o.x ∧ o'.f = o.f ∧ o'.isLocal = o.isLocal ∧ o'.good = o.good := by
      intro j o hj
      have hl : j < (Aposmm.learn g rows k).length := by
        rw [learn_length]; exact (List.getElem?_eq_some_iff.mp hj).1
      obtain ⟨o2, h2, a, b, c, _, _, d, _⟩ := learn_fields g rows k j _ (List.getElem?_eq_getElem hl)
      rw [hj] at h2; cases h2
      exact ⟨_, List.getElem?_eq_getElem hl, a, b, c, d⟩
    refine ⟨?_, ?_, ?_, ?_, ?_, ?_⟩
    · intro i r' hi
      obtain ⟨r, hr, _, _, _, e, _⟩ := learn_fields g rows k i r' hi
      rw [e]; exact h.ids i r hr
    · intro i r' hi hkn
      obtain ⟨r, hr, ⟨rfl, rfl, rfl⟩ | ⟨_, rfl⟩⟩ := old i r' hi
      · rw [settle_good]; exact hg
      · rw [tell_good]; rw [tell_known] at hkn; exact h.known i r hr hkn
    · intro i r' hi hng b
      obtain ⟨r, hr, ⟨rfl, rfl, rfl⟩ | ⟨_, rfl⟩⟩ := old i r' hi
      · rw [settle_good, hg] at hng; cases hng
      · rw [tell_good] at hng
        rw [tell_d, if_neg (by simp [hng])]; exact h.clean i r hr hng b
    · intro i j r' o' hi hj hki hkj hlt
      obtain ⟨r, hr, ⟨rfl, rfl, rfl⟩ | ⟨hne, rfl⟩⟩ := old i r' hi
      · obtain ⟨o, ho, ⟨rfl, rfl, rfl⟩ | ⟨hne, rfl⟩⟩ := old j o' hj
        · rw [lt_irrefl] at hlt; cases hlt
        · rw [tell_f, settle_f] at hlt
          rw [tell_known] at hkj
          rw [settle_d, rivals_tell, settle_x, tell_x, tell_loc]
          have hm : (o.sid, g.dist r.x o.x) ∈ rivals g rows r i o.isLocal :=
            mem_rivals.mpr ⟨j, o, ho, h.known j o ho hkj, lt_asymm hlt, rfl, by rw [h.ids j o ho]; exact hne, rfl⟩
          obtain ⟨a, ha, hle⟩ := nearest_le hm
          rw [ha]; exact ⟨_, rfl, hle⟩
      · rw [tell_known] at hki
        rw [tell_f] at hlt
        have hgr := h.known i r hr hki
        obtain ⟨o, ho, ⟨rfl, rfl, rfl⟩ | ⟨hne', rfl⟩⟩ := old j o' hj
        · rw [settle_f] at hlt
          rw [settle_loc, settle_x, tell_d, tell_x]
          by_cases hlt2 : ltInf (g.dist o.x r.x) (r.d o.isLocal) = true
          · rw [if_pos ⟨hgr, hlt, rfl, hlt2⟩]; exact ⟨_, rfl, by rw [g.sym]; exact Int.le_refl _⟩
          · rw [if_neg (fun c => hlt2 c.2.2.2)]
            cases hd : r.d o.isLocal with
            | none => simp [hd, ltInf] at hlt2
            | some d => simp only [hd, ltInf, decide_eq_true_eq] at hlt2; exact ⟨d, rfl, by rw [g.sym]; omega⟩
        · rw [tell_f] at hlt
          rw [tell_known] at hkj
          rw [tell_loc, tell_x, tell_x]
          obtain ⟨d, hd, hle⟩ := h.upper i j r o hr ho hki hkj hlt
          rw [tell_d]
          split
          · rename_i c
            have := c.2.2.2
            simp only [hd, ltInf, decide_eq_true_eq] at this
            exact ⟨_, rfl, by omega⟩
          · exact ⟨d, hd, hle⟩
    · intro i r' b d hi hd
      obtain ⟨r, hr, ⟨rfl, rfl, rfl⟩ | ⟨hne, rfl⟩⟩ := old i r' hi
      · rw [settle_d, rivals_tell] at hd
        rw [settle_w, rivals_tell, settle_f, settle_x]
        cases hnr : nearest (rivals g rows r i b) with
        | none =>
          rw [hnr] at hd
          obtain ⟨j, o, h1, h2, h3, h4, h5, h6, h7⟩ := h.wit i r b d hr hd
          obtain ⟨o', ho', e1, e2, e3, e4⟩ := new j o h3
          exact ⟨j, o', h1, h2, ho', by rw [e4]; exact h4, by rw [e3]; exact h5, by rw [e2]; exact h6, by rw [e1]; exact h7⟩
        | some a =>
          rw [hnr] at hd
          simp only [Option.some.injEq] at hd
          obtain ⟨j, o, h3, h4, h6, h5, h1, rfl⟩ := mem_rivals.mp (nearest_mem hnr)
          have hs := h.ids j o h3
          obtain ⟨o', ho', e1, e2, e3, e4⟩ := new j o h3
          exact ⟨j, o', by rw [← hs]; exact h1, by simp [hs], ho', by rw [e4]; exact h4, by rw [e3]; exact h5, by rw [e2]; exact h6, by rw [e1]; exact hd⟩
      · rw [tell_d] at hd
        rw [tell_w, tell_f, tell_x]
        split at hd
        · rename_i c
          rw [if_pos c]
          simp only [Option.some.injEq] at hd
          obtain ⟨o', ho', e1, e2, e3, e4⟩ := new k n hk
          exact ⟨k, o', fun e => hne e.symm, rfl, ho', by rw [e4]; exact hg, by rw [e3]; exact c.2.2.1.symm,
            by rw [e2]; exact lt_asymm c.2.1, by rw [e1, g.sym]; exact hd⟩
        · rename_i c
          rw [if_neg c]
          obtain ⟨j, o, h1, h2, h3, h4, h5, h6, h7⟩ := h.wit i r b d hr hd
          obtain ⟨o', ho', e1, e2, e3, e4⟩ := new j o h3
          exact ⟨j, o', h1, h2, ho', by rw [e4]; exact h4, by rw [e3]; exact h5, by rw [e2]; exact h6, by rw [e1]; exact h7⟩
    · intro i r' hi hkn
      obtain ⟨r, hr, ⟨rfl, rfl, rfl⟩ | ⟨_, rfl⟩⟩ := old i r' hi
      · rw [settle_bnd, settle_x]
      · rw [tell_known] at hkn
        have : (tell g n k r).bnd = r.bnd := by unfold tell; (repeat' split) <;> rfl
        rw [this, tell_x]; exact h.bnd i r hr hkn

end Verif.Aposmm
