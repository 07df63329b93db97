import Verif.History.Lemmas
import Verif.Util.Lists
/-! The row-number invariant of the history. -/
namespace Verif.History

/-- Visible rows carry their row number as `sim_id`, hidden rows carry -1. -/
structure IdInv (h : Hist) : Prop where
  room : h.index ≤ h.rows.length
  col : Field.simId ∈ h.fields
  vis : ∀ i < h.index, cell h.rows i .simId = some (.s i)
  hid : ∀ i, h.index ≤ i → i < h.rows.length → cell h.rows i .simId = some (.s (-1))

/-- The part of `IdInv` about the visible rows only. -/
structure VisInv (h : Hist) : Prop where
  room : h.index ≤ h.rows.length
  vis : ∀ i < h.index, cell h.rows i .simId = some (.s i)

theorem IdInv.toVis {h : Hist} (H : IdInv h) : VisInv h := ⟨H.room, H.vis⟩

theorem IdInv.of_same {h h' : Hist} (H : IdInv h) (hi : h'.index = h.index)
    (hl : h'.rows.length = h.rows.length) (hf : Field.simId ∈ h'.fields)
    (hc : ∀ i, cell h'.rows i .simId = cell h.rows i .simId) : IdInv h' := by
  refine ⟨by rw [hi, hl]; exact H.room, hf, ?_, ?_⟩
  · intro i h1; rw [hc]; exact H.vis i (hi ▸ h1)
  · intro i h1 h2; rw [hc]; exact H.hid i (hi ▸ h1) (hl ▸ h2)

theorem IdInv.extend {h : Hist} (H : IdInv h) (cs) : IdInv (extendCols h cs) :=
  H.of_same (by simp) (by simp) (fields_extendCols_mono h cs H.col) (fun i => cell_extendCols h cs H.col i)

theorem IdInv.ensure {h : Hist} (H : IdInv h) (n) : IdInv (ensureRoom h n) := by
  refine ⟨?_, by simpa using H.col, ?_, ?_⟩
  · have := length_le_ensureRoom h n; have := H.room; simp; omega
  · intro i hi
    simp at hi
    have := H.room
    unfold cell
    rw [get_ensureRoom_old _ _ _ (by omega)]
    exact H.vis i hi
  · intro i h1 h2
    simp at h1
    unfold cell
    by_cases h3 : i < h.rows.length
    · rw [get_ensureRoom_old _ _ _ h3]; exact H.hid i h1 h3
    · rw [get_ensureRoom_new _ _ _ (by omega) h2]; simp

theorem IdInv.updAll {h : Hist} (H : IdInv h) (g : Row → Row) (inds : List Nat)
    (hg : ∀ r, g r .simId = r .simId) : IdInv { h with rows := updAll g h.rows inds } :=
  H.of_same rfl (by simp) H.col (fun i => cell_updAll_frame g .simId hg h.rows inds i)

theorem genFinish_index (h : Hist) (w d ts t inds n) :
    (genFinish h w d ts t inds n).1.index =
      if (genFinish h w d ts t inds n).2 = none then h.index + n else h.index := by
  unfold genFinish; split <;> simp

theorem genFinish_length (h : Hist) (w d ts t inds n) :
    (genFinish h w d ts t inds n).1.rows.length = h.rows.length := by
  unfold genFinish
  have := genColumns_length h.safeMode (inds.zip d.rows) d.cols h.rows
  split <;> rename_i heq <;> rw [heq] at this <;> simpa using this

theorem genFinish_fields (h : Hist) (w d ts t inds n) :
    (genFinish h w d ts t inds n).1.fields = h.fields := by
  unfold genFinish; split <;> rfl

/-- A field that is not in the data and not one of the three stamps is unchanged. -/
theorem cell_genFinish_ne (h : Hist) (w d ts t inds n) (g : Field) (hg : g ∉ d.fields)
    (h1 : g ≠ .genStartedTime) (h2 : g ≠ .genEndedTime) (h3 : g ≠ .genWorker) (i : Nat) :
    cell (genFinish h w d ts t inds n).1.rows i g = cell h.rows i g := by
  unfold genFinish
  have := cell_genColumns_ne h.safeMode (inds.zip d.rows) d.cols h.rows g hg i
  split <;> rename_i heq <;> rw [heq] at this
  · exact this
  · simp only at this ⊢
    rw [cell_updAll_frame, this]
    intro r; simp [stampRow, Row.set_ne _ _ h1, Row.set_ne _ _ h2, Row.set_ne _ _ h3]

theorem cell_stamp (w : Nat) (ts t : Int) (rows : List Row) (inds : List Nat) (g : Field)
    (h1 : g ≠ .genStartedTime) (h2 : g ≠ .genEndedTime) (h3 : g ≠ .genWorker) (i : Nat) :
    cell (updAll (stampRow w ts t) rows inds) i g = cell rows i g := by
  apply cell_updAll_frame
  intro r; simp [stampRow, Row.set_ne _ _ h1, Row.set_ne _ _ h2, Row.set_ne _ _ h3]

/-! ### ids supplied by the generator -/

theorem maxInt_mem : ∀ (l : List Int), l ≠ [] → maxInt l ∈ l
  | [], h => absurd rfl h
  | [x], _ => by simp [maxInt]
  | x :: y :: zs, _ => by
    have := maxInt_mem (y :: zs) (by simp)
    simp only [maxInt]
    rcases Int.le_total x (maxInt (y :: zs)) with h | h
    · rw [Int.max_eq_right h]; exact List.mem_cons_of_mem _ this
    · rw [Int.max_eq_left h]; simp

theorem le_maxInt : ∀ (l : List Int) (x : Int), x ∈ l → x ≤ maxInt l
  | [], _, h => by simp at h
  | [y], x, h => by simp at h; simp [maxInt, h]
  | y :: z :: zs, x, h => by
    simp only [maxInt]
    rcases List.mem_cons.1 h with rfl | h
    · exact Int.le_max_left _ _
    · exact Int.le_trans (le_maxInt _ _ h) (Int.le_max_right _ _)

theorem mem_intRange (a b x : Int) : x ∈ intRange a b ↔ a ≤ x ∧ x ≤ b := by
  unfold intRange
  simp only [List.mem_map, List.mem_range]
  constructor
  · rintro ⟨k, hk, rfl⟩; omega
  · rintro ⟨h1, h2⟩; exact ⟨(x - a).toNat, by omega, by omega⟩

theorem nodup_intRange (a b : Int) : (intRange a b).Nodup := by
  unfold intRange
  rw [List.nodup_iff_pairwise_ne, List.pairwise_map]
  have := List.nodup_range (n := (b + 1 - a).toNat)
  rw [List.nodup_iff_pairwise_ne] at this
  exact this.imp (fun h => by omega)

theorem setdiff_length (ids hs : List Int) (n : Nat)
    (hnn : ∀ x ∈ ids, 0 ≤ x) (hgap : ∀ x, (n : Int) ≤ x → x ≤ maxInt ids → x ∈ ids)
    (hlt : ∀ x : Int, 0 ≤ x → x < n → x ∈ hs) (hge : ∀ x : Int, (n : Int) ≤ x → x ∉ hs) :
    (setdiff ids hs).length = (maxInt ids + 1 - n).toNat := by
  have h1 : (setdiff ids hs).Nodup := (nodup_eraseDups ids).filter _
  have h2 := nodup_intRange n (maxInt ids)
  have h3 : ∀ x, x ∈ setdiff ids hs ↔ x ∈ intRange n (maxInt ids) := by
    intro x
    unfold setdiff
    rw [mem_intRange, List.mem_filter, List.mem_eraseDups]
    simp only [decide_eq_true_eq]
    constructor
    · rintro ⟨hx, hn⟩
      refine ⟨?_, le_maxInt _ _ hx⟩
      have := hnn x hx
      rcases Int.lt_or_le x n with h | h
      · exact absurd (hlt x this h) hn
      · exact h
    · rintro ⟨hx, hm⟩
      exact ⟨hgap x hx hm, hge x hx⟩
  rw [length_eq_of_nodup_mem h1 h2 h3]
  simp [intRange]

theorem sid_of_cell {rows : List Row} {i : Nat} {x : Int} (h : cell rows i .simId = some (.s x)) :
    x ∈ rows.map (·.sid) := by
  unfold cell at h
  cases hr : rows[i]? with
  | none => simp [hr] at h
  | some r =>
    simp [hr] at h
    rw [List.mem_map]
    exact ⟨r, List.mem_of_getElem? hr, by simp [Row.sid, h]⟩

theorem IdInv.sid_lt {h : Hist} (H : IdInv h) (x : Int) (h0 : 0 ≤ x) (hx : x < h.index) :
    x ∈ h.rows.map (·.sid) := by
  have := H.vis x.toNat (by omega)
  have e : ((x.toNat : Nat) : Int) = x := by omega
  rw [e] at this
  exact sid_of_cell this

theorem IdInv.sid_ge {h : Hist} (H : IdInv h) (x : Int) (hx : (h.index : Int) ≤ x) :
    x ∉ h.rows.map (·.sid) := by
  intro hm
  rw [List.mem_map] at hm
  obtain ⟨r, hr, rfl⟩ := hm
  obtain ⟨i, hi⟩ := List.mem_iff_getElem?.1 hr
  have hl : i < h.rows.length := by
    rcases Nat.lt_or_ge i h.rows.length with h1 | h1
    · exact h1
    · rw [List.getElem?_eq_none h1] at hi; cases hi
  rcases Nat.lt_or_ge i h.index with h1 | h1
  · have := H.vis i h1
    unfold cell at this
    rw [hi] at this
    simp at this
    simp [Row.sid, this] at hx
    omega
  · have := H.hid i h1 hl
    unfold cell at this
    rw [hi] at this
    simp at this
    simp [Row.sid, this] at hx
    omega

theorem resolveAll_nonneg (n : Nat) (ids : List Int) (h : ∀ x ∈ ids, 0 ≤ x ∧ x < n) :
    resolveAll n ids = some (ids.map Int.toNat) := by
  unfold resolveAll
  induction ids with
  | nil => rfl
  | cons x xs ih =>
    have hx := h x List.mem_cons_self
    have h1 : resolve n x = some x.toNat := by
      unfold resolve
      have : x.toNat < n := by omega
      simp [hx.1, this]
    simp [List.mapM_cons, h1, ih (fun y hy => h y (List.mem_cons_of_mem _ hy))]

/-- Operations that leave the row numbers to libEnsemble: simulations do not return `sim_id`;
generators either do not return it or return non-negative ones. -/
def IdSafe : Op → Prop
  | .simReturn _ (some d) _ _ => Field.simId ∉ d.fields
  | .genReturn _ d _ _ => d.fields.Nodup ∧
      (Field.simId ∈ d.fields → ∀ r ∈ d.rows, ∃ n : Nat, r .simId = .s n)
  | _ => True

theorem apply_simReturn_id {h : Hist} (H : IdInv h) (inds d t k)
    (hs : IdSafe (.simReturn inds d t k)) : IdInv (updateF h inds d t k).1 := by
  have key : ∀ h : Hist, IdInv h → IdInv (simRows t d 0 inds h).1 := by
    intro h H
    have hf := simRows_frame t d 0 inds h
    refine H.of_same hf.1 hf.2.2.2.1 ?_ ?_
    · unfold Hist.fields; rw [hf.2.1]; exact H.col
    · intro i
      apply cell_simRows_frame
      · intro d' hd; subst hd; exact hs
      · simp
      · simp
  unfold updateF
  cases d with
  | none =>
    simp only [preSim]
    have K := key h H
    split <;> rename_i heq <;> rw [heq] at K
    · exact K
    · split
      · split
        · exact K
        · exact K.of_same rfl rfl K.col (fun _ => rfl)
      · exact K
  | some d =>
    simp only
    have K := key _ (H.extend d.cols)
    simp only [preSim]
    split <;> rename_i heq <;> rw [heq] at K
    · exact K
    · split
      · split
        · exact K
        · exact K.of_same rfl rfl K.col (fun _ => rfl)
      · exact K

theorem apply_genReturn_id {h : Hist} (H : IdInv h) (w d ts t)
    (hs : IdSafe (.genReturn w d ts t)) :
    VisInv (updateXIn h w d ts t).1 ∧ ((updateXIn h w d ts t).2 = none → IdInv (updateXIn h w d ts t).1) ∧
    (updateXIn h w d ts t).2 ≠ some .indexError := by
  unfold updateXIn
  split
  · exact ⟨H.toVis, fun _ => H, by simp⟩
  · rename_i hne
    have H1 := H.extend d.cols
    generalize hh1 : extendCols h d.cols = h1 at H1
    simp only
    split
    · -- libEnsemble numbers the rows
      rename_i hno
      have H2 := H1.ensure d.rows.length
      have hroom := ensureRoom_room h1 d.rows.length H1.room
      generalize hh2 : ensureRoom h1 d.rows.length = h2 at H2 hroom
      have hidx : h2.index = h1.index := by rw [← hh2]; simp
      rw [← hidx] at hroom
      generalize hh3 : ({ h2 with rows := numberRows h2.rows h2.index d.rows.length } : Hist) = h3
      have hlen3 : h3.rows.length = h2.rows.length := by rw [← hh3]; simp
      have hix3 : h3.index = h2.index := by rw [← hh3]
      have hcell3 : ∀ i, cell h3.rows i .simId =
          if h2.index ≤ i ∧ i < h2.index + d.rows.length then some (.s i) else cell h2.rows i .simId := by
        intro i
        rw [← hh3]
        split
        · rename_i hc
          exact cell_numberRows_mem _ _ _ _ hc.1 hc.2 (by omega)
        · unfold cell; rw [get_numberRows_lt _ _ _ _ (by omega)]
      generalize hout : genFinish h3 w d ts t (List.range' h2.index d.rows.length) d.rows.length = out
      have e1 := genFinish_index h3 w d ts t (List.range' h2.index d.rows.length) d.rows.length
      have e2 := genFinish_length h3 w d ts t (List.range' h2.index d.rows.length) d.rows.length
      have e3 := genFinish_fields h3 w d ts t (List.range' h2.index d.rows.length) d.rows.length
      have e4 := fun i => cell_genFinish_ne h3 w d ts t (List.range' h2.index d.rows.length)
        d.rows.length .simId hno (by simp) (by simp) (by simp) i
      rw [hout] at e1 e2 e3 e4
      refine ⟨⟨?_, ?_⟩, ?_, ?_⟩
      · rw [e1, e2, hlen3]; split <;> omega
      · intro i hi
        rw [e4, hcell3]
        split
        · rfl
        · apply H2.vis
          rw [e1] at hi; split at hi <;> omega
      · intro hok
        rw [hok] at e1
        simp only [if_true] at e1
        refine ⟨?_, ?_, ?_, ?_⟩
        · rw [e1, e2, hlen3]; omega
        · rw [e3, ← hh3]; exact H2.col
        · intro i hi
          rw [e4, hcell3]
          split
          · rfl
          · apply H2.vis; omega
        · intro i hi1 hi2
          rw [e4, hcell3]
          split
          · omega
          · apply H2.hid <;> omega
      · rw [← hout]
        unfold genFinish
        split
        · rename_i e heq
          intro hc
          simp only [Option.some.injEq] at hc
          have : ∀ (cs : List (Field × Shape)) rows rows' e, genColumns h3.safeMode
              ((List.range' h2.index d.rows.length).zip d.rows) cs rows = (rows', some e) → e ≠ .indexError := by
            intro cs
            induction cs with
            | nil => intro rows rows' e h; simp [genColumns] at h
            | cons c cs ih =>
              intro rows rows' e h
              unfold genColumns at h
              split at h
              · simp at h; rw [← h.2]; simp
              · split at h
                · exact ih _ _ _ h
                · simp at h; rw [← h.2]; simp
          exact this _ _ _ _ heq hc
        · simp
    · -- the generator supplies the ids
      rename_i hin
      simp only [Classical.not_not] at hin
      have hids : ∀ r ∈ d.rows, ∃ n : Nat, r .simId = .s n := hs.2 hin
      have hnn : ∀ x ∈ d.rows.map (·.sid), 0 ≤ x := by
        intro x hx
        obtain ⟨r, hr, rfl⟩ := List.mem_map.1 hx
        obtain ⟨n, hn⟩ := hids r hr
        simp [Row.sid, hn]
      have hdne : d.rows.map (·.sid) ≠ [] := by
        intro e
        simp at e
        simp [e] at hne
      split
      · rename_i hgapb
        have hgap : ∀ x, (h1.index : Int) ≤ x → x ≤ maxInt (d.rows.map (·.sid)) → x ∈ d.rows.map (·.sid) := by
          intro x hx1 hx2
          have := List.all_eq_true.1 hgapb x ((mem_intRange _ _ _).2 ⟨hx1, hx2⟩)
          simpa using this
        have hnum := setdiff_length (d.rows.map (·.sid)) (h1.rows.map (·.sid)) h1.index hnn hgap
          (fun x h0 hx => H1.sid_lt x h0 hx) (fun x hx => H1.sid_ge x hx)
        generalize hN : (setdiff (d.rows.map (·.sid)) (h1.rows.map (·.sid))).length = N at hnum
        have H2 := H1.ensure N
        have hroom := ensureRoom_room h1 N H1.room
        generalize hh2 : ensureRoom h1 N = h2 at H2 hroom
        have hidx : h2.index = h1.index := by rw [← hh2]; simp
        rw [← hidx] at hroom hnum
        have hbound : ∀ x ∈ d.rows.map (fun r => Row.sid r), 0 ≤ x ∧ x < (h2.rows.length : Int) := by
          intro x hx
          have h1 := hnn x hx
          have h3 := le_maxInt _ _ hx
          refine ⟨h1, ?_⟩
          omega
        rw [resolveAll_nonneg _ _ hbound]
        simp only
        generalize hI : (d.rows.map (·.sid)).map Int.toNat = inds
        have hIdef : ∀ i, i ∈ inds ↔ (i : Int) ∈ d.rows.map (·.sid) := by
          intro i
          rw [← hI, List.mem_map]
          constructor
          · rintro ⟨x, hx, rfl⟩
            have := hnn x hx
            have e : ((x.toNat : Nat) : Int) = x := by omega
            rw [e]; exact hx
          · intro hx; exact ⟨i, hx, by simp⟩
        -- the written simId cells
        have hpair : ∀ p ∈ inds.zip d.rows, p.2 .simId = .s p.1 := by
          intro p hp
          rw [← hI, List.map_map] at hp
          rw [List.mem_iff_getElem?] at hp
          obtain ⟨k, hk⟩ := hp
          rw [List.getElem?_zip_eq_some] at hk
          simp only [List.getElem?_map] at hk
          obtain ⟨hk1, hk2⟩ := hk
          rw [hk2] at hk1
          simp at hk1
          obtain ⟨n, hn⟩ := hids p.2 (List.mem_of_getElem? hk2)
          rw [hn, ← hk1]
          simp [Row.sid, hn]
        have hcols : ∀ (cs : List (Field × Shape)) (rows : List Row) (i : Nat) (x : Int),
            (cell rows i .simId = some (.s i) → cell (genColumns h2.safeMode (inds.zip d.rows) cs rows).1 i .simId = some (.s i)) ∧
            (i ∉ inds → cell (genColumns h2.safeMode (inds.zip d.rows) cs rows).1 i .simId = cell rows i .simId) := by
          intro cs rows i x
          constructor
          · intro hc
            induction cs generalizing rows with
            | nil => exact hc
            | cons c cs ih =>
              unfold genColumns
              split
              · exact hc
              · split
                · apply ih
                  by_cases hcs : c.1 = .simId
                  · rw [hcs]
                    by_cases hmem : ∃ p ∈ inds.zip d.rows, p.1 = i
                    · have hlt : i < rows.length := by
                        rcases Nat.lt_or_ge i rows.length with h | h
                        · exact h
                        · simp [cell, List.getElem?_eq_none h] at hc
                      obtain ⟨p, hp, hpi, hv⟩ := cell_writeColumn_mem .simId rows _ i hlt hmem
                      rw [hv, hpair p hp, hpi]
                    · have : ∀ p ∈ inds.zip d.rows, p.1 ≠ i := fun p hp e => hmem ⟨p, hp, e⟩
                      unfold cell
                      rw [get_writeColumn_not_mem _ _ _ _ this]
                      exact hc
                  · rw [cell_writeColumn_ne _ _ (fun e => hcs e.symm)]; exact hc
                · exact hc
          · intro hni
            unfold cell
            rw [get_genColumns_not_mem]
            intro p hp e
            apply hni
            rw [← e]
            exact (List.of_mem_zip hp).1
        have e1 := genFinish_index h2 w d ts t inds N
        have e2 := genFinish_length h2 w d ts t inds N
        have e3 := genFinish_fields h2 w d ts t inds N
        have e4 : ∀ i, cell (genFinish h2 w d ts t inds N).1.rows i .simId =
            cell (genColumns h2.safeMode (inds.zip d.rows) d.cols h2.rows).1 i .simId := by
          intro i
          unfold genFinish
          split <;> rename_i heq <;> rw [heq]
          exact cell_stamp _ _ _ _ _ _ (by simp) (by simp) (by simp) i
        have hvis : ∀ i < h2.index, cell (genFinish h2 w d ts t inds N).1.rows i .simId = some (.s i) := by
          intro i hi
          rw [e4]
          exact (hcols d.cols h2.rows i 0).1 (H2.vis i hi)
        have hnew : (genFinish h2 w d ts t inds N).2 = none → ∀ i, h2.index ≤ i → i < h2.index + N →
            cell (genFinish h2 w d ts t inds N).1.rows i .simId = some (.s i) := by
          intro hok i hi1 hi2
          rw [e4]
          generalize hgc : genColumns h2.safeMode (inds.zip d.rows) d.cols h2.rows = gc
          obtain ⟨rows', err⟩ := gc
          have herr : err = none := by
            unfold genFinish at hok
            rw [hgc] at hok
            cases err with
            | none => rfl
            | some e => simp at hok
          subst herr
          have him : i ∈ inds := by
            rw [hIdef]; apply hgap <;> omega
          have hex : ∃ p ∈ inds.zip d.rows, p.1 = i := by
            obtain ⟨k, hk⟩ := List.mem_iff_getElem?.1 him
            have hlen : inds.length = d.rows.length := by rw [← hI]; simp
            have hk2 : k < d.rows.length := by
              rw [← hlen]
              rcases Nat.lt_or_ge k inds.length with h | h
              · exact h
              · rw [List.getElem?_eq_none h] at hk; cases hk
            refine ⟨(i, d.rows[k]), ?_, rfl⟩
            rw [List.mem_iff_getElem?]
            refine ⟨k, ?_⟩
            rw [List.getElem?_zip_eq_some]
            exact ⟨hk, List.getElem?_eq_getElem hk2⟩
          obtain ⟨p, hp, hpi, hv⟩ := cell_genColumns_mem _ _ _ _ _ hgc hs.1 .simId hin i (by omega) hex
          simp only
          rw [hv, hpair p hp, hpi]
        refine ⟨⟨?_, ?_⟩, ?_, ?_⟩
        · rw [e1, e2]; split <;> omega
        · intro i hi
          rw [e1] at hi
          split at hi
          · rename_i hok
            rcases Nat.lt_or_ge i h2.index with h | h
            · exact hvis i h
            · exact hnew hok i h hi
          · exact hvis i hi
        · intro hok
          rw [hok] at e1
          simp only [if_true] at e1
          refine ⟨?_, ?_, ?_, ?_⟩
          · rw [e1, e2]; omega
          · rw [e3]; exact H2.col
          · intro i hi
            rcases Nat.lt_or_ge i h2.index with h | h
            · exact hvis i h
            · exact hnew hok i h (by omega)
          · intro i hi1 hi2
            rw [e4, (hcols d.cols h2.rows i 0).2]
            · apply H2.hid <;> omega
            · intro hm
              rw [hIdef] at hm
              have := le_maxInt _ _ hm
              omega
        · intro hc
          unfold genFinish at hc
          have : ∀ (cs : List (Field × Shape)) rows rows' e, genColumns h2.safeMode
              (inds.zip d.rows) cs rows = (rows', some e) → e ≠ .indexError := by
            intro cs
            induction cs with
            | nil => intro rows rows' e h; simp [genColumns] at h
            | cons c cs ih =>
              intro rows rows' e h
              unfold genColumns at h
              split at h
              · simp at h; rw [← h.2]; simp
              · split at h
                · exact ih _ _ _ h
                · simp at h; rw [← h.2]; simp
          split at hc
          · rename_i heq
            simp only [Option.some.injEq] at hc
            exact this _ _ _ _ heq hc
          · simp at hc
      · exact ⟨H1.toVis, by simp, by simp⟩

theorem apply_id {h : Hist} (H : IdInv h) (op : Op) (hs : IdSafe op) :
    VisInv (apply h op).1 ∧ ((apply h op).2 = none → IdInv (apply h op).1) := by
  cases op with
  | simReturn inds d t k =>
    have := apply_simReturn_id H inds d t k hs
    exact ⟨this.toVis, fun _ => this⟩
  | giveSim inds w t k =>
    have : IdInv (updateXOut h inds w t k).1 := by
      unfold updateXOut
      split
      · exact H
      · have H2 := H.updAll (fun r => ((r.set .simStarted (.s 1)).set .simStartedTime (.s t)).set
          .simWorker (.s w)) inds (by intro r; simp [Row.set])
        simp only
        split
        · split
          · exact H2.of_same rfl rfl H2.col (fun _ => rfl)
          · exact H2.of_same rfl rfl H2.col (fun _ => rfl)
        · exact H2.of_same rfl rfl H2.col (fun _ => rfl)
    exact ⟨this.toVis, fun _ => this⟩
  | giveGen inds t =>
    have : IdInv (updateToGen h inds t).1 := by
      unfold updateToGen
      split
      · exact H
      · split
        · exact H
        · simp only
          refine H.of_same rfl ?_ H.col ?_
          · simp only [length_updAll]; split <;> (try split) <;> simp
          · intro i
            rw [cell_updAll_frame _ _ (by intro r; simp [Row.set])]
            split
            · rw [cell_updAll_frame _ _ (by intro r; simp [Row.set])]
            · split
              · rw [cell_updAll_frame _ _ (by intro r; simp [Row.set])]
              · rfl
    exact ⟨this.toVis, fun _ => this⟩
  | genReturn w d ts t =>
    have := apply_genReturn_id H w d ts t hs
    exact ⟨this.1, this.2.1⟩
  | requestCancel inds =>
    have := H.updAll (·.set .cancelRequested (.s 1)) inds (by intro r; simp [Row.set])
    exact ⟨this.toVis, fun _ => this⟩
  | markKill inds =>
    have := H.updAll (·.set .killSent (.s 1)) inds (by intro r; simp [Row.set])
    exact ⟨this.toVis, fun _ => this⟩

theorem run_id {h : Hist} (H : IdInv h) (ops : List Op) (hs : ∀ op ∈ ops, IdSafe op) :
    VisInv (run h ops).1 ∧ ((run h ops).2 = none → IdInv (run h ops).1) := by
  induction ops generalizing h with
  | nil => exact ⟨H.toVis, fun _ => H⟩
  | cons op ops ih =>
    have hap := apply_id H op (hs op List.mem_cons_self)
    unfold run
    split
    · rename_i heq; rw [heq] at hap; exact ⟨hap.1, by simp⟩
    · rename_i heq; rw [heq] at hap
      exact ih (hap.2 rfl) (fun o ho => hs o (List.mem_cons_of_mem _ ho))

end Verif.History
