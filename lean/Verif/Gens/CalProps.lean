import Verif.Gens.Cal
/-!
Property C73: the bookkeeping of the calibration generator.
-/
namespace Verif.Gens.Cal

/-! ### Specification -/

/-- All numbers of points that the generator has asked to cancel. -/
def Out.ids : Out → List Nat
  | .points _ => []
  | .cancel ids => ids

def cancelled (f : Conf) : List Nat := f.outs.flatMap Out.ids

/-- The number of points sent after the first batch: a batch has one for each place and parameter. -/
def Out.size (nx : Nat) : Out → Nat
  | .points k => nx * k
  | .cancel _ => 0

def sent (c : Cfg) (f : Conf) : Nat := c.nx * c.n0 + (f.outs.map (Out.size c.nx)).sum

/-- The number of the point whose value the generator looks for in a cell. -/
def idOf (c : Cfg) (r j : Nat) : Nat := c.off + j * c.nx + r

/-! ### Which value goes where -/

/-- The values of a later batch are stored in the cells of their place and parameter exactly if there is one place only, or the batch is for
one parameter only: points are sent place by place, but the results are read parameter by parameter.  `b`: number of columns before. -/
theorem C73_place (off nx k b : Nat) : (∀ i < nx, ∀ t < k, cellOf off nx (off + b * nx + rowOf k i t) = (i, b + t)) ↔ nx ≤ 1 ∨ k ≤ 1 := by
  constructor
  · intro h
    refine Classical.byContradiction fun hn => ?_
    have h1 := h 0 (by omega) 1 (by omega)
    simp only [cellOf, rowOf] at h1
    injection h1 with h1 _
    rw [show off + b * nx + (0 * k + 1) - off = 1 + nx * b by rw [Nat.mul_comm]; omega, Nat.add_mul_mod_self_left, Nat.mod_eq_of_lt (by omega)] at h1
    omega
  · intro h i hi t ht
    simp only [cellOf, rowOf]
    rcases h with h | h
    · have : nx = 1 := by omega
      subst this
      have : i = 0 := by omega
      subst this
      simp only [Nat.mod_one, Nat.div_one, Prod.mk.injEq, true_and]
      omega
    · have : k = 1 := by omega
      subst this
      have : t = 0 := by omega
      subst this
      rw [show off + b * nx + (i * 1 + 0) - off = i + nx * b by rw [Nat.mul_comm]; omega, Nat.add_mul_mod_self_left, Nat.mod_eq_of_lt hi,
        Nat.add_mul_div_left _ _ (by omega : 0 < nx), Nat.div_eq_of_lt hi]
      simp

/-- Two places, two new parameters: the value for the first place and the second parameter is taken for the second place and the first
parameter; and to give up the first parameter the generator cancels both parameters at the first place. -/
theorem C73_misplaced : cellOf 2 2 (2 + 3 * 2 + rowOf 2 0 1) = (1, 3) ∧
    cancelIds { nx := 2, n0 := 3, off := 2, pick := fun _ => (2, []) }
      (pad { nx := 2, n0 := 3, off := 2, pick := fun _ => (2, []) } { cols := 3, val := fun _ _ => none, pend := fun _ _ => false, prev := fun _ _ => false, comp := fun _ _ => true } 2)
      [3] = [2 + 3 * 2 + rowOf 2 0 0, 2 + 3 * 2 + rowOf 2 0 1] := by decide

/-- The values of the initial batch are stored in the right cells. -/
theorem C73_first (c : Cfg) (m : Msg) (st : St) (h : create c m = some st) (i t : Nat) (hi : i < c.nx) (ht : t < c.n0) :
    st.val i t = (m[rowOf c.n0 i t]?).map (·.2) ∧ st.val i t ≠ none := by
  unfold create at h
  split at h
  · rename_i hl
    injection h with h
    subst h
    have hlt : i * c.n0 + t < m.length := by
      rw [hl]
      have : (i + 1) * c.n0 ≤ c.nx * c.n0 := Nat.mul_le_mul_right _ hi
      rw [Nat.succ_mul] at this
      omega
    simp [hi, ht, rowOf, List.getElem?_eq_getElem hlt]
  · cases h

/-! ### The steps -/

/-- The row belongs to this cell. -/
def hits (c : Cfg) (m : Msg) (r j : Nat) : Bool := m.any fun x => cellOf c.off c.nx x.1 = (r, j)

theorem update_spec (c : Cfg) (m : Msg) : ∀ st : St, (update c st m).cols = st.cols ∧ (update c st m).prev = st.prev ∧
    (∀ r j, (update c st m).pend r j = (st.pend r j && !hits c m r j)) ∧ (∀ r j, (update c st m).comp r j = (st.comp r j || hits c m r j)) ∧
    (∀ r j, ((update c st m).val r j).isSome = ((st.val r j).isSome || hits c m r j)) := by
  unfold update
  induction m with
  | nil => intro st; simp [hits]
  | cons x m ih =>
    intro st
    rw [List.foldl_cons]
    obtain ⟨h1, h2, h3, h4, h5⟩ := ih { st with val := put st.val (cellOf c.off c.nx x.1) (some x.2), pend := put st.pend (cellOf c.off c.nx x.1) false, comp := put st.comp (cellOf c.off c.nx x.1) true }
    refine ⟨h1, h2, fun r j => ?_, fun r j => ?_, fun r j => ?_⟩
    · rw [h3]
      by_cases h : (r, j) = cellOf c.off c.nx x.1
      · simp [hits, put, h]
      · have h' : ¬ cellOf c.off c.nx x.1 = (r, j) := fun e => h e.symm
        simp [hits, put, h, h']
    · rw [h4]
      by_cases h : (r, j) = cellOf c.off c.nx x.1
      · simp [hits, put, h]
      · have h' : ¬ cellOf c.off c.nx x.1 = (r, j) := fun e => h e.symm
        simp [hits, put, h, h']
    · rw [h5]
      by_cases h : (r, j) = cellOf c.off c.nx x.1
      · simp [hits, put, h]
      · have h' : ¬ cellOf c.off c.nx x.1 = (r, j) := fun e => h e.symm
        simp [hits, put, h, h']

/-- With different numbers each value is stored. -/
theorem update_val (c : Cfg) : ∀ (m : Msg) (st : St), (m.map fun x => cellOf c.off c.nx x.1).Nodup → ∀ x ∈ m,
    (update c st m).val (cellOf c.off c.nx x.1).1 (cellOf c.off c.nx x.1).2 = some x.2 := by
  intro m
  have hkeep : ∀ (m : Msg) (st : St) (q : Nat × Nat), q ∉ m.map (fun x => cellOf c.off c.nx x.1) → (update c st m).val q.1 q.2 = st.val q.1 q.2 := by
    intro m
    induction m with
    | nil => intro st q _; rfl
    | cons y m ih =>
      intro st q hq
      rw [List.map_cons, List.mem_cons, not_or] at hq
      have := ih { st with val := put st.val (cellOf c.off c.nx y.1) (some y.2), pend := put st.pend (cellOf c.off c.nx y.1) false, comp := put st.comp (cellOf c.off c.nx y.1) true } q hq.2
      unfold update at this ⊢
      rw [List.foldl_cons, this]
      simp [put, hq.1]
  induction m with
  | nil => intro _ _ x hx; cases hx
  | cons y m ih =>
    intro st hnd x hx
    rw [List.map_cons] at hnd
    obtain ⟨h1, h2⟩ := List.nodup_cons.mp hnd
    rcases List.mem_cons.mp hx with rfl | hx
    · have := hkeep m { st with val := put st.val (cellOf c.off c.nx x.1) (some x.2), pend := put st.pend (cellOf c.off c.nx x.1) false, comp := put st.comp (cellOf c.off c.nx x.1) true } _ h1
      unfold update at this ⊢
      rw [List.foldl_cons, this]
      simp [put]
    · have := ih { st with val := put st.val (cellOf c.off c.nx y.1) (some y.2), pend := put st.pend (cellOf c.off c.nx y.1) false, comp := put st.comp (cellOf c.off c.nx y.1) true } h2 x hx
      unfold update at this ⊢
      rw [List.foldl_cons]
      exact this

theorem mem_cells {nx cols : Nat} {q : Nat × Nat} : q ∈ cells nx cols ↔ q.1 < nx ∧ q.2 < cols := by
  obtain ⟨r, j⟩ := q
  simp [cells]

theorem total_pos {nx cols : Nat} {a : Nat → Nat → Bool} : total nx cols a ≠ 0 ↔ ∃ r j, r < nx ∧ j < cols ∧ a r j = true := by
  unfold total
  constructor
  · intro h
    obtain ⟨q, hq⟩ := List.exists_mem_of_length_pos (Nat.pos_of_ne_zero h)
    obtain ⟨h1, h2⟩ := List.mem_filter.mp hq
    exact ⟨q.1, q.2, (mem_cells.mp h1).1, (mem_cells.mp h1).2, h2⟩
  · rintro ⟨r, j, h1, h2, h3⟩
    have : (r, j) ∈ (cells nx cols).filter fun q => a q.1 q.2 := List.mem_filter.mpr ⟨mem_cells.mpr ⟨h1, h2⟩, h3⟩
    have := List.length_pos_of_mem this
    omega

/-- The number of a cell determines the cell. -/
theorem idOf_inj {c : Cfg} {r j r' j' : Nat} (hr : r < c.nx) (hr' : r' < c.nx) (h : idOf c r j = idOf c r' j') : r = r' ∧ j = j' := by
  unfold idOf at h
  have h : r + c.nx * j = r' + c.nx * j' := by rw [Nat.mul_comm c.nx, Nat.mul_comm c.nx]; omega
  have h1 := congrArg (· % c.nx) h
  have h2 := congrArg (· / c.nx) h
  simp only [Nat.add_mul_mod_self_left, Nat.mod_eq_of_lt hr, Nat.mod_eq_of_lt hr'] at h1
  simp only [Nat.add_mul_div_left _ _ (by omega : 0 < c.nx), Nat.div_eq_of_lt hr, Nat.div_eq_of_lt hr'] at h2
  omega

theorem idOf_lt {c : Cfg} {r j n : Nat} (hr : r < c.nx) : idOf c r j < c.off + c.nx * n ↔ j < n := by
  unfold idOf
  constructor
  · intro h
    refine Classical.byContradiction fun hn => ?_
    have : c.nx * n ≤ c.nx * j := Nat.mul_le_mul_left _ (by omega)
    rw [Nat.mul_comm j] at h
    omega
  · intro h
    have : c.nx * (j + 1) ≤ c.nx * n := Nat.mul_le_mul_left _ h
    rw [Nat.mul_succ] at this
    rw [Nat.mul_comm j]
    omega

theorem cellOf_idOf {c : Cfg} {r j : Nat} (hr : r < c.nx) : cellOf c.off c.nx (idOf c r j) = (r, j) := by
  unfold cellOf idOf
  rw [show c.off + j * c.nx + r - c.off = r + c.nx * j by rw [Nat.mul_comm]; omega, Nat.add_mul_mod_self_left, Nat.mod_eq_of_lt hr,
    Nat.add_mul_div_left _ _ (by omega : 0 < c.nx), Nat.div_eq_of_lt hr]
  simp

theorem mem_cancelIds {c : Cfg} {st : St} {obv : List Nat} {id : Nat} : id ∈ cancelIds c st obv ↔ ∃ r j, r < c.nx ∧ j < st.cols ∧ j ∈ obv ∧ st.pend r j = true ∧ id = idOf c r j := by
  unfold cancelIds
  simp only [List.mem_flatMap, List.mem_filter, List.mem_range, decide_eq_true_eq, List.mem_map]
  constructor
  · rintro ⟨j, ⟨h1, h2⟩, i, ⟨h3, h4⟩, rfl⟩
    exact ⟨i, j, h3, h1, h2, h4, rfl⟩
  · rintro ⟨r, j, h1, h2, h3, h4, rfl⟩
    exact ⟨j, ⟨h2, h3⟩, r, ⟨h1, h4⟩, rfl⟩

theorem cancelIds_nodup (c : Cfg) (st : St) (obv : List Nat) : (cancelIds c st obv).Nodup := by
  unfold cancelIds
  generalize hl : (List.range st.cols).filter (fun x => decide (x ∈ obv)) = l
  have hnd : l.Nodup := hl ▸ List.nodup_range.filter _
  clear hl
  induction l with
  | nil => simp
  | cons j l ih =>
    obtain ⟨h1, h2⟩ := List.nodup_cons.mp hnd
    rw [List.flatMap_cons]
    refine List.nodup_append.mpr ⟨?_, ih h2, ?_⟩
    · refine List.Pairwise.map _ (fun a b hab h => hab ?_) (List.nodup_range.filter _)
      omega
    · intro a ha b hb hab
      simp only [List.mem_map, List.mem_filter, List.mem_range, List.mem_flatMap] at ha hb
      obtain ⟨i, ⟨hi, _⟩, rfl⟩ := ha
      obtain ⟨j', hj', i', ⟨hi', _⟩, rfl⟩ := hb
      exact h1 ((idOf_inj hi hi' hab).2 ▸ hj')

/-! ### The invariant -/

structure Inv (c : Cfg) (f : Conf) : Prop where
  inside : ∀ r j, f.st.pend r j = true → r < c.nx ∧ j < f.st.cols
  open_ : ∀ r j, f.st.pend r j = true → f.st.comp r j = false
  known : ∀ r j, f.st.comp r j = (f.st.val r j).isSome
  apart : ∀ r j, f.st.pend r j = true → idOf c r j ∉ cancelled f
  once : (cancelled f).Nodup
  range : ∀ id ∈ cancelled f, id < c.off + c.nx * f.st.cols
  full : ∀ r < c.nx, ∀ j < f.st.cols, f.st.pend r j = true ∨ f.st.comp r j = true ∨ idOf c r j ∈ cancelled f
  origin : ∀ r j, f.st.comp r j = true → j < c.n0 ∨ ∃ m ∈ f.got, hits c m r j = true
  size : sent c f = c.nx * f.st.cols

/-- The invariant only speaks of these parts. -/
theorem Inv.congr {c : Cfg} {f g : Conf} (h : Inv c f) (h1 : g.st.cols = f.st.cols) (h2 : g.st.val = f.st.val) (h3 : g.st.pend = f.st.pend) (h4 : g.st.comp = f.st.comp)
    (h5 : ∀ m ∈ f.got, m ∈ g.got) (h6 : g.outs = f.outs) : Inv c g := by
  have hc : cancelled g = cancelled f := by unfold cancelled; rw [h6]
  have hs : sent c g = sent c f := by unfold sent; rw [h6]
  constructor
  · rw [h1, h3]; exact h.inside
  · rw [h3, h4]; exact h.open_
  · rw [h2, h4]; exact h.known
  · rw [h3, hc]; exact h.apart
  · rw [hc]; exact h.once
  · rw [hc, h1]; exact h.range
  · rw [h1, h3, h4, hc]; exact h.full
  · rw [h4]
    exact fun r j hj => (h.origin r j hj).imp id fun ⟨m, hm, hh⟩ => ⟨m, h5 m hm, hh⟩
  · rw [hs, h1]; exact h.size

theorem Inv.update {c : Cfg} {f : Conf} (h : Inv c f) (m : Msg) (hm : m ∈ f.got) : Inv c { f with st := update c f.st m } := by
  obtain ⟨u1, u2, u3, u4, u5⟩ := update_spec c m f.st
  have hc : cancelled { f with st := Cal.update c f.st m } = cancelled f := rfl
  constructor
  · intro r j hj
    simp only [u3, Bool.and_eq_true] at hj
    simp only [u1]
    exact h.inside r j hj.1
  · intro r j hj
    simp only [u3, Bool.and_eq_true, Bool.not_eq_true'] at hj
    simp only [u4, h.open_ r j hj.1, hj.2, Bool.or_self]
  · intro r j
    simp only [u4, u5, h.known]
  · intro r j hj
    simp only [u3, Bool.and_eq_true] at hj
    rw [hc]
    exact h.apart r j hj.1
  · exact h.once
  · simp only [u1]; exact h.range
  · intro r hr j hj
    simp only [u1] at hj
    simp only [u3, u4]
    rw [hc]
    rcases h.full r hr j hj with h | h | h
    · cases hh : hits c m r j
      · exact .inl (by simp [h])
      · exact .inr (.inl (by simp))
    · exact .inr (.inl (by simp [h]))
    · exact .inr (.inr h)
  · intro r j hj
    simp only [u4, Bool.or_eq_true] at hj
    rcases hj with hj | hj
    · exact h.origin r j hj
    · exact .inr ⟨m, hm, hj⟩
  · have := h.size
    simp only [u1]
    exact this

theorem Inv.select {c : Cfg} {f : Conf} (h : Inv c f) : Inv c (select c f) := by
  have hc : cancelled (Cal.select c f) = cancelled f := by simp [cancelled, Cal.select, Out.ids]
  generalize hk : (c.pick f.got).1 = k
  have hcols : (Cal.select c f).st.cols = f.st.cols + k := by simp [Cal.select, pad, hk]
  have hp : ∀ r j, (Cal.select c f).st.pend r j = (decide (r < c.nx ∧ f.st.cols ≤ j ∧ j < f.st.cols + k) || f.st.pend r j) := by
    intro r j; simp [Cal.select, pad, hk]
  have hcm : ∀ r j, (Cal.select c f).st.comp r j = (!decide (r < c.nx ∧ f.st.cols ≤ j ∧ j < f.st.cols + k) && f.st.comp r j) := by
    intro r j; simp [Cal.select, pad, hk]
  have hv : ∀ r j, (Cal.select c f).st.val r j = if (r < c.nx ∧ f.st.cols ≤ j ∧ j < f.st.cols + k) then none else f.st.val r j := by
    intro r j; simp [Cal.select, pad, hk]
  constructor
  · intro r j hj
    rw [hp, Bool.or_eq_true, decide_eq_true_eq] at hj
    rw [hcols]
    rcases hj with hj | hj
    · exact ⟨hj.1, hj.2.2⟩
    · have := h.inside r j hj
      exact ⟨this.1, by omega⟩
  · intro r j hj
    rw [hp, Bool.or_eq_true] at hj
    rw [hcm]
    rcases hj with hj | hj
    · rw [hj]; rfl
    · rw [h.open_ r j hj, Bool.and_false]
  · intro r j
    rw [hcm, hv, h.known]
    by_cases hx : (r < c.nx ∧ f.st.cols ≤ j ∧ j < f.st.cols + k) <;> simp [hx]
  · intro r j hj
    rw [hp, Bool.or_eq_true, decide_eq_true_eq] at hj
    rw [hc]
    rcases hj with hj | hj
    · intro hm
      have := (idOf_lt hj.1).mp (h.range _ hm)
      omega
    · exact h.apart r j hj
  · rw [hc]; exact h.once
  · rw [hc, hcols]
    intro id hid
    have := h.range id hid
    rw [Nat.mul_add]
    omega
  · intro r hr j hj
    rw [hcols] at hj
    rw [hp, hcm, hc]
    by_cases hx : f.st.cols ≤ j
    · exact .inl (by simp [hr, hx, hj])
    · rcases h.full r hr j (by omega) with h | h | h
      · exact .inl (by simp [h])
      · exact .inr (.inl (by simp [h, hx]))
      · exact .inr (.inr h)
  · intro r j hj
    rw [hcm, Bool.and_eq_true] at hj
    exact h.origin r j hj.2
  · rw [hcols, Nat.mul_add, ← h.size]
    simp [sent, Cal.select, Out.size, hk, Nat.add_assoc]

theorem Inv.giveUp {c : Cfg} {f : Conf} (h : Inv c f) (obv : List Nat) :
    Inv c { f with st := giveUp f.st obv, outs := if obv.isEmpty then f.outs else f.outs ++ [.cancel (cancelIds c f.st obv)] } := by
  have hc : ∀ id, id ∈ cancelled { f with st := Cal.giveUp f.st obv, outs := if obv.isEmpty then f.outs else f.outs ++ [.cancel (cancelIds c f.st obv)] } ↔
      id ∈ cancelled f ∨ id ∈ cancelIds c f.st obv := by
    intro id
    cases obv with
    | nil =>
      have : ¬ id ∈ cancelIds c f.st [] := fun h => by obtain ⟨_, _, _, _, h, _⟩ := mem_cancelIds.mp h; cases h
      simp [cancelled, this]
    | cons a obv => simp [cancelled, Out.ids]
  have hp : ∀ r j, (Cal.giveUp f.st obv).pend r j = (!decide (j ∈ obv) && f.st.pend r j) := fun _ _ => rfl
  constructor
  · intro r j hj
    rw [hp, Bool.and_eq_true] at hj
    exact h.inside r j hj.2
  · intro r j hj
    rw [hp, Bool.and_eq_true] at hj
    exact h.open_ r j hj.2
  · exact h.known
  · intro r j hj
    rw [hp, Bool.and_eq_true] at hj
    intro hm
    rcases (hc _).mp hm with hm | hm
    · exact h.apart r j hj.2 hm
    · obtain ⟨r', j', h1, h2, h3, h4, h5⟩ := mem_cancelIds.mp hm
      have := (idOf_inj (h.inside r j hj.2).1 h1 h5).2
      subst this
      simp [h3] at hj
  · cases obv with
    | nil => exact h.once
    | cons a obv =>
      have : cancelled { f with st := Cal.giveUp f.st (a :: obv), outs := if (a :: obv).isEmpty then f.outs else f.outs ++ [.cancel (cancelIds c f.st (a :: obv))] } =
          cancelled f ++ cancelIds c f.st (a :: obv) := by simp [cancelled, Out.ids]
      rw [this]
      refine List.nodup_append.mpr ⟨h.once, cancelIds_nodup c f.st _, ?_⟩
      rintro id hid _ hid' rfl
      obtain ⟨r, j, h1, h2, h3, h4, rfl⟩ := mem_cancelIds.mp hid'
      exact h.apart r j h4 hid
  · intro id hid
    rcases (hc _).mp hid with hm | hm
    · exact h.range id hm
    · obtain ⟨r, j, h1, h2, h3, h4, rfl⟩ := mem_cancelIds.mp hm
      exact (idOf_lt h1).mpr h2
  · intro r hr j hj
    rcases h.full r hr j hj with hx | hx | hx
    · by_cases ho : j ∈ obv
      · exact .inr (.inr ((hc _).mpr (.inr (mem_cancelIds.mpr ⟨r, j, hr, hj, ho, hx, rfl⟩))))
      · exact .inl (by rw [hp]; simp [ho, hx])
    · exact .inr (.inl hx)
    · exact .inr (.inr ((hc _).mpr (.inl hx)))
  · exact h.origin
  · have := h.size
    unfold sent at this ⊢
    cases obv with
    | nil => exact this
    | cons a obv => simpa [Out.size, Cal.giveUp] using this

/-- Waiting in the middle of the loop, something is pending. -/
def Waits (c : Cfg) (f : Conf) : Prop := f.pos = .mid → ∃ r j, r < c.nx ∧ j < f.st.cols ∧ f.st.pend r j = true

theorem top_inv {c : Cfg} : ∀ (fuel : Nat) (f : Conf) (m : Msg), Inv c f → m ∈ f.got → Inv c (top c fuel f m) ∧ Waits c (top c fuel f m) := by
  intro fuel
  induction fuel with
  | zero => intro f m h _; exact ⟨h.congr rfl rfl rfl rfl (fun _ h => h) rfl, fun e => by cases e⟩
  | succ fuel ih =>
    intro f m h hm
    have hu := h.update m hm
    rw [top]
    simp only
    split
    · split
      · exact ⟨(hu.congr (g := { f with st := { update c f.st m with prev := (update c f.st m).pend } }) rfl rfl rfl rfl (fun _ h => h) rfl).select, fun e => by cases e⟩
      · exact ih _ m (hu.congr (g := { f with st := { update c f.st m with prev := (update c f.st m).pend } }) rfl rfl rfl rfl (fun _ h => h) rfl) hm
    · rename_i hr
      refine ⟨hu.congr rfl rfl rfl rfl (fun _ h => h) rfl, fun _ => total_pos.mp fun h0 => hr ?_⟩
      simp [rebuilds, h0]

theorem recv_inv {c : Cfg} {f : Conf} (h : Inv c f) (hp : f.pos ≠ .first) (hw : Waits c f) (m : Msg) : Inv c (recv c f m) ∧ Waits c (recv c f m) := by
  have hg : Inv c { f with got := f.got ++ [m] } := h.congr rfl rfl rfl rfl (fun m hm => List.mem_append_left _ hm) rfl
  unfold recv
  simp only
  split
  · rename_i hx; exact absurd hx hp
  · split
    · exact ⟨hg.select, fun e => by cases e⟩
    · exact top_inv 2 _ m hg (by simp)
  · rename_i obv _
    exact top_inv 2 _ m (hg.giveUp obv) (by simp)
  · exact ⟨hg, hw⟩

theorem recv_first {c : Cfg} {f : Conf} (hf : f.pos = .first) (ho : f.outs = []) (m : Msg) : (recv c f m).pos = .failed ∨ (Inv c (recv c f m) ∧ Waits c (recv c f m)) := by
  unfold recv
  simp only [hf]
  split
  · exact .inl rfl
  · rename_i st hst
    refine .inr ?_
    have hI : Inv c { f with got := f.got ++ [m], st := st, pos := .first } := by
      unfold create at hst
      split at hst
      · rename_i hl
        injection hst with hst
        subst hst
        have hc : ∀ st, cancelled { f with got := f.got ++ [m], st := st, pos := .first } = [] := by simp [cancelled, ho]
        constructor
        · intro r j hj; simp at hj
        · intro r j hj; simp at hj
        · intro r j
          simp only
          by_cases hx : r < c.nx ∧ j < c.n0
          · have hlt : r * c.n0 + j < m.length := by
              rw [hl]
              have : (r + 1) * c.n0 ≤ c.nx * c.n0 := Nat.mul_le_mul_right _ hx.1
              rw [Nat.succ_mul] at this
              omega
            simp [hx, List.getElem?_eq_getElem hlt]
          · simp [hx]
        · intro r j hj; simp at hj
        · rw [hc]; simp
        · rw [hc]; simp
        · intro r hr j hj; exact .inr (.inl (by simpa using ⟨hr, hj⟩))
        · intro r j hj; exact .inl (by simp at hj; exact hj.2)
        · simp [sent, ho]
      · cases hst
    split
    · exact ⟨hI.select, fun e => by cases e⟩
    · exact top_inv 2 _ m hI (by simp)

/-! ### No endless loop -/

theorem top_spin {c : Cfg} (h0 : 0 < c.nx) (f : Conf) (m : Msg) (hs : f.pos ≠ .spins) (hf : f.pos ≠ .first) : (top c 2 f m).pos ≠ .spins ∧ (top c 2 f m).pos ≠ .first := by
  rw [top]
  simp only
  split
  · split
    · exact ⟨nofun, nofun⟩
    · rename_i hsel
      rw [top]
      simp only
      obtain ⟨u1, u2, u3, u4, u5⟩ := update_spec c m f.st
      obtain ⟨v1, v2, v3, v4, v5⟩ := update_spec c m { update c f.st m with prev := (update c f.st m).pend }
      have hpend : (update c { update c f.st m with prev := (update c f.st m).pend } m).pend = (update c f.st m).pend := by
        funext r j
        rw [v3]
        show ((update c f.st m).pend r j && _) = _
        rw [u3]
        cases hits c m r j <;> simp
      have hnot : rebuilds c (update c { update c f.st m with prev := (update c f.st m).pend } m) = false := by
        unfold rebuilds
        rw [hpend, v1, v2]
        simp only [selects, Bool.not_eq_true', Bool.not_eq_false, decide_eq_true_eq, Bool.not_not] at hsel
        have h5 : (0 : Int) < c.nx * 5 := by omega
        simp only [Bool.or_eq_false_iff, decide_eq_false_iff_not]
        exact ⟨by omega, by omega⟩
      rw [hnot]
      exact ⟨nofun, nofun⟩
  · exact ⟨nofun, nofun⟩

theorem recv_spin {c : Cfg} (h0 : 0 < c.nx) (f : Conf) (m : Msg) (hs : f.pos ≠ .spins) : (recv c f m).pos ≠ .spins ∧ (recv c f m).pos ≠ .first := by
  have htop : ∀ f : Conf, (top c 2 f m).pos ≠ .spins ∧ (top c 2 f m).pos ≠ .first := by
    intro f
    have : (top c 2 f m).pos = (top c 2 { f with pos := .mid } m).pos := by
      simp only [top, select]
    rw [this]
    exact top_spin h0 _ m nofun nofun
  unfold recv
  simp only
  split
  · split
    · exact ⟨nofun, nofun⟩
    · split
      · exact ⟨nofun, nofun⟩
      · exact htop _
  · split
    · exact ⟨nofun, nofun⟩
    · exact htop _
  · exact htop _
  · rename_i h1 h2 h3
    exact ⟨hs, fun h => h1 h⟩

/-! ### Runs -/

theorem after_snoc (c : Cfg) (ms : List Msg) (m : Msg) : after c (ms ++ [m]) = recv c (after c ms) m := by simp [after, List.foldl_append]

theorem recv_failed (c : Cfg) (f : Conf) (m : Msg) (h : f.pos = .failed) : (recv c f m).pos = .failed := by
  unfold recv; simp only [h]

theorem after_inv (c : Cfg) (h0 : 0 < c.nx) (ms : List Msg) : (after c ms).pos ≠ .spins ∧ ((after c ms).pos = .first → ms = []) ∧
    ((after c ms).pos = .failed ∨ ms = [] ∨ (Inv c (after c ms) ∧ Waits c (after c ms))) := by
  have : ∀ l : List Msg, (after c l.reverse).pos ≠ .spins ∧ ((after c l.reverse).pos = .first → l.reverse = []) ∧
      ((after c l.reverse).pos = .failed ∨ l.reverse = [] ∨ (Inv c (after c l.reverse) ∧ Waits c (after c l.reverse))) := by
    intro l
    induction l with
    | nil => exact ⟨nofun, fun _ => rfl, .inr (.inl rfl)⟩
    | cons m l ih =>
      obtain ⟨i1, i2, i3⟩ := ih
      rw [List.reverse_cons, after_snoc]
      obtain ⟨s1, s2⟩ := recv_spin h0 (after c l.reverse) m i1
      refine ⟨s1, fun h => absurd h s2, ?_⟩
      by_cases hf : (after c l.reverse).pos = .first
      · have hnil := i2 hf
        have ho : (after c l.reverse).outs = [] := by rw [hnil]; rfl
        rcases recv_first (c := c) hf ho m with h | h
        · exact .inl h
        · exact .inr (.inr h)
      · rcases i3 with h | h | ⟨h, hw⟩
        · exact .inl (recv_failed c _ m h)
        · exact absurd (by rw [h]; rfl) hf
        · exact .inr (.inr (recv_inv h hf hw m))
  have := this ms.reverse
  rwa [List.reverse_reverse] at this

/-! ### Theorems -/

/-- The generator never runs in circles without receiving anything, and fails only on an initial batch of the wrong length. -/
theorem C73_answers (c : Cfg) (h0 : 0 < c.nx) (m : Msg) (ms : List Msg) (hl : m.length = c.nx * c.n0) :
    (after c (m :: ms)).pos = .mid ∨ ∃ obv, (after c (m :: ms)).pos = .sel obv := by
  have hf : (after c (m :: ms)).pos ≠ .failed := by
    have hstep : ∀ f : Conf, ∀ m, f.pos ≠ .failed → f.pos ≠ .first → (recv c f m).pos ≠ .failed := by
      have htop : ∀ k f m, (top c k f m).pos ≠ .failed := by
        intro k
        induction k with
        | zero => intro f m; nofun
        | succ k ih =>
          intro f m
          rw [top]; simp only
          split
          · split
            · nofun
            · exact ih _ m
          · nofun
      intro f m h1 h2
      unfold recv
      simp only
      split
      · rename_i h; exact absurd h h2
      · split
        · nofun
        · exact htop _ _ _
      · exact htop _ _ _
      · exact h1
    have hall : ∀ l : List Msg, (after c (m :: l.reverse)).pos ≠ .failed := by
      intro l
      induction l with
      | nil =>
        obtain ⟨st, hst⟩ : ∃ st, create c m = some st := by simp [create, hl]
        have hsel : selects c st = true := by
          unfold create at hst
          rw [if_pos hl] at hst
          injection hst with hst
          subst hst
          have : total c.nx c.n0 (fun _ _ => false) = 0 := Classical.byContradiction fun h => by
            obtain ⟨_, _, _, _, h⟩ := total_pos.mp h; cases h
          simp [selects, this]
        simp [after, recv, start, hst, hsel, select]
      | cons x l ih =>
        rw [List.reverse_cons, ← List.cons_append, after_snoc]
        exact hstep _ x ih (fun h => by cases (after_inv c h0 _).2.1 h)
    have := hall ms.reverse
    rwa [List.reverse_reverse] at this
  have h := after_inv c h0 (m :: ms)
  cases hp : (after c (m :: ms)).pos with
  | first => cases h.2.1 hp
  | mid => exact .inl rfl
  | sel obv => exact .inr ⟨obv, rfl⟩
  | failed => exact absurd hp hf
  | spins => exact absurd hp h.1

/-- Every point sent is in exactly one state: pending, recorded with a value that some array brought, or given up by a request to cancel.
Points that were given up may still be recorded when their values come. -/
theorem C73_books (c : Cfg) (h0 : 0 < c.nx) (ms : List Msg) (hm : ms ≠ []) (hf : (after c ms).pos ≠ .failed) :
    sent c (after c ms) = c.nx * (after c ms).st.cols ∧ ∀ r < c.nx, ∀ j < (after c ms).st.cols,
      ((after c ms).st.pend r j = true ↔ (after c ms).st.val r j = none ∧ idOf c r j ∉ cancelled (after c ms)) ∧
      ((after c ms).st.val r j ≠ none → j < c.n0 ∨ ∃ m ∈ (after c ms).got, ∃ x ∈ m, x.1 - c.off = j * c.nx + r) := by
  rcases (after_inv c h0 ms).2.2 with h | h | ⟨h, _⟩
  · exact absurd h hf
  · exact absurd h hm
  · refine ⟨h.size, fun r hr j hj => ⟨⟨fun hp => ⟨?_, h.apart r j hp⟩, fun ⟨hv, hc⟩ => ?_⟩, fun hv => ?_⟩⟩
    · have := h.known r j
      rw [h.open_ r j hp] at this
      cases hx : (after c ms).st.val r j with
      | none => rfl
      | some v => rw [hx] at this; cases this
    · have := h.known r j
      rw [hv] at this
      rcases h.full r hr j hj with h | h | h
      · exact h
      · rw [h] at this; cases this
      · exact absurd h hc
    · have hk := h.known r j
      rw [Option.isSome_iff_ne_none.mpr hv] at hk
      rcases h.origin r j hk with h | ⟨m, hm, hh⟩
      · exact .inl h
      · obtain ⟨x, hx, he⟩ := List.any_eq_true.mp hh
        refine .inr ⟨m, hm, x, hx, ?_⟩
        simp only [cellOf, decide_eq_true_eq, Prod.mk.injEq] at he
        have := Nat.mod_add_div (x.1 - c.off) c.nx
        rw [he.1, he.2, Nat.mul_comm] at this
        omega

/-- Points are cancelled at most once, and only points that have been sent. -/
theorem C73_cancel (c : Cfg) (h0 : 0 < c.nx) (ms : List Msg) (hf : (after c ms).pos ≠ .failed) :
    (cancelled (after c ms)).Nodup ∧ ∀ id ∈ cancelled (after c ms), id < c.off + sent c (after c ms) := by
  rcases (after_inv c h0 ms).2.2 with h | h | ⟨h, _⟩
  · exact absurd h hf
  · subst h; simp [after, start, cancelled]
  · exact ⟨h.once, by rw [h.size]; exact h.range⟩

/-- A request to cancel is about the cells of the columns to give up that are pending, and so without value, when it is made. -/
theorem C73_request (c : Cfg) (h0 : 0 < c.nx) (ms : List Msg) (obv : List Nat) (hp : (after c ms).pos = .sel obv) (m : Msg) (id : Nat) :
    (id ∈ cancelled (after c (ms ++ [m])) ↔ id ∈ cancelled (after c ms) ∨
      ∃ r j, r < c.nx ∧ j < (after c ms).st.cols ∧ j ∈ obv ∧ id = idOf c r j ∧ (after c ms).st.val r j = none) := by
  have hI : Inv c (after c ms) := by
    rcases (after_inv c h0 ms).2.2 with h | h | ⟨h, _⟩
    · rw [hp] at h; cases h
    · subst h; cases hp
    · exact h
  have htop : ∀ k (f : Conf) m, cancelled (top c k f m) = cancelled f := by
    intro k
    induction k with
    | zero => intro f m; rfl
    | succ k ih =>
      intro f m
      rw [top]; simp only
      split
      · split
        · simp [select, cancelled, Out.ids]
        · rw [ih]; rfl
      · rfl
  have he : ∀ id, id ∈ cancelled (after c (ms ++ [m])) ↔ id ∈ cancelled (after c ms) ∨ id ∈ cancelIds c (after c ms).st obv := by
    intro id
    rw [after_snoc, recv]
    simp only [hp]
    rw [htop]
    cases obv with
    | nil =>
      have : ¬ id ∈ cancelIds c (after c ms).st [] := fun h => by obtain ⟨_, _, _, _, h, _⟩ := mem_cancelIds.mp h; cases h
      simp [cancelled, this]
    | cons a obv => simp [cancelled, Out.ids]
  rw [he, mem_cancelIds]
  have hval : ∀ r j, (after c ms).st.pend r j = true → (after c ms).st.val r j = none := by
    intro r j h
    have h1 := hI.known r j
    rw [hI.open_ r j h] at h1
    cases hx : (after c ms).st.val r j with
    | none => rfl
    | some v => rw [hx] at h1; cases h1
  constructor
  · rintro (h | ⟨r, j, h1, h2, h3, h4, h5⟩)
    · exact .inl h
    · exact .inr ⟨r, j, h1, h2, h3, h5, hval r j h4⟩
  · rintro (h | ⟨r, j, h1, h2, h3, h4, h5⟩)
    · exact .inl h
    · rcases hI.full r h1 j h2 with h | h | h
      · exact .inr ⟨r, j, h1, h2, h3, h, h4⟩
      · have := hI.known r j
        rw [h, h5] at this
        cases this
      · exact .inl (h4 ▸ h)

/-- When the generator waits in the middle of its loop, something is pending. -/
theorem C73_waits (c : Cfg) (h0 : 0 < c.nx) (ms : List Msg) (hp : (after c ms).pos = .mid) : ∃ r j, r < c.nx ∧ j < (after c ms).st.cols ∧ (after c ms).st.pend r j = true := by
  rcases (after_inv c h0 ms).2.2 with h | h | ⟨_, h⟩
  · rw [hp] at h; cases h
  · subst h; cases hp
  · exact h hp

/-- The values of an array are stored, unless it is received in the middle of the loop and new points are wanted.  Partial: in this case
they are lost, see `C73_lost`. -/
theorem C73_stored_partial (c : Cfg) (h0 : 0 < c.nx) (f : Conf) (m : Msg) (hp : (∃ obv, f.pos = .sel obv) ∨ (f.pos = .mid ∧ selects c f.st = false))
    (hd : (m.map (·.1)).Nodup) (hr : ∀ x ∈ m, c.off ≤ x.1 ∧ x.1 < c.off + c.nx * f.st.cols) (r j : Nat) (v : Int) (hx : (idOf c r j, v) ∈ m) (hrx : r < c.nx) :
    (recv c f m).st.val r j = some v ∧ (recv c f m).st.pend r j = false := by
  have hcells : ∀ x ∈ m, x.1 = idOf c (cellOf c.off c.nx x.1).1 (cellOf c.off c.nx x.1).2 := by
    intro x hx
    have := Nat.mod_add_div (x.1 - c.off) c.nx
    have := (hr x hx).1
    simp only [cellOf, idOf]
    rw [Nat.mul_comm ((x.1 - c.off) / c.nx)]
    omega
  have hnd : ∀ l : Msg, (∀ x ∈ l, x ∈ m) → (l.map (·.1)).Nodup → (l.map fun x => cellOf c.off c.nx x.1).Nodup := by
    intro l
    induction l with
    | nil => intro _ _; simp
    | cons x l ih =>
      intro hsub h
      obtain ⟨h1, h2⟩ := List.nodup_cons.mp h
      refine List.nodup_cons.mpr ⟨fun hm => h1 ?_, ih (fun x hx => hsub x (List.mem_cons_of_mem _ hx)) h2⟩
      obtain ⟨y, hy, hc⟩ := List.mem_map.mp hm
      refine List.mem_map.mpr ⟨y, hy, ?_⟩
      show y.1 = x.1
      rw [hcells y (hsub y (List.mem_cons_of_mem _ hy)), hcells x (hsub x List.mem_cons_self), hc]
  have hnd := hnd m (fun _ h => h) hd
  have hjr : j < f.st.cols := (idOf_lt hrx).mp (hr _ hx).2
  have htop : ∀ k (g : Conf), 0 < k → g.st.cols = f.st.cols → (top c k g m).st.val r j = some v ∧ (top c k g m).st.pend r j = false ∨ (top c k g m).pos = .spins := by
    intro k
    induction k with
    | zero => intro g h; omega
    | succ k ih =>
      intro g _ hg
      have hv := update_val c m g.st hnd _ hx
      rw [cellOf_idOf hrx] at hv
      obtain ⟨u1, u2, u3, u4, u5⟩ := update_spec c m g.st
      have hp : (update c g.st m).pend r j = false := by
        rw [u3]
        have : hits c m r j = true := List.any_eq_true.mpr ⟨_, hx, by simp [cellOf_idOf hrx]⟩
        simp [this]
      rw [top]; simp only
      split
      · split
        · left
          constructor
          · simp only [select, pad]
            rw [if_neg]
            · exact hv
            · simp only [decide_eq_true_eq, u1, hg]; omega
          · simp only [select, pad, hp, u1, hg, Bool.or_false, decide_eq_false_iff_not]
            omega
        · cases k with
          | zero => exact .inr rfl
          | succ k => exact ih _ (by omega) (by simpa [u1] using hg)
      · exact .inl ⟨hv, hp⟩
  have hns : (recv c f m).pos ≠ .spins := (recv_spin h0 f m (by
    rcases hp with ⟨o, h⟩ | ⟨h, _⟩ <;> rw [h] <;> nofun)).1
  unfold recv at hns ⊢
  simp only at hns ⊢
  rcases hp with ⟨obv, hp⟩ | ⟨hp, hs⟩
  · simp only [hp] at hns ⊢
    exact Or.resolve_right (htop 2 { st := giveUp f.st obv, pos := .sel obv, got := f.got ++ [m], outs := if obv.isEmpty = true then f.outs else f.outs ++ [Out.cancel (cancelIds c f.st obv)] } (by omega) rfl) hns
  · simp only [hp, hs, Bool.false_eq_true, if_false] at hns ⊢
    exact Or.resolve_right (htop 2 { f with pos := .mid, got := f.got ++ [m] } (by omega) rfl) hns

/-- An array that comes in the middle of the loop while few points are pending is not looked at: new points are sent and the next array
takes its place. -/
theorem C73_lost (c : Cfg) (f : Conf) (m : Msg) (hp : f.pos = .mid) (hs : selects c f.st = true) (r j : Nat) (hj : j < f.st.cols) :
    (recv c f m).st.val r j = f.st.val r j ∧ (recv c f m).st.pend r j = f.st.pend r j := by
  simp only [recv, hp, hs, if_true, select, pad]
  have : ¬ (r < c.nx ∧ f.st.cols ≤ j ∧ j < f.st.cols + (c.pick (f.got ++ [m])).1) := by omega
  simp [this]

/-! ### A run that hangs -/

/-- One place, one initial parameter; then two new parameters, then one. -/
def hangCfg : Cfg := { nx := 1, n0 := 1, off := 1, pick := fun ms => if ms.length = 1 then (2, []) else (1, []) }

/-- The initial batch, and then the values one by one. -/
def hangMsgs : List Msg := [[(1, 10)], [(2, 20)], [(3, 30)], [(4, 40)]]

/-- All values of all points sent have been given back, each once, but one was lost: the generator waits for more, while nobody has anything
to do. -/
theorem C73_hang_witness : sent hangCfg (after hangCfg hangMsgs) = 4 ∧ (hangMsgs.flatten.map (·.1)) = [1, 2, 3, 4] ∧ (after hangCfg hangMsgs).pos = .mid ∧
    (after hangCfg hangMsgs).st.pend 0 2 = true ∧ (after hangCfg hangMsgs).st.val 0 2 = none ∧ idOf hangCfg 0 2 = 3 := by decide

/-! ### Examples -/

/-- Two places, one initial parameter; two new ones; the first of them is then given up while one more is sent. -/
def demoCfg : Cfg := { nx := 2, n0 := 1, off := 2, pick := fun ms => if ms.length = 1 then (2, []) else (1, [1]) }

def demoMsgs : List Msg := [[(2, 10), (3, 11)], [(5, 21)], [(6, 30)], [(8, 40)]]

example : 0 < demoCfg.nx ∧ (after demoCfg demoMsgs).pos = .mid ∧ cancelled (after demoCfg demoMsgs) = [4] ∧ sent demoCfg (after demoCfg demoMsgs) = 8 ∧
    (after demoCfg demoMsgs).st.val 1 1 = some 21 ∧ (after demoCfg demoMsgs).st.val 0 3 = some 40 := by decide

example : (after demoCfg (demoMsgs.take 3)).pos = .sel [1] ∧ (∀ x ∈ ([(8, 40)] : Msg), demoCfg.off ≤ x.1 ∧ x.1 < demoCfg.off + demoCfg.nx * (after demoCfg (demoMsgs.take 3)).st.cols) ∧
    ((idOf demoCfg 0 3, (40 : Int)) ∈ ([(8, 40)] : Msg)) := by decide

example : (after demoCfg (demoMsgs.take 2)).pos = .mid ∧ selects demoCfg (after demoCfg (demoMsgs.take 2)).st = true := by decide

example : (create demoCfg [(2, 10), (3, 11)]).isSome = true ∧ (1 < demoCfg.nx ∧ 0 < demoCfg.n0) := by decide

end Verif.Gens.Cal
