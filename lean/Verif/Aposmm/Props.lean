import Verif.Aposmm.Values

/-
Properties C61, C62 and C63: APOSMM's distances, its starting points and its runs.

`Reach` and `Decides` (Run.lean) assume that results arrive once each for rows without a result, which is what the manager does, and `Given`: the rows
given at the start carry no `known_to_aposmm` and `num_active_runs` of an earlier run.  The statements of C61 and C62 do not exclude such marks and fail with
them (`C61_known_witness` in Examples.lean), so their theorems are partial.
-/
namespace Verif.Aposmm

variable {α : Type}

/-- A row with a value that can be compared. -/
def Evaluated (r : ARow α) : Prop := r.ended = true ∧ r.f ≠ .nan

theorem evaluated_iff {r : ARow α} : Evaluated r ↔ r.good = true := by simp [Evaluated, ARow.good]

/-- Row `j` of `rows` is an evaluated row `o` of the given kind. -/
def IsPoint (rows : List (ARow α)) (j : Nat) (o : ARow α) (loc : Bool) : Prop := rows[j]? = some o ∧ Evaluated o ∧ o.isLocal = loc

/-- What the distance `d` and the index `w` of row `i` should say about the points of one kind: the distance is that of another point at least as
good, and no strictly better point is closer. -/
structure Says (g : Geo α) (rows : List (ARow α)) (i : Nat) (r : ARow α) (loc : Bool) (d : Option Int) (w : Int) : Prop where
  point : ∀ e, d = some e → ∃ (j : Nat) (o : ARow α), IsPoint rows j o loc ∧ j ≠ i ∧ w = j ∧ FVal.lt r.f o.f = false ∧ g.dist r.x o.x = e
  closest : ∀ (j : Nat) (o : ARow α), IsPoint rows j o loc → FVal.lt o.f r.f = true → ∃ e, d = some e ∧ e ≤ g.dist r.x o.x

theorem Dist.says {g : Geo α} {rows : List (ARow α)} (h : Dist g rows) (ht : Told rows) {i : Nat} {r : ARow α} (hi : rows[i]? = some r)
    (he : Evaluated r) (k : Bool) : Says g rows i r k (r.d k) (r.w k) := by
  have hk := ht i r hi (evaluated_iff.mp he)
  refine ⟨fun e hd => ?_, fun j o ho hlt => ?_⟩
  · obtain ⟨j, o, h1, h2, h3, h4, h5, h6, h7⟩ := h.wit i r k e hi hd
    exact ⟨j, o, ⟨h3, evaluated_iff.mpr h4, h5⟩, h1, h2, h6, h7⟩
  · obtain ⟨e, h1, h2⟩ := h.upper i j r o hi ho.1 hk (ht j o ho.1 (evaluated_iff.mp ho.2.1)) hlt
    rw [ho.2.2] at h1
    exact ⟨e, h1, h2⟩

/-- **C61** In every state after a pass, every evaluated row knows its distance to the boundary, and its distances to better local and sample points
lie between those of the nearest point at least as good and of the nearest strictly better point; other rows have infinite distances. -/
theorem C61_distances_partial {cf : Cfg α} {H : List (ARow α)} {s : St α} (h : Reach cf H s) (i : Nat) (r : ARow α) (hi : s.rows[i]? = some r) :
    (Evaluated r → r.bnd = some (cf.geo.bound r.x) ∧ Says cf.geo s.rows i r true r.dl r.il ∧ Says cf.geo s.rows i r false r.ds r.iS) ∧
    (¬ Evaluated r → r.dl = none ∧ r.ds = none) := by
  have hv := h.inv
  refine ⟨fun he => ⟨?_, hv.dist.says hv.told hi he true, hv.dist.says hv.told hi he false⟩, fun hne => ?_⟩
  · exact hv.dist.bnd i r hi (hv.told i r hi (evaluated_iff.mp he))
  · have hg : r.good = false := by
      cases hg : r.good with
      | false => rfl
      | true => exact absurd (evaluated_iff.mpr hg) hne
    exact ⟨hv.dist.clean i r hi hg true, hv.dist.clean i r hi hg false⟩

theorem lt_total {a b : FVal} (ha : a ≠ .nan) (hb : b ≠ .nan) (hne : a ≠ b) (h : FVal.lt a b = false) : FVal.lt b a = true := by
  cases a <;> cases b <;> simp_all [FVal.lt]; omega

/-- **C61** If no two evaluated rows have the same value, the distances are exactly those of the nearest strictly better point: infinite if and only
if there is none, otherwise the smallest distance. -/
theorem C61_exact_partial {cf : Cfg α} {H : List (ARow α)} {s : St α} (h : Reach cf H s) (i : Nat) (r : ARow α) (hi : s.rows[i]? = some r) (he : Evaluated r)
    (hd : ∀ (j : Nat) (o : ARow α), s.rows[j]? = some o → Evaluated o → j ≠ i → o.f ≠ r.f) (loc : Bool) :
    ((if loc then r.dl else r.ds) = none ↔ ∀ (j : Nat) (o : ARow α), IsPoint s.rows j o loc → FVal.lt o.f r.f = false) ∧
    ∀ e, (if loc then r.dl else r.ds) = some e ↔
      (∃ (j : Nat) (o : ARow α), IsPoint s.rows j o loc ∧ FVal.lt o.f r.f = true ∧ cf.geo.dist r.x o.x = e) ∧
      ∀ (j : Nat) (o : ARow α), IsPoint s.rows j o loc → FVal.lt o.f r.f = true → e ≤ cf.geo.dist r.x o.x := by
  have hv := h.inv
  have sy : Says cf.geo s.rows i r loc (if loc then r.dl else r.ds) (r.w loc) := hv.dist.says hv.told hi he loc
  have strict : ∀ e, (if loc then r.dl else r.ds) = some e →
      ∃ (j : Nat) (o : ARow α), IsPoint s.rows j o loc ∧ FVal.lt o.f r.f = true ∧ cf.geo.dist r.x o.x = e := by
    intro e hs
    obtain ⟨j, o, h1, h2, _, h4, h5⟩ := sy.point e hs
    exact ⟨j, o, h1, lt_total he.2 h1.2.1.2 (fun e' => hd j o h1.1 h1.2.1 h2 e'.symm) h4, h5⟩
  refine ⟨⟨fun hn j o ho => ?_, fun hno => ?_⟩, fun e => ⟨fun hs => ⟨strict e hs, fun j o ho hlt => ?_⟩, ?_⟩⟩
  · cases hlt : FVal.lt o.f r.f with
    | false => rfl
    | true => obtain ⟨e, h1, _⟩ := sy.closest j o ho hlt; rw [hn] at h1; cases h1
  · cases hs : (if loc then r.dl else r.ds) with
    | none => rfl
    | some e => obtain ⟨j, o, h1, h2, _⟩ := strict e hs; rw [hno j o h1] at h2; cases h2
  · obtain ⟨e', h1, h2⟩ := sy.closest j o ho hlt
    rw [hs] at h1; cases h1; exact h2
  · rintro ⟨⟨j, o, ho, hlt, hde⟩, hmin⟩
    obtain ⟨e', h1, h2⟩ := sy.closest j o ho hlt
    obtain ⟨j2, o2, ho2, hlt2, hde2⟩ := strict e' h1
    have := hmin j2 o2 ho2 hlt2
    rw [h1]; congr 1; omega

/-! ### Starting points -/

/-- The conditions on a starting point that are read off its row. -/
structure Fit (cf : Cfg α) (s : St α) (i : Nat) (r : ARow α) : Prop where
  row : s.rows[i]? = some r
  evaluated : Evaluated r
  finite : r.f ≠ .inf ∧ r.f ≠ .ninf
  unused : r.started = false
  inside : cf.mu ≤ cf.geo.bound r.x
  away : 0 < cf.nu → ∀ (j : Nat) (o : ARow α), s.rows[j]? = some o → o.lmin = true → cf.nu ≤ cf.geo.dist r.x o.x
  idle : ∀ c ∈ s.opters, i ∉ ordOf s c

theorem farther_none {d : Option Int} : farther d none = false := by cases d <;> rfl

theorem tests_iff {g : Geo α} {rows : List (ARow α)} {rk : Option Int} {mu nu : Int} {r : ARow α} : r.tests g rows rk mu nu = true ↔
    r.ended = true ∧ farther r.ds rk = true ∧ r.started = false ∧ atLeast r.bnd mu = true ∧
      (0 < nu → ∀ (j : Nat) (o : ARow α), rows[j]? = some o → o.lmin = true → nu ≤ g.dist r.x o.x) := by
  have ha : ((if nu > 0 then rows.all fun o => !o.lmin || decide (g.dist r.x o.x ≥ nu) else true) = true) ↔
      (0 < nu → ∀ (j : Nat) (o : ARow α), rows[j]? = some o → o.lmin = true → nu ≤ g.dist r.x o.x) := by
    by_cases hn : 0 < nu
    · rw [if_pos hn, List.all_eq_true]
      constructor
      · intro h _ j o ho hl
        have := h o (List.mem_iff_getElem?.mpr ⟨j, ho⟩)
        simpa [hl] using this
      · intro h o ho
        obtain ⟨j, hj⟩ := List.mem_iff_getElem?.mp ho
        cases hl : o.lmin with
        | false => simp
        | true => simpa using h hn j o hj hl
    · rw [if_neg (by omega)]
      simp [hn]
  simp only [ARow.tests, Bool.and_eq_true, Bool.not_eq_true', ha, and_assoc]

theorem finite_iff {r : ARow α} : r.finite = true ↔ (r.f ≠ .inf ∧ r.f ≠ .ninf) ∧ r.f ≠ .nan := by
  unfold ARow.finite; cases r.f <;> simp [FVal.isInf]

/-- Both kinds of starting points at once. -/
theorem startable_iff {g : Geo α} {rows : List (ARow α)} {rk : Option Int} {mu nu : Int} {r : ARow α} :
    (r.sampleStart g rows rk mu nu = true ∨ r.localStart g rows rk mu nu = true) ↔
      (r.finite = true ∧ r.tests g rows rk mu nu = true ∧ farther r.dl rk = true) ∧
        (if r.isLocal then r.nact = 0 ∧ r.lmin = false else r.paused = false) := by
  cases hl : r.isLocal <;> simp [ARow.sampleStart, ARow.localStart, hl, and_assoc, and_comm, and_left_comm]

theorem Book.idle {cf : Cfg α} {H : List (ARow α)} {s : St α} {P : List Nat} {w : Option Nat} (h : Book cf H s P w) {i : Nat} {r : ARow α}
    (hi : s.rows[i]? = some r) (hs : r.started = false) (hn : r.isLocal = true → r.nact = 0) : ∀ c ∈ s.opters, i ∉ ordOf s c := by
  intro c hc hm
  have htl : i ∈ (ordOf s c).tail := by
    cases hol : ordOf s c with
    | nil => rw [hol] at hm; simp at hm
    | cons a l =>
      rw [hol] at hm
      rcases List.mem_cons.mp hm with rfl | hm
      · obtain ⟨q, hq, hst⟩ := h.heads c i (by rw [hol]; rfl)
        rw [hi] at hq; cases hq; rw [hs] at hst; cases hst
      · exact hm
  have h1 := h.nact1 i r hi hs c hc htl
  obtain ⟨k, hk⟩ := List.mem_iff_getElem?.mp htl
  rw [List.getElem?_tail] at hk
  obtain ⟨q, hq, _, hl⟩ := h.points c k i hk
  rw [hi] at hq; cases hq
  have := hn hl
  omega

/-- **C62** Runs are started only at evaluated rows with finite value that have not been used, that are in no active run, at least `mu` from the boundary
and at least `nu` from the minima found, with no strictly better evaluated point within `r_k`; a local point is no minimum, a sample point is not paused. -/
theorem C62_sound_partial {cf : Cfg α} {H : List (ARow α)} {s : St α} (h : Decides cf H s) (i : Nat)
    (hi : i ∈ startInds cf.geo s.rows (cf.rk s.ns) cf.mu cf.nu) :
    ∃ r R, Fit cf s i r ∧ cf.rk s.ns = some R ∧
      (∀ (j : Nat) (o : ARow α), s.rows[j]? = some o → Evaluated o → FVal.lt o.f r.f = true → R < cf.geo.dist r.x o.x) ∧
      (r.isLocal = true → r.lmin = false) ∧ (r.isLocal = false → r.paused = false) := by
  obtain ⟨n, o, m⟩ := h.mid
  obtain ⟨r, hr, hs⟩ := startInds_mem.mp hi
  obtain ⟨⟨hf, ht, hdl⟩, hk⟩ := startable_iff.mp hs
  obtain ⟨t1, t2, t3, t4, t5⟩ := tests_iff.mp ht
  obtain ⟨f1, f2⟩ := finite_iff.mp hf
  have he : Evaluated r := ⟨t1, f2⟩
  have hkn := m.told i r hr (evaluated_iff.mp he)
  cases hrk : cf.rk s.ns with
  | none => rw [hrk, farther_none] at hdl; cases hdl
  | some R =>
    refine ⟨r, R, ⟨hr, he, f1, t3, ?_, t5, ?_⟩, rfl, ?_, ?_, ?_⟩
    · rw [m.dist.bnd i r hr hkn] at t4; simpa [atLeast] using t4
    · refine m.book.idle hr t3 fun hl => ?_
      rw [if_pos hl] at hk; exact hk.1
    · intro j q hq hev hlt
      obtain ⟨e, h1, h2⟩ := (m.dist.says m.told hr he q.isLocal).closest j q ⟨hq, hev, rfl⟩ hlt
      have hfar : farther (r.d q.isLocal) (some R) = true := by
        rw [hrk] at hdl t2
        unfold ARow.d; split
        · exact hdl
        · exact t2
      rw [h1] at hfar
      have : R < e := by simpa [farther] using hfar
      omega
    · intro hl; rw [if_pos hl] at hk; exact hk.2
    · intro hl; rw [hl] at hk; exact hk

/-- **C62** Every such row at which no other evaluated point at least as good is within `r_k` is chosen. -/
theorem C62_complete_partial {cf : Cfg α} {H : List (ARow α)} {s : St α} (h : Decides cf H s) (i : Nat) (r : ARow α) (R : Int) (hf : Fit cf s i r)
    (hR : cf.rk s.ns = some R)
    (hd : ∀ (j : Nat) (o : ARow α), s.rows[j]? = some o → Evaluated o → j ≠ i → FVal.lt r.f o.f = false → R < cf.geo.dist r.x o.x)
    (hl : r.isLocal = true → r.lmin = false) (hp : r.isLocal = false → r.paused = false) :
    i ∈ startInds cf.geo s.rows (cf.rk s.ns) cf.mu cf.nu := by
  obtain ⟨n, o, m⟩ := h.mid
  have he := hf.evaluated
  have hkn := m.told i r hf.row (evaluated_iff.mp he)
  have far : ∀ k, farther (r.d k) (cf.rk s.ns) = true := by
    intro k
    rw [hR]
    cases hk : r.d k with
    | none => rfl
    | some e =>
      obtain ⟨j, q, h1, h2, _, h4, h5⟩ := (m.dist.says m.told hf.row he k).point e hk
      have := hd j q h1.1 h1.2.1 h2 h4
      simp [farther]; omega
  refine startInds_mem.mpr ⟨r, hf.row, startable_iff.mpr ⟨⟨finite_iff.mpr ⟨hf.finite, he.2⟩,
    tests_iff.mpr ⟨he.1, far false, hf.unused, ?_, hf.away⟩, far true⟩, ?_⟩⟩
  · rw [m.dist.bnd i r hf.row hkn]; simpa [atLeast] using hf.inside
  · cases hk : r.isLocal with
    | true =>
      rw [if_pos rfl]
      exact ⟨m.book.nact0 i r hf.row hf.unused fun c hc hm => hf.idle c hc (List.mem_of_mem_tail hm), hl hk⟩
    | false => exact hp hk

theorem insertBy_perm (v : Nat → FVal) (i : Nat) (l : List Nat) : (insertBy v i l).Perm (i :: l) := by
  induction l with
  | nil => exact List.Perm.refl _
  | cons j l ih =>
    rw [insertBy]
    split
    · exact (ih.cons j).trans (List.Perm.swap i j l)
    · exact List.Perm.refl _

theorem sort_perm (v : Nat → FVal) (l : List Nat) : (l.foldr (insertBy v) []).Perm l := by
  induction l with
  | nil => exact List.Perm.refl _
  | cons i l ih => exact (insertBy_perm v i _).trans (ih.cons i)

theorem insertBy_sorted (v : Nat → FVal) (i : Nat) (l : List Nat) (hv : ∀ j ∈ i :: l, v j ≠ .nan) (h : l.Pairwise fun a b => FVal.lt (v b) (v a) = false) :
    (insertBy v i l).Pairwise fun a b => FVal.lt (v b) (v a) = false := by
  induction l with
  | nil => simp [insertBy]
  | cons j l ih =>
    obtain ⟨h1, h2⟩ := List.pairwise_cons.mp h
    rw [insertBy]
    split
    · rename_i hlt
      refine List.pairwise_cons.mpr ⟨fun a ha => ?_, ih (fun b hb => hv b ?_) h2⟩
      · rcases List.mem_cons.mp ((insertBy_perm v i l).mem_iff.mp ha) with rfl | ha
        · exact lt_asymm hlt
        · exact h1 a ha
      · rcases List.mem_cons.mp hb with rfl | hb
        · exact List.mem_cons_self
        · exact List.mem_cons_of_mem _ (List.mem_cons_of_mem _ hb)
    · rename_i hlt
      refine List.pairwise_cons.mpr ⟨fun a ha => ?_, h⟩
      have hji : FVal.lt (v j) (v i) = false := by simpa using hlt
      rcases List.mem_cons.mp ha with rfl | ha
      · exact hji
      · exact not_lt_trans (hv j (List.mem_cons_of_mem _ List.mem_cons_self)) (h1 a ha) hji

theorem sort_sorted (v : Nat → FVal) (l : List Nat) (hv : ∀ j ∈ l, v j ≠ .nan) : (l.foldr (insertBy v) []).Pairwise fun a b => FVal.lt (v b) (v a) = false := by
  induction l with
  | nil => exact List.Pairwise.nil
  | cons i l ih =>
    refine insertBy_sorted v i _ (fun j hj => ?_) (ih fun j hj => hv j (List.mem_cons_of_mem _ hj))
    rcases List.mem_cons.mp hj with rfl | hj
    · exact hv _ List.mem_cons_self
    · exact hv _ (List.mem_cons_of_mem _ ((sort_perm v l).mem_iff.mp hj))

/-- **C62** The rows chosen are pairwise different and sorted by value: a row is never tried before one with a smaller value. -/
theorem C62_sorted (g : Geo α) (rows : List (ARow α)) (rk : Option Int) (mu nu : Int) :
    (startInds g rows rk mu nu).Nodup ∧
    (startInds g rows rk mu nu).Pairwise fun a b => ∀ r o, rows[a]? = some r → rows[b]? = some o → FVal.lt o.f r.f = false := by
  have wh : ∀ (p : ARow α → Bool) (i : Nat), i ∈ indsWhere rows p → ∃ r, rows[i]? = some r ∧ p r = true := by
    intro p i hi
    simp only [indsWhere, List.mem_filter] at hi
    cases h : rows[i]? with
    | none => simp [h] at hi
    | some r => exact ⟨r, rfl, by simpa [h] using hi.2⟩
  refine ⟨(sort_perm _ _).nodup_iff.mpr ?_, ?_⟩
  · rw [List.nodup_append]
    refine ⟨List.nodup_range.filter _, List.nodup_range.filter _, fun a ha b hb e => ?_⟩
    subst e
    obtain ⟨r, h1, h2⟩ := wh _ a ha
    obtain ⟨q, h3, h4⟩ := wh _ a hb
    rw [h1] at h3; cases h3
    simp only [ARow.sampleStart, ARow.localStart, Bool.and_eq_true, Bool.not_eq_true'] at h2 h4
    rw [h2.1.1.1.1] at h4
    simp at h4
  · have hs : (startInds g rows rk mu nu).Pairwise fun a b => FVal.lt (valueAt rows b) (valueAt rows a) = false := by
      refine sort_sorted _ _ fun j hj => ?_
      have : j ∈ startInds g rows rk mu nu := (sort_perm _ _).mem_iff.mpr hj
      obtain ⟨r, hr, hst⟩ := startInds_mem.mp this
      have := (finite_iff.mp (startable_iff.mp hst).1.1).2
      simpa [valueAt, hr] using this
    refine hs.imp fun {a b} hab r o hr ho => ?_
    simpa [valueAt, hr, ho] using hab

/-- **C62** In every completed pass, runs are started exactly at the first of the rows chosen, as many as `max_active_runs` leaves room for. -/
theorem C62_started {cf : Cfg α} {H : List (ARow α)} {s s' : St α} {vals : List (Nat × FVal)} (h : Reach cf H s)
    (hf : s.sent = true → Fresh s.rows vals) (hp : pass cf s (.work vals) = .ok (some s')) :
    ∃ s1, Decides cf H s1 ∧ (s.sent = false → s1 = s) ∧
      startsOf s'.tr = startsOf s.tr ++ (startInds cf.geo s1.rows (cf.rk s1.ns) cf.mu cf.nu).take (match cf.maxActive with
        | none => (startInds cf.geo s1.rows (cf.rk s1.ns) cf.mu cf.nu).length
        | some m => m - s1.opters.length) := by
  have hv := h.inv
  unfold pass at hp
  cases hs : s.sent with
  | false =>
    rw [hs] at hp
    simp only [Bool.false_eq_true, if_false] at hp
    rcases hv.mid.finishPass 0 with ⟨e, he, _⟩ | ⟨s2, e2, _, _, _, _, h5⟩
    · rw [he] at hp; cases hp
    · rw [e2] at hp; cases hp; exact ⟨s, .first h hs, fun _ => rfl, h5⟩
  | true =>
    rw [hs] at hp
    simp only [if_true] at hp
    cases hen : enough cf s with
    | true => rw [hen] at hp; simp at hp
    | false =>
      rw [hen] at hp
      simp only [Bool.false_eq_true, if_false] at hp
      obtain ⟨s1, e1, m1, _, _, ts1, _⟩ := hv.receive (hf hs)
      rw [e1] at hp
      dsimp only at hp
      rcases m1.passRows with e2 | ⟨s2, o2, e2, m2, _, _, ts2⟩
      · rw [e2] at hp; cases hp
      · rw [e2] at hp
        dsimp only at hp
        rcases m2.finishPass vals.length with ⟨e, he, _⟩ | ⟨s3, e3, _, _, _, _, h5⟩
        · rw [he] at hp; cases hp
        · rw [e3] at hp; cases hp
          exact ⟨s2, .later h hs hen (hf hs) e1 e2, by simp, by rw [← ts1, ← ts2]; exact h5⟩

/-- **C62** When all sample points are evaluated, there is one of smallest value that is chosen whenever it meets the conditions that do not concern other
sample points (so equal values do not keep APOSMM from starting). -/
theorem C62_best_partial {cf : Cfg α} {H : List (ARow α)} {s : St α} (h : Decides cf H s) (hs : ∃ r ∈ s.rows, r.isLocal = false)
    (he : ∀ r ∈ s.rows, r.isLocal = false → Evaluated r) :
    ∃ i r, IsPoint s.rows i r false ∧ (∀ o ∈ s.rows, o.isLocal = false → FVal.lt o.f r.f = false) ∧
      ∀ R, Fit cf s i r → cf.rk s.ns = some R → r.paused = false →
        (∀ (j : Nat) (o : ARow α), IsPoint s.rows j o true → FVal.lt r.f o.f = false → R < cf.geo.dist r.x o.x) →
        i ∈ startInds cf.geo s.rows (cf.rk s.ns) cf.mu cf.nu := by
  obtain ⟨n, o, m⟩ := h.mid
  obtain ⟨r, hr, hl, hd⟩ := m.best hs
  obtain ⟨i, hi⟩ := List.mem_iff_getElem?.mp hr
  have hev := he r hr hl
  refine ⟨i, r, ⟨hi, hev, hl⟩, fun q hq hql => ?_, fun R hf hR hp hloc => ?_⟩
  · cases hlt : FVal.lt q.f r.f with
    | false => rfl
    | true =>
      obtain ⟨j, hj⟩ := List.mem_iff_getElem?.mp hq
      obtain ⟨e, h1, _⟩ := (m.dist.says m.told hi hev false).closest j q ⟨hj, he q hq hql, hql⟩ hlt
      simp only [ARow.d, Bool.false_eq_true, if_false, hd] at h1
      cases h1
  · have far : farther r.dl (cf.rk s.ns) = true := by
      rw [hR]
      cases hk : r.dl with
      | none => rfl
      | some e =>
        obtain ⟨j, q, h1, _, _, h4, h5⟩ := (m.dist.says m.told hi hev true).point e hk
        have := hloc j q h1 h4
        simp [farther]; omega
    have hkn := m.told i r hi (evaluated_iff.mp hev)
    refine startInds_mem.mpr ⟨r, hi, startable_iff.mpr ⟨⟨finite_iff.mpr ⟨hf.finite, hev.2⟩,
      tests_iff.mpr ⟨hev.1, by rw [hd, hR]; rfl, hf.unused, ?_, hf.away⟩, far⟩, by rw [hl]; exact hp⟩⟩
    rw [m.dist.bnd i r hi hkn]; simpa [atLeast] using hf.inside

/-! ### The runs -/

/-- **C63** A pass fails only because of an optimizer: with results for rows that have none, each once, the assertion on the distances holds, every
index exists and every value finds its run. -/
theorem C63_errors {cf : Cfg α} {H : List (ARow α)} {s : St α} {vals : List (Nat × FVal)} (h : Reach cf H s)
    (hf : s.sent = true → Fresh s.rows vals) (e : Err) (hp : pass cf s (.work vals) = .error e) : e = .optimizer ∨ e = .badStart := by
  rcases h.inv.pass hf with ⟨e1, _⟩ | ⟨e1, he, hoe⟩ | ⟨s', e1, _⟩
  · rw [e1] at hp; cases hp
  · rw [he] at hp; cases hp; exact hoe
  · rw [e1] at hp; cases hp

/-- **C63** The start fails only without any sample point. -/
theorem C63_begin (cf : Cfg α) {H : List (ARow α)} (h : Given H) (e : Err) (hb : begin cf H = .error e) :
    e = .noPoints ∧ cf.initial = 0 ∧ ∀ r ∈ H, r.isLocal = true := by
  rcases begin_spec cf h with ⟨e1, h2⟩ | ⟨s, e1, _⟩
  · rw [e1] at hb; cases hb; exact ⟨rfl, h2⟩
  · rw [e1] at hb; cases hb

/-- **C63** What a run has been given: the point it was started at and then, in order and each once, the points it asked for.  A run that has not ended waits for
exactly one further point, which it asked for last and which is not evaluated; a run that has ended was given everything, and answered the end last. -/
theorem C63_own_points {cf : Cfg α} {H : List (ARow α)} {s : St α} (h : Reach cf H s) (c : Nat) (hc : c < s.order.length) :
    (ordOf s c).Pairwise (· < ·) ∧
    (∀ (k i : Nat), (ordOf s c)[k + 1]? = some i → ∃ r, s.rows[i]? = some r ∧ cf.ans c k = .point r.x ∧ r.isLocal = true) ∧
    ((c ∈ s.opters ∧ c ∉ s.endedRuns ∧ ∃ p r, ordOf s c = passed s.tr c ++ [p] ∧ passed s.tr c ≠ [] ∧ s.rows[p]? = some r ∧ r.ended = false) ∨
     (c ∈ s.endedRuns ∧ c ∉ s.opters ∧ ordOf s c = passed s.tr c ∧ ∃ x flag, cf.ans c ((passed s.tr c).length - 1) = .conv x flag)) := by
  have b := h.inv.book
  refine ⟨b.incr c, b.points c, ?_⟩
  by_cases hm : c ∈ s.opters
  · obtain ⟨p, h1, h2, h3⟩ := b.live c ⟨hm, by simp⟩
    obtain ⟨r, hr, he⟩ : ∃ r, s.rows[p]? = some r ∧ r.ended = false := by
      rcases h2 with h2 | h2
      · exact h2
      · simp at h2
    refine .inl ⟨hm, fun he' => ((b.endd c).mp he').2 hm, p, r, h1, fun hn => ?_, hr, he⟩
    have ht := (b.owner p c).mp h3
    rw [h1, hn] at ht
    simp at ht
  · have hen := (b.endd c).mpr ⟨hc, hm⟩
    refine .inr ⟨hen, hm, b.done c fun hw => hm hw.1, ?_⟩
    rw [← b.calls]; exact b.concl c hen

/-- **C63** No point is asked for by two runs, and `max_active_runs` is respected. -/
theorem C63_apart {cf : Cfg α} {H : List (ARow α)} {s : St α} (h : Reach cf H s) :
    (∀ c d i, i ∈ (ordOf s c).tail → i ∈ (ordOf s d).tail → c = d) ∧ (∀ m, cf.maxActive = some m → s.opters.length ≤ m) ∧ s.opters.Nodup := by
  have b := h.inv.book
  refine ⟨fun c d i h1 h2 => ?_, b.lim, b.nodup⟩
  have e1 := (b.owner i c).mpr h1
  rw [(b.owner i d).mpr h2] at e1
  cases e1; rfl

/-- **C63** What the rows hold.  Given rows keep their points; rows created for samples have the points of the sampler.  A row is evaluated exactly if
a result was received for it (or, for a given row, if it was evaluated before), its value is the value received, and no result was received for an evaluated row
or twice. -/
theorem C63_values {cf : Cfg α} {H : List (ARow α)} {s : St α} (h : Reach cf H s) :
    (∀ (i : Nat) (r0 : ARow α), H[i]? = some r0 → ∃ r, s.rows[i]? = some r ∧ r.x = r0.x ∧ r.isLocal = r0.isLocal ∧
      ((r.ended = r0.ended ∧ (r0.ended = true → r.f = r0.f) ∧ ∀ v, (i, v) ∉ gotVals s.tr) ∨ (r0.ended = false ∧ r.ended = true ∧ (i, r.f) ∈ gotVals s.tr))) ∧
    (∀ (i : Nat) (r : ARow α), H.length ≤ i → s.rows[i]? = some r → (r.isLocal = false → r.x = cf.samp i) ∧
      (r.ended = true ↔ ∃ v, (i, v) ∈ gotVals s.tr) ∧ ∀ v, (i, v) ∈ gotVals s.tr → r.f = v) ∧
    ((gotVals s.tr).map (·.1)).Nodup := by
  have hv := h.vals
  have no : ∀ i, i ∉ (gotVals s.tr).map (·.1) → ∀ v, (i, v) ∉ gotVals s.tr := fun i hi v hm => hi (List.mem_map.mpr ⟨(i, v), hm, rfl⟩)
  have uni : ∀ i v w, (i, v) ∈ gotVals s.tr → (i, w) ∈ gotVals s.tr → v = w := by
    have : ∀ l : List (Nat × FVal), (l.map (·.1)).Nodup → ∀ i v w, (i, v) ∈ l → (i, w) ∈ l → v = w := by
      intro l
      induction l with
      | nil => simp
      | cons a l ih =>
        intro hn i v w h1 h2
        simp only [List.map_cons, List.nodup_cons] at hn
        rcases List.mem_cons.mp h1 with rfl | k1 <;> rcases List.mem_cons.mp h2 with e | k2
        · cases e; rfl
        · exact absurd (List.mem_map.mpr ⟨_, k2, rfl⟩) hn.1
        · subst e; exact absurd (List.mem_map.mpr ⟨_, k1, rfl⟩) hn.1
        · exact ih hn.2 i v w k1 k2
    exact this _ hv.once
  refine ⟨fun i r0 hi => ?_, fun i r hl hi => ?_, hv.once⟩
  · obtain ⟨r, h1, h2, h3, h4⟩ := hv.given i r0 hi
    refine ⟨r, h1, h2, h3, ?_⟩
    rcases h4 with ⟨a, b, c⟩ | ⟨a, b, c⟩
    · exact .inl ⟨b, c, no i a⟩
    · exact .inr ⟨a, b, c⟩
  · obtain ⟨h1, h2⟩ := hv.made i r hl hi
    refine ⟨h1, ?_⟩
    rcases h2 with ⟨a, b, _⟩ | ⟨_, b, c⟩
    · exact ⟨⟨fun he => (by rw [b] at he; cases he), fun ⟨v, hm⟩ => absurd hm (no i a v)⟩, fun v hm => absurd hm (no i a v)⟩
    · exact ⟨⟨fun _ => ⟨_, c⟩, fun _ => b⟩, fun v hm => uni i _ _ c hm⟩

/-- **C62** The number of sample points that determines `r_k` is that of the given sample points plus the sample points for which a result has been received. -/
theorem C62_samples {cf : Cfg α} {H : List (ARow α)} {s : St α} (h : Reach cf H s) :
    s.ns = H.countP (fun r => !r.isLocal) + (gotVals s.tr).countP fun v => decide (∃ r ∈ s.rows[v.1]?, r.isLocal = false) := by
  rw [h.vals.count]
  congr 1
  refine List.countP_congr fun v _ => ?_
  unfold isSample
  cases s.rows[v.1]? <;> simp

/-- **C63** The rows created are sent to the manager, each once and in order. -/
theorem C63_sent {cf : Cfg α} {H : List (ARow α)} {s : St α} (h : Reach cf H s) :
    sentNew s.tr = List.range' H.length (s.rows.length - H.length) ∧ ∀ (i : Nat) (r : ARow α), s.rows[i]? = some r → r.sid = i :=
  ⟨h.inv.sent.2, h.inv.dist.ids⟩

/-- **C63** A pass creates at least as many rows as results came in; the first one at least as many as there are other workers. -/
theorem C63_busy {cf : Cfg α} {H : List (ARow α)} {s s' : St α} {vals : List (Nat × FVal)} (h : Reach cf H s)
    (hf : s.sent = true → Fresh s.rows vals) (hp : pass cf s (.work vals) = .ok (some s')) :
    (s.first = true → s.rows.length + (cf.nworkers - 1) ≤ s'.rows.length) ∧
    (s.first = false → s.sent = true → s.rows.length + vals.length ≤ s'.rows.length) := by
  rcases h.inv.pass hf with ⟨e1, _⟩ | ⟨e1, he, _⟩ | ⟨s2, e1, _, _, _, h5⟩
  · rw [e1] at hp; cases hp
  · rw [he] at hp; cases hp
  · rw [e1] at hp; cases hp
    refine ⟨fun hfi => ?_, fun hfi hs => ?_⟩
    · rw [if_pos hfi] at h5; exact h5
    · rw [if_neg (by simp [hfi]), if_pos hs] at h5; exact h5

/-- **C63** For every run that has ended one row is reported, in the order of the ends: the row of the run that is closest to the point the optimizer ended
with, and marked as a minimum if the optimizer claims one. -/
theorem C63_reported {cf : Cfg α} {H : List (ARow α)} {s : St α} (h : Reach cf H s) :
    (sentOpt s.tr).length = s.endedRuns.length ∧ ∀ (k j c : Nat), (sentOpt s.tr)[k]? = some j → s.endedRuns[k]? = some c →
      j ∈ ordOf s c ∧ ∃ x flag r, cf.ans c ((passed s.tr c).length - 1) = .conv x flag ∧ s.rows[j]? = some r ∧ (flag = true → r.lmin = true) ∧
        ∀ i ∈ ordOf s c, ∀ q, s.rows[i]? = some q → cf.geo.dist r.x x ≤ cf.geo.dist q.x x := by
  refine ⟨h.inv.rep.1, fun k j c h1 h2 => ?_⟩
  obtain ⟨hm, hn⟩ := h.inv.rep.2 k j c h1 h2
  rw [h.inv.book.calls] at hn
  exact ⟨hm, hn⟩

/-- **C63** The generator returns exactly when it is told to stop, or when at least `stop_after_k_minima` rows are marked as minima or at least
`stop_after_k_runs` runs have been reported. -/
theorem C63_ends {cf : Cfg α} {H : List (ARow α)} {s : St α} (h : Reach cf H s) (m : Msg) : pass cf s m = .ok none ↔ s.sent = true ∧
    (m = .stop ∨ (∃ k, cf.stopMinima = some k ∧ k ≤ (s.rows.filter (·.lmin)).length) ∨ (∃ k, cf.stopRuns = some k ∧ k ≤ (sentOpt s.tr).length)) := by
  have hen : enough cf s = true ↔ (∃ k, cf.stopMinima = some k ∧ k ≤ (s.rows.filter (·.lmin)).length) ∨ (∃ k, cf.stopRuns = some k ∧ k ≤ (sentOpt s.tr).length) := by
    rw [h.inv.rep.1, ← List.countP_eq_length_filter]
    unfold enough
    cases cf.stopMinima <;> cases cf.stopRuns <;> simp
  rw [← hen]
  unfold pass
  constructor
  · intro hp
    split at hp
    · rename_i hs
      refine ⟨hs, ?_⟩
      cases m with
      | stop => exact .inl rfl
      | work vals =>
        dsimp only at hp
        split at hp
        · rename_i he; exact .inr he
        · (repeat' split at hp) <;> cases hp
    · split at hp <;> cases hp
  · rintro ⟨hs, hm⟩
    rw [if_pos hs]
    cases m with
    | stop => rfl
    | work vals =>
      rcases hm with hm | hm
      · cases hm
      · simp [hm]

/-- **C63** A row is marked as a minimum only if it was so from the start or belongs to a run that ended with a claim to a minimum. -/
theorem C63_minima {cf : Cfg α} {H : List (ARow α)} {s : St α} (h : Reach cf H s) (i : Nat) (r : ARow α) (hi : s.rows[i]? = some r) (hm : r.lmin = true) :
    (∃ r0, H[i]? = some r0 ∧ r0.lmin = true) ∨
    ∃ c ∈ s.endedRuns, i ∈ ordOf s c ∧ ∃ x, cf.ans c ((passed s.tr c).length - 1) = .conv x true := by
  rcases h.inv.book.mins i r hi hm with h1 | ⟨c, hc, h2, x, h3⟩
  · exact .inl h1
  · rw [h.inv.book.calls] at h3
    exact .inr ⟨c, hc, h2, x, h3⟩

end Verif.Aposmm
