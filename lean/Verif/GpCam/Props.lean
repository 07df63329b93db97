import Verif.GpCam.Model

/-!
# C82 — points chosen by variance are spread, the search for them ends, and results are told for their points
-/

namespace Verif.GpCam

variable {X Y : Type}

/-! ### Specification -/

/-- Any two of the points are at least `num / den` apart. -/
def Spread (d : X → X → Int) (num den : Int) (es : List X) : Prop := es.Pairwise fun e p => num ≤ d p e * den

/-! ### The points of one round -/

theorem farEnough_iff (d : X → X → Int) (num den : Int) (p : X) (es : List X) : farEnough d num den p es = true ↔ ∀ e ∈ es, num ≤ d p e * den := by
  simp [farEnough, List.all_eq_true, Int.not_lt]

theorem pick_spec (d : X → X → Int) (num den : Int) (b : Nat) (ps : List X) : ∀ es : List X, es.length < b → Spread d num den es →
    Spread d num den (pick d num den b ps es) ∧ (pick d num den b ps es).length ≤ b ∧
      ∃ ch, pick d num den b ps es = es ++ ch ∧ ch.Sublist ps := by
  induction ps with
  | nil => intro es hb hs; exact ⟨hs, by simp only [pick]; omega, [], by simp [pick], List.Sublist.refl _⟩
  | cons p ps ih =>
    intro es hb hs
    simp only [pick]
    split
    next hf =>
      have hf' := (farEnough_iff d num den p es).1 hf
      have hs' : Spread d num den (es ++ [p]) := by
        unfold Spread at hs ⊢
        rw [List.pairwise_append]
        exact ⟨hs, by simp, fun a ha c hc => by rw [List.mem_singleton.1 hc]; exact hf' a ha⟩
      split
      next hl => exact ⟨hs', by simp; omega, [p], rfl, by simp⟩
      next hl =>
        obtain ⟨h1, h2, ch, h3, h4⟩ := ih (es ++ [p]) (by simp; omega) hs'
        exact ⟨h1, h2, p :: ch, by rw [h3]; simp, h4.cons₂ p⟩
    next hf =>
      obtain ⟨h1, h2, ch, h3, h4⟩ := ih es hb hs
      exact ⟨h1, h2, ch, h3, h4.cons p⟩

/-- Too few points: every candidate is close to a chosen one. -/
theorem pick_cover (d : X → X → Int) (num den : Int) (b : Nat) (hself : ∀ p, d p p * den < num) (ps : List X) : ∀ es : List X, es.length < b →
    (pick d num den b ps es).length < b → ∀ p ∈ ps, ∃ e ∈ pick d num den b ps es, d p e * den < num := by
  induction ps with
  | nil => intro es _ _ p hp; cases hp
  | cons q ps ih =>
    intro es hb hlt p hp
    have mono : ∀ es', es'.length < b → ∀ e ∈ es', e ∈ pick d num den b ps es' := by
      intro es' hb' e he
      have aux : ∀ (l es' : List X), ∀ e ∈ es', e ∈ pick d num den b l es' := by
        intro l
        induction l with
        | nil => intro es' e he; exact he
        | cons a l ihl =>
          intro es' e he
          simp only [pick]
          split
          · split
            · exact List.mem_append_left _ he
            · exact ihl _ e (List.mem_append_left _ he)
          · exact ihl _ e he
      exact aux ps es' e he
    simp only [pick] at hlt ⊢
    split at hlt
    next hf =>
      split at hlt
      next hl => simp at hlt; omega
      next hl =>
        rw [if_pos hf, if_neg hl]
        rcases List.mem_cons.1 hp with rfl | hp
        · exact ⟨p, mono _ (by simp; omega) p (by simp), hself p⟩
        · exact ih _ (by simp; omega) hlt p hp
    next hf =>
      rw [if_neg hf]
      rcases List.mem_cons.1 hp with rfl | hp
      · have : ∃ e ∈ es, d p e * den < num := by
          by_cases hex : ∃ e ∈ es, d p e * den < num
          · exact hex
          · refine absurd ((farEnough_iff d num den p es).2 fun e he => ?_) hf
            exact Int.not_lt.1 fun hlt => hex ⟨e, he, hlt⟩
        obtain ⟨e, he, hd⟩ := this
        exact ⟨e, mono es hb e he, hd⟩
      · exact ih es hb hlt p hp

theorem cover_length (R : X → X → Bool) (m : Nat) (es : List X) : ∀ ps : List X, (∀ p ∈ ps, ∃ e ∈ es, R p e = true) →
    (∀ e ∈ es, ps.countP (R · e) ≤ m) → ps.length ≤ es.length * m := by
  induction es with
  | nil =>
    intro ps h _
    cases ps with
    | nil => simp
    | cons p ps => obtain ⟨e, he, _⟩ := h p (by simp); cases he
  | cons e es ih =>
    intro ps h hm
    have h1 := ih (ps.filter fun p => !R p e) (by
      intro p hp
      have ⟨hp1, hp2⟩ := List.mem_filter.1 hp
      obtain ⟨e', he', hr⟩ := h p hp1
      rcases List.mem_cons.1 he' with rfl | he'
      · simp [hr] at hp2
      · exact ⟨e', he', hr⟩) (by
      intro e' he'
      exact Nat.le_trans (List.Sublist.countP_le List.filter_sublist) (hm e' (by simp [he'])))
    have h2 := hm e (by simp)
    have h3 : ps.length = ps.countP (R · e) + (ps.filter fun p => !R p e).length := by
      rw [← List.countP_eq_length_filter]
      have := List.length_eq_countP_add_countP (R · e) (l := ps)
      simpa using this
    rw [List.length_cons, Nat.succ_mul]
    omega

/-! ### Radii -/

theorem radius_eq (low high : Int) (k : Nat) : radius low high k = low * 2 ^ k + (high - low) := by
  induction k with
  | zero => simp [radius]; omega
  | succ k ih => rw [radius, ih, Int.pow_succ]; generalize (2 : Int) ^ k = t; rw [← Int.mul_assoc]; omega

theorem two_pow_pos (k : Nat) : (0 : Int) < 2 ^ k := Int.pow_pos (by decide)

/-- A distance above the lower radius is at some time allowed; one that is not above it never is. -/
theorem radius_far (low high x : Int) (hlh : low < high) (k : Nat) (hx : x ≤ low) : x * 2 ^ k < radius low high k := by
  rw [radius_eq]
  have := Int.mul_le_mul_of_nonneg_right hx (Int.le_of_lt (two_pow_pos k))
  omega

theorem lt_two_pow_int (n : Int) : n < 2 ^ n.toNat := by
  have h : n.toNat < 2 ^ n.toNat := Nat.lt_two_pow_self
  have h2 : ((n.toNat : Nat) : Int) < ((2 ^ n.toNat : Nat) : Int) := Int.ofNat_lt.2 h
  rw [Int.natCast_pow] at h2
  have : ((2 : Nat) : Int) = 2 := rfl
  rw [this] at h2
  omega

theorem radius_near (low high x : Int) (hx : low < x) : radius low high (high - low).toNat ≤ x * 2 ^ (high - low).toNat := by
  rw [radius_eq]
  have h := lt_two_pow_int (high - low)
  have hp := two_pow_pos (high - low).toNat
  generalize (2 : Int) ^ (high - low).toNat = t at h hp ⊢
  have : (low + 1) * t ≤ x * t := Int.mul_le_mul_of_nonneg_right (by omega) (by omega)
  rw [Int.add_mul, Int.one_mul] at this
  omega

/-! ### The loop -/

theorem search_some (d : X → X → Int) (low high : Int) (b : Nat) (ps : List X) : ∀ (fuel k : Nat) (x y : List X),
    search d low high b ps fuel k x = some y → b ≤ y.length ∧ (y = x ∨ ∃ j, k ≤ j ∧ y = round d low high b ps j) := by
  intro fuel
  induction fuel with
  | zero =>
    intro k x y h
    unfold search at h
    split at h
    next hb => cases h; exact ⟨hb, Or.inl rfl⟩
    next => cases h
  | succ fuel ih =>
    intro k x y h
    unfold search at h
    split at h
    next hb => cases h; exact ⟨hb, Or.inl rfl⟩
    next =>
      obtain ⟨h1, h2⟩ := ih _ _ _ h
      refine ⟨h1, Or.inr ?_⟩
      rcases h2 with rfl | ⟨j, hj, rfl⟩
      · exact ⟨k, Nat.le_refl _, rfl⟩
      · exact ⟨j, by omega, rfl⟩

theorem search_ends (d : X → X → Int) (low high : Int) (b : Nat) (ps : List X) (K : Nat) (hK : b ≤ (round d low high b ps K).length) :
    ∀ (n k : Nat) (x : List X), k + n = K → ∃ y, search d low high b ps (n + 1) k x = some y := by
  intro n
  induction n with
  | zero =>
    intro k x hk
    unfold search
    split
    · exact ⟨_, rfl⟩
    · have : k = K := by omega
      subst this
      dsimp only
      unfold search
      rw [if_pos hK]
      exact ⟨_, rfl⟩
  | succ n ih =>
    intro k x hk
    unfold search
    split
    · exact ⟨_, rfl⟩
    · exact ih (k + 1) _ (by omega)

/-- **C82**: when the search ends its batch has exactly the wanted size, and there is a round such that any two points of the batch are at least the radius of
the round apart — more than the lower radius —, and the points are candidates, each taken at most once and in the order of the variances. -/
theorem C82_spread (d : X → X → Int) (low high : Int) (hlh : low < high) (b : Nat) (hb : 0 < b) (ps : List X) (fuel : Nat) (y : List X)
    (h : search d low high b ps fuel 0 [] = some y) :
    y.length = b ∧ y.Sublist ps ∧ y.Pairwise (fun e p => low < d p e) ∧
      ∃ k, Spread d (radius low high k) (2 ^ k) y := by
  obtain ⟨h1, h2⟩ := search_some d low high b ps fuel 0 [] y h
  rcases h2 with rfl | ⟨k, _, rfl⟩
  · simp at h1; omega
  · obtain ⟨s1, s2, ch, s3, s4⟩ := pick_spec d (radius low high k) (2 ^ k) b ps [] (by simpa using hb) List.Pairwise.nil
    refine ⟨Nat.le_antisymm s2 h1, ?_, ?_, k, s1⟩
    · unfold round; rw [s3]; simpa using s4
    · refine List.Pairwise.imp ?_ s1
      intro e p hr
      by_cases hle : low < d p e
      · exact hle
      · have := radius_far low high (d p e) hlh k (by omega)
        omega

/-- The first candidate — the one of largest variance — is always in the batch, as its first point. -/
theorem C82_best (d : X → X → Int) (low high : Int) (b : Nat) (hb : 0 < b) (p : X) (ps : List X) (fuel : Nat) (y : List X)
    (h : search d low high b (p :: ps) fuel 0 [] = some y) : y.head? = some p := by
  obtain ⟨h1, h2⟩ := search_some d low high b (p :: ps) fuel 0 [] y h
  rcases h2 with rfl | ⟨k, _, rfl⟩
  · simp at h1; omega
  · unfold round
    simp only [pick, farEnough, List.all_nil, if_true, List.length_nil, List.nil_append]
    split
    · rfl
    · next hne =>
      obtain ⟨_, _, ch, h3, _⟩ := pick_spec d (radius low high k) (2 ^ k) b ps [p] (by simp; omega) (by simp [Spread])
      rw [h3]; rfl

/-- **C82**, ending: if no candidate has more than `m` candidates (itself included) within the lower radius, and there are `b * m` candidates, the search for
`b` points ends. -/
theorem C82_ends (d : X → X → Int) (low high : Int) (hlh : low < high) (hlow : 0 ≤ low) (hself : ∀ p, d p p = 0) (b m : Nat) (hb : 0 < b) (ps : List X)
    (hm : ∀ e ∈ ps, ps.countP (fun p => decide (d p e ≤ low)) ≤ m) (hn : b * m ≤ ps.length) (hps : ps ≠ []) :
    ∃ fuel y, search d low high b ps fuel 0 [] = some y := by
  refine ⟨(high - low).toNat + 1, search_ends d low high b ps (high - low).toNat ?_ _ 0 [] (by omega)⟩
  apply Nat.le_of_not_lt
  intro hlt
  let K := (high - low).toNat
  have hcov := pick_cover d (radius low high K) (2 ^ K) b
    (fun p => radius_far low high (d p p) hlh K (by rw [hself]; exact hlow)) ps [] (by simpa using hb) hlt
  obtain ⟨_, _, ch, s3, s4⟩ := pick_spec d (radius low high K) (2 ^ K) b ps [] (by simpa using hb) List.Pairwise.nil
  have hsub : ∀ e ∈ pick d (radius low high K) (2 ^ K) b ps [], e ∈ ps := by
    intro e he; rw [s3] at he; exact s4.subset (by simpa using he)
  have hlen := cover_length (fun p e => decide (d p e ≤ low)) m (pick d (radius low high K) (2 ^ K) b ps []) ps (by
    intro p hp
    obtain ⟨e, he, hd⟩ := hcov p hp
    refine ⟨e, he, ?_⟩
    by_cases hle : d p e ≤ low
    · simpa using hle
    · exact absurd (radius_near low high (d p e) (by omega)) (Int.not_le.2 hd)) (fun e he => hm e (hsub e he))
  have hlt' : (pick d (radius low high K) (2 ^ K) b ps []).length < b := hlt
  have hpos : 0 < ps.length := List.length_pos_iff.2 hps
  have hmpos : 0 < m := by
    rcases Nat.eq_zero_or_pos m with rfl | h
    · rw [Nat.mul_zero] at hlen; omega
    · exact h
  have : (pick d (radius low high K) (2 ^ K) b ps []).length * m < b * m := Nat.mul_lt_mul_of_pos_right hlt' hmpos
  omega

/-- The search does not end if there are fewer candidates than wanted points. -/
theorem C82_too_many (d : X → X → Int) (low high : Int) (b : Nat) (ps : List X) (hb : ps.length < b) (fuel : Nat) :
    search d low high b ps fuel 0 [] = none := by
  cases hs : search d low high b ps fuel 0 [] with
  | none => rfl
  | some y =>
    obtain ⟨h1, h2⟩ := search_some d low high b ps fuel 0 [] y hs
    rcases h2 with rfl | ⟨k, _, rfl⟩
    · simp at h1; omega
    · obtain ⟨_, _, ch, s3, s4⟩ := pick_spec d (radius low high k) (2 ^ k) b ps [] (by simp; omega) List.Pairwise.nil
      have := s4.length_le
      unfold round at h1
      rw [s3] at h1
      simp at h1
      omega

/-- Distances on a line whose points are `h` apart. -/
def line (h : Int) (i j : Nat) : Int := h * ((i : Int) - j).natAbs

theorem half_inj (l : List Nat) (h : l.Pairwise fun (e p : Nat) => 1 < ((p : Int) - e).natAbs) : (l.map (· / 2)).Nodup := by
  unfold List.Nodup
  rw [List.pairwise_map]
  exact h.imp fun {a b} hab heq => by omega

theorem nodup_bound (n : Nat) : ∀ l : List Nat, l.Nodup → (∀ x ∈ l, x < n) → l.length ≤ n := by
  induction n with
  | zero => intro l _ h; cases l with
    | nil => simp
    | cons a l => exact absurd (h a (by simp)) (by omega)
  | succ n ih =>
    intro l hl h
    have h1 := ih (l.erase n) (hl.erase n) (by
      intro x hx
      have := h x (List.mem_of_mem_erase hx)
      have hne : x ≠ n := fun he => by subst he; exact (hl.not_mem_erase) hx
      omega)
    have := List.length_erase (a := n) (l := l)
    split at this <;> omega

/-- **C82**, a mesh in one variable of `n` points: if more than half of them (rounded up) are wanted the search never ends, whatever the variances. -/
theorem C82_line (n : Nat) (h high : Int) (hh : 0 < h) (hhigh : h < high) (b : Nat) (hb : (n + 1) / 2 < b) (ps : List Nat) (hps : ps.Perm (List.range n))
    (fuel : Nat) : search (line h) h high b ps fuel 0 [] = none := by
  cases hs : search (line h) h high b ps fuel 0 [] with
  | none => rfl
  | some y =>
    obtain ⟨h1, h2, h3, _⟩ := C82_spread (line h) h high hhigh b (by omega) ps fuel y hs
    have hnd := half_inj y (h3.imp fun {e p} hlt => by
      unfold line at hlt
      by_cases hc : 1 < ((p : Int) - e).natAbs
      · exact hc
      · have hle : (((p : Int) - e).natAbs : Int) ≤ 1 := by omega
        have := Int.mul_le_mul_of_nonneg_left hle (Int.le_of_lt hh)
        omega)
    have := nodup_bound ((n + 1) / 2) _ hnd (by
      intro x hx
      obtain ⟨a, ha, rfl⟩ := List.mem_map.1 hx
      have := List.mem_range.1 (hps.subset (h2.subset ha))
      omega)
    simp at this
    omega

/-- The mesh of the code in one variable, ten points: a batch of three always comes. -/
theorem C82_line_ends (h high : Int) (hh : 0 < h) (hhigh : h < high) (b : Nat) (hb : 0 < b) (hb3 : b ≤ 3) (ps : List Nat) (hps : ps.Perm (List.range 10)) :
    ∃ fuel y, search (line h) h high b ps fuel 0 [] = some y := by
  refine C82_ends (line h) h high hhigh (Int.le_of_lt hh) (fun p => by simp [line]) b 3 hb ps (fun e _ => ?_) (by rw [hps.length_eq]; simp; omega)
    (by intro hnil; have := hps.length_eq; rw [hnil] at this; simp at this)
  have hiff : ∀ p : Nat, decide (line h p e ≤ h) = decide (p ≤ e + 1 ∧ e ≤ p + 1) := by
    intro p
    apply decide_eq_decide.2
    unfold line
    constructor
    · intro hle
      by_cases hc : ((p : Int) - e).natAbs ≤ 1
      · omega
      · have : (2 : Int) ≤ ((p : Int) - e).natAbs := by omega
        have := Int.mul_le_mul_of_nonneg_left this (Int.le_of_lt hh)
        omega
    · intro hle
      have : (((p : Int) - e).natAbs : Int) ≤ 1 := by omega
      have := Int.mul_le_mul_of_nonneg_left this (Int.le_of_lt hh)
      omega
  simp only [hiff]
  rw [hps.countP_eq, List.countP_eq_length_filter]
  have hnd : ((List.range 10).filter fun p => decide (p ≤ e + 1 ∧ e ≤ p + 1)).Nodup := List.nodup_range.filter _
  have := nodup_bound 3 (((List.range 10).filter fun p => decide (p ≤ e + 1 ∧ e ≤ p + 1)).map fun p => p + 1 - e) (by
    unfold List.Nodup
    rw [List.pairwise_map]
    refine List.Pairwise.imp_of_mem ?_ hnd
    intro a c ha hc hne heq
    have h1 := (List.mem_filter.1 ha).2
    have h2 := (List.mem_filter.1 hc).2
    simp at h1 h2
    omega) (by
    intro x hx
    obtain ⟨a, ha, rfl⟩ := List.mem_map.1 hx
    have h1 := (List.mem_filter.1 ha).2
    simp at h1
    omega)
  simpa using this

/-- The comment of `_find_eligible_points` (no point of the result has a point of larger variance within the radius) is not what it does: of three points in a
row, by falling variance, the third is chosen although the second is near. -/
theorem C82_comment_witness : pick (line 1) 2 1 5 [0, 1, 2] [] = [0, 2] ∧ line 1 2 1 < 2 := by decide

/-! ### Without a grid -/

/-- `argsort`: the positions, by rising value. -/
def IsArgsort (var : List Int) (asc : List Nat) : Prop :=
  asc.Perm (List.range var.length) ∧ asc.Pairwise fun i j => var.getD i 0 ≤ var.getD j 0

/-- **C82**, the class: of the candidates for which variances were computed, none that is left out has a larger variance than one that is suggested. -/
theorem C82_class (draw : Nat → List X) (V : X → Int) (argsort : List Int → List Nat) (b : Nat) (s : State X)
    (ha : IsArgsort ((draw s.calls).map V) (argsort ((draw s.calls).map V))) (hb : b ≤ (draw s.calls).length) :
    ∃ left, (nextClass argsort b (ingest draw V s) ++ left).Perm (draw s.calls) ∧ (nextClass argsort b (ingest draw V s)).length = b ∧
      ∀ p ∈ nextClass argsort b (ingest draw V s), ∀ q ∈ left, V q ≤ V p := by
  obtain ⟨hp, ho⟩ := ha
  simp only [nextClass, ingest, last]
  generalize argsort ((draw s.calls).map V) = asc at hp ho
  generalize draw s.calls = c at hp ho hb
  have hlen : asc.length = c.length := by rw [hp.length_eq]; simp
  have hin : ∀ i ∈ asc, i < c.length := fun i hi => by simpa using hp.subset hi
  have hfull : ∀ l : List Nat, (∀ i ∈ l, i < c.length) → (l.filterMap (c[·]?)).length = l.length := by
    intro l
    induction l with
    | nil => intro _; rfl
    | cons i l ih =>
      intro h
      have hi := h i (by simp)
      rw [List.filterMap_cons, List.getElem?_eq_getElem hi]
      simp [ih fun j hj => h j (by simp [hj])]
  have hall : ((List.range c.length).filterMap (c[·]?)) = c := by
    apply List.ext_getElem?
    intro i
    have : (List.range c.length).filterMap (c[·]?) = (List.range c.length).pmap (fun j hj => c[j]'hj) (fun j hj => List.mem_range.1 hj) := by
      have aux : ∀ (l : List Nat) (hl : ∀ j ∈ l, j < c.length), l.filterMap (c[·]?) = l.pmap (fun j hj => c[j]'hj) hl := by
        intro l
        induction l with
        | nil => intro _; rfl
        | cons j l ih =>
          intro hl
          rw [List.filterMap_cons, List.getElem?_eq_getElem (hl j (by simp))]
          simp [ih fun k hk => hl k (by simp [hk])]
      exact aux _ _
    rw [this]
    by_cases hi : i < c.length
    · rw [List.getElem?_eq_getElem (by simpa using hi), List.getElem?_eq_getElem hi]
      simp
    · rw [List.getElem?_eq_none (by simpa using hi), List.getElem?_eq_none (by omega)]
  have hgetD : ∀ i x, c[i]? = some x → (c.map V).getD i 0 = V x := by
    intro i x h
    simp [List.getD, List.getElem?_map, h]
  refine ⟨(asc.take (asc.length - b)).filterMap (c[·]?), ?_, ?_, ?_⟩
  · rw [← List.filterMap_append]
    have h1 : (asc.drop (asc.length - b) ++ asc.take (asc.length - b)).Perm (List.range c.length) := by
      refine List.perm_append_comm.trans ?_
      rw [List.take_append_drop]
      simpa using hp
    have h2 := h1.filterMap (c[·]?)
    rwa [hall] at h2
  · rw [hfull _ fun i hi => hin i (List.mem_of_mem_drop hi)]
    simp; omega
  · intro p hpm q hq
    obtain ⟨i, hi, hip⟩ := List.mem_filterMap.1 hpm
    obtain ⟨j, hj, hjq⟩ := List.mem_filterMap.1 hq
    have ho' := ho
    rw [← List.take_append_drop (asc.length - b) asc, List.pairwise_append] at ho'
    have := ho'.2.2 j hj i hi
    rwa [hgetD i p hip, hgetD j q hjq] at this

/-- The generator function: its batch is taken from a list of points drawn after the variances were computed: the variances only say at which positions. -/
theorem C82_func (draw : Nat → List X) (V : X → Int) (argsort : List Int → List Nat) (b : Nat) (s : State X) :
    (nextFunc draw argsort b (ingest draw V s)).1 = last (draw (s.calls + 1)) (argsort ((draw s.calls).map V)) b := rfl

/-- So what the class guarantees fails for the function: of the points it draws it takes the one of least variance, and the best candidate is not taken. -/
theorem C82_func_witness :
    let draw : Nat → List Int := fun n => if n = 0 then [1, 2, 9] else [8, 7, 0]
    let argsort : List Int → List Nat := fun _ => [0, 1, 2]
    IsArgsort ((draw 0).map id) (argsort ((draw 0).map id)) ∧
      (nextFunc draw argsort 1 (ingest draw id ⟨[], [], 0⟩)).1 = [0] ∧ nextClass argsort 1 (ingest draw id ⟨[], [], 0⟩) = [9] := by
  refine ⟨⟨?_, ?_⟩, rfl, rfl⟩ <;> decide


/-! ### Telling results -/

theorem delete_aux {A : Type} (nan : Nat → Bool) (l : List A) : ∀ k, ((l.zipIdx k).filter fun p => !nan p.2).map (·.1) =
    match l with
    | [] => []
    | a :: l' => if nan k then ((l'.zipIdx (k + 1)).filter fun p => !nan p.2).map (·.1)
      else a :: ((l'.zipIdx (k + 1)).filter fun p => !nan p.2).map (·.1) := by
  intro k
  cases l with
  | nil => rfl
  | cons a l => simp only [List.zipIdx_cons, List.filter_cons]; cases nan k <;> simp

theorem delete_zip (nan : Y → Bool) (g : Nat → Bool) : ∀ (xs : List X) (ys : List Y) (k : Nat), xs.length = ys.length →
    (∀ i y, ys[i]? = some y → g (k + i) = nan y) →
    (((xs.zipIdx k).filter fun p => !g p.2).map (·.1)).length = (((ys.zipIdx k).filter fun p => !g p.2).map (·.1)).length ∧
    (((xs.zipIdx k).filter fun p => !g p.2).map (·.1)).zip (((ys.zipIdx k).filter fun p => !g p.2).map (·.1)) = (xs.zip ys).filter fun p => !nan p.2
  | [], [], _, _, _ => ⟨rfl, rfl⟩
  | [], _ :: _, _, h, _ => by simp at h
  | _ :: _, [], _, h, _ => by simp at h
  | x :: xs, y :: ys, k, h, hg => by
    obtain ⟨h1, h2⟩ := delete_zip nan g xs ys (k + 1) (by simpa using h) (fun i z hz => by
      have := hg (i + 1) z (by simpa using hz)
      rw [← this]; congr 1; omega)
    have h0 : g k = nan y := hg 0 y rfl
    rw [delete_aux g (x :: xs), delete_aux g (y :: ys)]
    simp only [h0, List.zip_cons_cons, List.filter_cons]
    cases nan y <;> simp [h1, h2]

/-- **C82**, results: as many values as points — the surrogate is told each point with the value at its position, without those that are not numbers. -/
theorem C82_tell (nan : Y → Bool) (xs : List X) (ys : List Y) (h : xs.length = ys.length) :
    tell nan xs ys = some ((xs.zip ys).filter fun p => !nan p.2) := by
  obtain ⟨h1, h2⟩ := delete_zip nan (fun i => ((ys[i]?).map nan).getD false) xs ys 0 h (fun i y hy => by simp [hy])
  unfold tell delete
  simp only
  rw [if_pos h1, h2]

/-- The class, for answers with points: every point with its own value, in whatever order the answer comes and whatever was suggested last. -/
theorem C82_tell_class (nan : Y → Bool) (sent : List X) (answer : List (X × Y)) :
    tellClass nan sent true answer = some (answer.filter fun p => !nan p.2) := by
  unfold tellClass
  rw [if_pos rfl, C82_tell nan _ _ (by simp)]
  have : (answer.map (·.1)).zip (answer.map (·.2)) = answer := by
    induction answer with
    | nil => rfl
    | cons a l ih => simp [ih]
  rw [this]

/-- The function: the same if the answer has the points that were sent, in that order. -/
theorem C82_tell_func_partial (nan : Y → Bool) (sent : List X) (answer : List (X × Y)) (h : answer.map (·.1) = sent) :
    tellFunc nan sent answer = some (answer.filter fun p => !nan p.2) := by
  subst h
  exact C82_tell_class nan [] answer

/-- In another order it pairs points with values of other points. -/
theorem C82_tell_func_witness : tellFunc (fun _ => false) [1, 2] [(2, 20), (1, 10)] = some [(1, 20), (2, 10)] := by decide

/-- The hypotheses of `C82_spread` and `C82_ends` are met: five points in a row, two wanted. -/
example : search (line 10) 10 40 2 [2, 1, 3, 0, 4] 9 0 [] = some [2, 0] := by decide
example : ∃ fuel y, search (line 1) 1 9 3 [9, 0, 1, 2, 3, 4, 5, 6, 7, 8] fuel 0 [] = some y :=
  C82_line_ends 1 9 (by decide) (by decide) 3 (by decide) (by decide) _ (by decide)

/-- A batch with a value that is not a number. -/
example : tell (fun y : Nat => y == 0) [1, 2, 3] [10, 0, 30] = some [(1, 10), (3, 30)] := by decide

end Verif.GpCam
