import Verif.MultiTask.Model

/-!
# C90: the multitask generator alternates fidelities and repeats the best points
-/

namespace Verif.MultiTask

variable {X V : Type}

/-- The task of the i-th batch: an initial one of high and one of low fidelity, then pairs of low and high. -/
def kind (i : Nat) : Task := if i = 0 then .hifi else if i % 2 = 1 ∧ 1 < i then .hifi else .lofi

/-- `chosen` are `n` of `pts` (all, if there are fewer), best first, and none left out is better. -/
def TopN (n : Nat) (util : X → Int) (pts chosen : List X) : Prop :=
  chosen.length = min n pts.length ∧ chosen.Pairwise (fun x y => util y ≤ util x) ∧
  ∃ rest, (chosen ++ rest).Perm pts ∧ ∀ c ∈ chosen, ∀ r ∈ rest, util r ≤ util c

/-- What a batch may be, given those before it. -/
def Allowed (a : Ax X V) (before : List (Trial X V)) (t : Trial X V) : Prop :=
  t.task = kind before.length ∧
  (before.length = 0 → t.pts = a.sobol a.nInitHifi) ∧
  (before.length = 1 → t.pts = a.sobol a.nInitLofi) ∧
  (1 < before.length → kind before.length = .lofi →
    ∃ h, h < before.length ∧ kind h = .hifi ∧ (∀ j, h < j → j < before.length → kind j = .lofi) ∧ t.pts = a.gen before a.nOptLofi h) ∧
  (1 < before.length → kind before.length = .hifi →
    ∃ prev, before.getLast? = some prev ∧ t.pts.length = a.nOptHifi ∧ TopN a.nOptHifi (a.util before) prev.pts t.pts)

/-- What `np.argsort` does: the indices in an order in which the entries do not decrease. -/
def Sorts (argsort : List Int → List Nat) : Prop :=
  ∀ u, (argsort u).Perm (List.range u.length) ∧ (argsort u).Pairwise (fun i j => ∀ x y, u[i]? = some x → u[j]? = some y → x ≤ y)

theorem get_range (l : List X) : (List.range l.length).filterMap (fun i => l[i]?) = l := by
  induction l with
  | nil => rfl
  | cons x l ih =>
    rw [List.length_cons, List.range_succ_eq_map, List.filterMap_cons]
    simp only [List.getElem?_cons_zero, List.filterMap_map]
    congr 1

theorem get_len (l : List X) : ∀ (is : List Nat), (∀ i ∈ is, i < l.length) → (is.filterMap (fun i => l[i]?)).length = is.length
  | [], _ => rfl
  | i :: is, h => by
    have hi : i < l.length := h i (by simp)
    rw [List.filterMap_cons, List.getElem?_eq_getElem hi]
    simp only [List.length_cons]
    rw [get_len l is (fun j hj => h j (by simp [hj]))]

/-- The selection takes the best points. -/
theorem C90_best (a : Ax X V) (hs : Sorts a.argsort) (trials : List (Trial X V)) (n : Nat) (pts : List X) : TopN n (a.util trials) pts (best a trials n pts) := by
  obtain ⟨hp, hw⟩ := hs (pts.map (a.util trials))
  generalize hu : pts.map (a.util trials) = u at hp hw
  have hul : u.length = pts.length := by rw [← hu, List.length_map]
  rw [hul] at hp
  have hlt : ∀ i ∈ (a.argsort u).reverse, i < pts.length := fun i hi => List.mem_range.mp (hp.mem_iff.mp (List.mem_reverse.mp hi))
  have hw' : (a.argsort u).reverse.Pairwise (fun i j => ∀ x y, pts[i]? = some x → pts[j]? = some y → a.util trials y ≤ a.util trials x) := by
    rw [List.pairwise_reverse]
    refine hw.imp ?_
    intro i j h x y hx hy
    refine h _ _ ?_ ?_
    · rw [← hu, List.getElem?_map, hy]; rfl
    · rw [← hu, List.getElem?_map, hx]; rfl
  have hsplit := List.take_append_drop n (a.argsort u).reverse
  unfold best
  rw [hu]
  refine ⟨?_, ?_, ((a.argsort u).reverse.drop n).filterMap (fun i => pts[i]?), ?_, ?_⟩
  · rw [get_len pts _ (fun i hi => hlt i (List.mem_of_mem_take hi)), List.length_take, List.length_reverse, hp.length_eq, List.length_range]
  · rw [List.pairwise_filterMap]
    refine (hw'.sublist (List.take_sublist n _)).imp ?_
    intro i j h x hx y hy
    exact h x y hx hy
  · rw [← List.filterMap_append, hsplit]
    have := ((List.reverse_perm _).trans hp).filterMap (fun i => pts[i]?)
    rw [get_range] at this
    exact this
  · intro c hc r hr
    rw [List.mem_filterMap] at hc hr
    obtain ⟨i, hi, hi'⟩ := hc
    obtain ⟨j, hj, hj'⟩ := hr
    rw [← hsplit, List.pairwise_append] at hw'
    exact hw'.2.2 i hi j hj c r hi' hj'

/-- How many replies come before the first stop. -/
def lead : List (Reply V) → Nat
  | .vals _ :: rest => lead rest + 1
  | _ => 0

/-- The rows a reply carries. -/
def Reply.rows : Reply V → Option (List V)
  | .vals vs => some vs
  | .stop vs => vs

/-- The phase in which the i-th batch is made. -/
def phaseAt (i : Nat) : Phase := if i = 0 then .initHi else if i = 1 then .initLo else if i % 2 = 0 then .optLo else .optHi

theorem phaseAt_next (i : Nat) : (phaseAt i).next = phaseAt (i + 1) := by
  unfold phaseAt
  by_cases h0 : i = 0
  · subst h0; rfl
  · by_cases h1 : i = 1
    · subst h1; rfl
    · rw [if_neg h0, if_neg h1, if_neg (show ¬ i + 1 = 0 by omega), if_neg (show ¬ i + 1 = 1 by omega)]
      by_cases h2 : i % 2 = 0
      · rw [if_pos h2, if_neg (show ¬ (i + 1) % 2 = 0 by omega)]; rfl
      · rw [if_neg h2, if_pos (show (i + 1) % 2 = 0 by omega)]; rfl

/-- The values of a batch are those of the reply to it. -/
def Valued (replies : List (Reply V)) (i : Nat) (t : Trial X V) : Prop :=
  ∀ vs, t.vals = some vs → vs.length = t.pts.length ∧ ∃ r w, replies[i]? = some r ∧ r.rows = some w ∧ vs <+: w

structure Inv (a : Ax X V) (past : List (Reply V)) (s : St X V) : Prop where
  al : ∀ (i : Nat) t, s.exp[i]? = some t → Allowed a (s.exp.take i) t
  vl : ∀ (i : Nat) t, s.exp[i]? = some t → Valued past i t
  hf : s.hifis = (List.range s.exp.length).filter (fun i => decide (kind i = .hifi))
  sv : s.saved = (List.range (s.exp.length / 2)).map (fun m => s.exp.take (2 * m + 2))
  ln : s.exp.length = past.length
  ld : ∀ rest, lead (past ++ rest) = past.length + lead rest

/-- What holds at the end. -/
structure Final (a : Ax X V) (replies : List (Reply V)) (r : End × St X V) : Prop where
  al : ∀ (i : Nat) t, r.2.exp[i]? = some t → Allowed a (r.2.exp.take i) t
  vl : ∀ (i : Nat) t, r.2.exp[i]? = some t → Valued replies i t
  sv : ∀ m, 2 * m + 2 < r.2.exp.length → r.2.saved[m]? = some (r.2.exp.take (2 * m + 2))
  pre : ∀ z ∈ r.2.saved, z <+: r.2.exp
  le : r.2.exp.length ≤ lead replies + 1
  eq : r.1 ≠ .fails → r.2.exp.length = lead replies + 1
  ret : r.1 = .returned → ∃ v, replies[lead replies]? = some (.stop v)
  wait : r.1 = .waits → lead replies = replies.length

theorem kind_lofi {i : Nat} (h : kind i ≠ .hifi) : kind i = .lofi := by
  cases hk : kind i with
  | hifi => exact absurd hk h
  | lofi => rfl

theorem batch_allowed {a : Ax X V} (hs : Sorts a.argsort) {past : List (Reply V)} {s : St X V} (hi : Inv a past s) {k : Task} {pts : List X}
    (hb : batch a s (phaseAt s.exp.length) = some (k, pts)) (v : Option (List V)) : Allowed a s.exp ⟨k, pts, v⟩ := by
  unfold phaseAt at hb
  by_cases h0 : s.exp.length = 0
  · rw [if_pos h0] at hb
    simp only [batch, Option.some.injEq, Prod.mk.injEq] at hb
    obtain ⟨rfl, rfl⟩ := hb
    exact ⟨by simp [kind, h0], fun _ => rfl, fun h => by omega, fun h => by omega, fun h => by omega⟩
  · rw [if_neg h0] at hb
    by_cases h1 : s.exp.length = 1
    · rw [if_pos h1] at hb
      simp only [batch, Option.some.injEq, Prod.mk.injEq] at hb
      obtain ⟨rfl, rfl⟩ := hb
      exact ⟨by simp [kind, h1], fun h => by omega, fun _ => rfl, fun h => by omega, fun h => by omega⟩
    · rw [if_neg h1] at hb
      by_cases h2 : s.exp.length % 2 = 0
      · rw [if_pos h2] at hb
        have hk : kind s.exp.length = .lofi := by unfold kind; rw [if_neg h0, if_neg (by omega)]
        simp only [batch] at hb
        cases hg : s.hifis.getLast? with
        | none => rw [hg] at hb; cases hb
        | some h =>
          rw [hg] at hb
          simp only [Option.some.injEq, Prod.mk.injEq] at hb
          obtain ⟨rfl, rfl⟩ := hb
          refine ⟨hk.symm, fun h => by omega, fun h => by omega, fun _ _ => ⟨h, ?_⟩, fun _ h => by rw [hk] at h; cases h⟩
          rw [hi.hf] at hg
          obtain ⟨ys, hy⟩ := List.getLast?_eq_some_iff.mp hg
          have hmem : h ∈ (List.range s.exp.length).filter (fun i => decide (kind i = .hifi)) := by rw [hy]; simp
          rw [List.mem_filter, List.mem_range] at hmem
          refine ⟨hmem.1, by simpa using hmem.2, ?_, rfl⟩
          intro j hj hjl
          apply kind_lofi
          intro hkj
          have hjm : j ∈ (List.range s.exp.length).filter (fun i => decide (kind i = .hifi)) := by
            rw [List.mem_filter, List.mem_range]; exact ⟨hjl, by simp [hkj]⟩
          have hpw : ((List.range s.exp.length).filter (fun i => decide (kind i = .hifi))).Pairwise (· < ·) := List.pairwise_lt_range.filter _
          rw [hy] at hjm hpw
          rw [List.pairwise_append] at hpw
          rcases List.mem_append.mp hjm with hm | hm
          · have := hpw.2.2 j hm h (by simp); omega
          · simp at hm; omega
      · rw [if_neg h2] at hb
        have hk : kind s.exp.length = .hifi := by unfold kind; rw [if_neg h0, if_pos (by omega)]
        simp only [batch] at hb
        cases hg : s.exp.getLast? with
        | none => rw [hg] at hb; cases hb
        | some t =>
          rw [hg] at hb
          dsimp only at hb
          split at hb
          · rename_i hl
            simp only [Option.some.injEq, Prod.mk.injEq] at hb
            obtain ⟨rfl, rfl⟩ := hb
            refine ⟨hk.symm, fun h => by omega, fun h => by omega, ?_, fun _ _ => ⟨t, hg, hl, C90_best a hs s.exp a.nOptHifi t.pts⟩⟩
            intro _ h
            rw [hk] at h
            cases h
          · cases hb

theorem snoc_get {α : Type} {l : List α} {a : α} {P : List α → Nat → α → Prop} (hl : ∀ (i : Nat) b, l[i]? = some b → P (l.take i) i b) (ha : P l l.length a) (i : Nat) (b : α)
    (h : (l ++ [a])[i]? = some b) : P ((l ++ [a]).take i) i b := by
  rcases Nat.lt_trichotomy i l.length with hi | hi | hi
  · rw [List.getElem?_append_left hi] at h
    rw [List.take_append_of_le_length (by omega)]
    exact hl i b h
  · subst hi
    rw [List.getElem?_append_right (by omega)] at h
    simp at h
    subst h
    rw [List.take_append_of_le_length (by omega), List.take_length]
    exact ha
  · rw [List.getElem?_eq_none (by simp; omega)] at h
    cases h

theorem valued_mono {past rest : List (Reply V)} {i : Nat} {t : Trial X V} (h : Valued past i t) : Valued (past ++ rest) i t := by
  intro vs hv
  obtain ⟨h1, r, w, h2, h3⟩ := h vs hv
  refine ⟨h1, r, w, ?_, h3⟩
  have : i < past.length := by
    rcases Nat.lt_or_ge i past.length with h | h
    · exact h
    · rw [List.getElem?_eq_none h] at h2; cases h2
  rw [List.getElem?_append_left this, h2]

theorem sv_get {s : St X V} {t : Trial X V} (h : s.saved = (List.range (s.exp.length / 2)).map (fun m => s.exp.take (2 * m + 2))) (m : Nat)
    (hm : 2 * m + 2 < (s.exp ++ [t]).length) : s.saved[m]? = some ((s.exp ++ [t]).take (2 * m + 2)) := by
  simp only [List.length_append, List.length_singleton] at hm
  rw [h, List.getElem?_map, List.getElem?_range (by omega)]
  simp only [Option.map_some, Option.some.injEq]
  rw [List.take_append_of_le_length (by omega)]

theorem sv_pre {s : St X V} {t : Trial X V} (h : s.saved = (List.range (s.exp.length / 2)).map (fun m => s.exp.take (2 * m + 2))) :
    ∀ z ∈ s.saved, z <+: s.exp ++ [t] := by
  intro z hz
  rw [h, List.mem_map] at hz
  obtain ⟨m, _, rfl⟩ := hz
  exact (List.take_prefix _ _).trans (List.prefix_append _ _)

/-- The last batch, whatever becomes of it. -/
theorem final_last {a : Ax X V} {past rest : List (Reply V)} {s : St X V} (hi : Inv a past s) {t : Trial X V} (hal : Allowed a s.exp t) (hvl : Valued (past ++ rest) s.exp.length t)
    (e : End) (sv : Bool) (hld : e ≠ .fails → lead rest = 0) (hr : e = .returned → ∃ v rest', rest = .stop v :: rest') (hw : e = .waits → rest = []) :
    Final a (past ++ rest) (e, if sv then save { s with exp := s.exp ++ [t] } else { s with exp := s.exp ++ [t] }) := by
  have hexp : (if sv then save { s with exp := s.exp ++ [t] } else { s with exp := s.exp ++ [t] }).exp = s.exp ++ [t] := by cases sv <;> rfl
  have hlen : (s.exp ++ [t]).length = past.length + 1 := by rw [List.length_append, hi.ln]; rfl
  constructor
  · intro i b h
    dsimp only at h ⊢
    rw [hexp] at h ⊢
    exact snoc_get (P := fun l _ b => Allowed a l b) hi.al hal i b h
  · intro i b h
    dsimp only at h
    rw [hexp] at h
    exact snoc_get (P := fun _ i b => Valued (past ++ rest) i b) (fun i b h => valued_mono (hi.vl i b h)) hvl i b h
  · intro m hm
    dsimp only at hm ⊢
    rw [hexp] at hm ⊢
    have := sv_get (t := t) hi.sv m hm
    cases sv
    · exact this
    · have hlt : m < s.saved.length := by
        rcases Nat.lt_or_ge m s.saved.length with h | h
        · exact h
        · rw [List.getElem?_eq_none h] at this; cases this
      show (s.saved ++ [s.exp ++ [t]])[m]? = _
      rw [List.getElem?_append_left hlt, this]
  · intro z hz
    dsimp only at hz ⊢
    rw [hexp]
    cases sv
    · exact sv_pre hi.sv z hz
    · rcases List.mem_append.mp (show z ∈ s.saved ++ [s.exp ++ [t]] from hz) with h | h
      · exact sv_pre hi.sv z h
      · simp at h; subst h; exact List.prefix_refl _
  · dsimp only
    rw [hexp, hlen, hi.ld]
    omega
  · intro he
    dsimp only at he ⊢
    rw [hexp, hlen, hi.ld, hld he]
  · intro he
    obtain ⟨v, rest', hv⟩ := hr he
    refine ⟨v, ?_⟩
    rw [hi.ld, hv]
    simp [lead]
  · intro he
    have := hw he
    subst this
    have := hi.ld []
    rw [List.append_nil] at this ⊢
    simpa [lead] using this

theorem run_final (a : Ax X V) (hs : Sorts a.argsort) : ∀ (replies past : List (Reply V)) (s : St X V), Inv a past s →
    Final a (past ++ replies) (run a (phaseAt s.exp.length) s replies) := by
  intro replies
  induction replies with
  | nil =>
    intro past s hi
    rw [run]
    cases hb : batch a s (phaseAt s.exp.length) with
    | none =>
      exact ⟨hi.al, fun i t h => valued_mono (hi.vl i t h), fun m hm => by
        have hm : 2 * m + 2 < s.exp.length := hm
        rw [hi.sv, List.getElem?_map, List.getElem?_range (by omega)]; rfl, fun z hz => by
        dsimp only at hz ⊢
        rw [hi.sv, List.mem_map] at hz
        obtain ⟨m, _, rfl⟩ := hz
        exact List.take_prefix _ _, by dsimp only; rw [hi.ld, hi.ln]; omega, fun h => absurd rfl h, fun h => (nomatch h), fun h => (nomatch h)⟩
    | some kp =>
      obtain ⟨k, pts⟩ := kp
      exact final_last hi (batch_allowed hs hi hb none) (fun vs hv => (nomatch hv)) .waits false (fun _ => rfl) (fun h => (nomatch h)) (fun _ => rfl)
  | cons r rest ih =>
    intro past s hi
    rw [run]
    cases hb : batch a s (phaseAt s.exp.length) with
    | none =>
      exact ⟨hi.al, fun i t h => valued_mono (hi.vl i t h), fun m hm => by
        have hm : 2 * m + 2 < s.exp.length := hm
        rw [hi.sv, List.getElem?_map, List.getElem?_range (by omega)]; rfl, fun z hz => by
        dsimp only at hz ⊢
        rw [hi.sv, List.mem_map] at hz
        obtain ⟨m, _, rfl⟩ := hz
        exact List.take_prefix _ _, by dsimp only; rw [hi.ld, hi.ln]; omega, fun h => absurd rfl h, fun h => (nomatch h), fun h => (nomatch h)⟩
    | some kp =>
      obtain ⟨k, pts⟩ := kp
      have hget : (past ++ r :: rest)[s.exp.length]? = some r := by
        rw [List.getElem?_append_right (by rw [hi.ln]; omega), hi.ln]; simp
      have hfail : Final a (past ++ r :: rest) (.fails, { s with exp := s.exp ++ [⟨k, pts, none⟩] }) :=
        final_last hi (batch_allowed hs hi hb none) (fun vs hv => (nomatch hv)) .fails false (fun h => absurd rfl h) (fun h => (nomatch h)) (fun h => (nomatch h))
      have htake : ∀ vs : List V, ¬ vs.length < pts.length → (vs.take pts.length).length = pts.length := by
        intro vs h; rw [List.length_take]; omega
      cases r with
      | stop w =>
        cases w with
        | none =>
          have := final_last hi (batch_allowed hs hi hb none) (rest := .stop none :: rest) (fun vs hv => (nomatch hv)) .returned
            (decide (phaseAt s.exp.length = .initHi ∨ phaseAt s.exp.length = .initLo)) (fun _ => rfl) (fun _ => ⟨none, rest, rfl⟩) (fun h => (nomatch h))
          simpa using this
        | some vs =>
          dsimp only
          split
          · exact hfail
          · rename_i hl
            have := final_last hi (batch_allowed hs hi hb (some (vs.take pts.length))) (rest := .stop (some vs) :: rest)
              (fun ws hv => by
                simp only [Option.some.injEq] at hv
                subst hv
                exact ⟨htake vs hl, _, vs, hget, rfl, List.take_prefix _ _⟩) .returned
              (decide (phaseAt s.exp.length = .initHi ∨ phaseAt s.exp.length = .initLo)) (fun _ => rfl) (fun _ => ⟨some vs, rest, rfl⟩) (fun h => (nomatch h))
            simpa using this
      | vals vs =>
        dsimp only
        split
        · exact hfail
        · rename_i hl
          rw [phaseAt_next]
          have hal := batch_allowed hs hi hb (some (vs.take pts.length))
          have key : ∀ s' : St X V, s'.exp = s.exp ++ [⟨k, pts, some (vs.take pts.length)⟩] →
              s'.hifis = (note s ⟨k, pts, some (vs.take pts.length)⟩).hifis →
              s'.saved = (List.range (s'.exp.length / 2)).map (fun m => s'.exp.take (2 * m + 2)) →
              Final a (past ++ Reply.vals vs :: rest) (run a (phaseAt (s.exp.length + 1)) s' rest) := by
            intro s' he hh hsv
            have hlen : s'.exp.length = s.exp.length + 1 := by rw [he, List.length_append]; rfl
            have e : past ++ Reply.vals vs :: rest = (past ++ [Reply.vals vs]) ++ rest := by simp
            rw [e, ← hlen]
            refine ih (past ++ [Reply.vals vs]) s' ⟨?_, ?_, ?_, hsv, ?_, ?_⟩
            · rw [he]
              exact fun i b h => snoc_get (P := fun l _ b => Allowed a l b) hi.al hal i b h
            · rw [he]
              refine fun i b h => snoc_get (P := fun _ i b => Valued (past ++ [Reply.vals vs]) i b) (fun i b h => valued_mono (hi.vl i b h)) ?_ i b h
              intro ws hv
              simp only [Option.some.injEq] at hv
              subst hv
              refine ⟨htake vs hl, Reply.vals vs, vs, ?_, rfl, List.take_prefix _ _⟩
              rw [hi.ln]
              simp
            · rw [hh, hlen, List.range_succ, List.filter_append, ← hi.hf]
              have hk : k = kind s.exp.length := hal.1
              simp only [note]
              rw [hk]
              by_cases h : kind s.exp.length = .hifi
              · simp [h]
              · simp [h]
            · rw [hlen, hi.ln, List.length_append]; rfl
            · intro rest'
              rw [List.append_assoc, hi.ld]
              simp [lead]
              omega
          have hsvn : ∀ (m : Nat), m < s.exp.length / 2 → s.exp.take (2 * m + 2) = (s.exp ++ [(⟨k, pts, some (vs.take pts.length)⟩ : Trial X V)]).take (2 * m + 2) := by
            intro m hm
            rw [List.take_append_of_le_length (by omega)]
          by_cases hodd : s.exp.length % 2 = 1
          · have hp : phaseAt s.exp.length = .initLo ∨ phaseAt s.exp.length = .optHi := by
              unfold phaseAt
              by_cases h1 : s.exp.length = 1
              · left; rw [if_neg (by omega), if_pos h1]
              · right; rw [if_neg (by omega), if_neg h1, if_neg (by omega)]
            rw [if_pos hp]
            refine key _ rfl rfl ?_
            show s.saved ++ [s.exp ++ [_]] = (List.range ((s.exp ++ [_]).length / 2)).map _
            have h2 : (s.exp ++ [(⟨k, pts, some (vs.take pts.length)⟩ : Trial X V)]).length / 2 = s.exp.length / 2 + 1 := by
              rw [List.length_append]; simp; omega
            rw [h2, List.range_succ, List.map_append, hi.sv]
            congr 1
            · apply List.map_congr_left
              intro m hm
              exact hsvn m (List.mem_range.mp hm)
            · simp only [List.map_cons, List.map_nil, List.cons.injEq, and_true]
              refine (List.take_of_length_le ?_).symm
              show (s.exp ++ [_]).length ≤ _
              rw [List.length_append]; simp; omega
          · have hp : ¬ (phaseAt s.exp.length = .initLo ∨ phaseAt s.exp.length = .optHi) := by
              unfold phaseAt
              by_cases h0 : s.exp.length = 0
              · rw [if_pos h0]; simp
              · rw [if_neg h0, if_neg (by omega), if_pos (by omega)]; simp
            rw [if_neg hp]
            refine key _ rfl rfl ?_
            show s.saved = (List.range ((s.exp ++ [_]).length / 2)).map _
            have h2 : (s.exp ++ [(⟨k, pts, some (vs.take pts.length)⟩ : Trial X V)]).length / 2 = s.exp.length / 2 := by
              rw [List.length_append]; simp; omega
            rw [h2, hi.sv]
            apply List.map_congr_left
            intro m hm
            exact hsvn m (List.mem_range.mp hm)

theorem start_final (a : Ax X V) (hs : Sorts a.argsort) (replies : List (Reply V)) : Final a replies (start a replies) := by
  have : Inv a ([] : List (Reply V)) (⟨[], [], []⟩ : St X V) := ⟨by simp, by simp, by simp, by simp, rfl, by simp⟩
  exact run_final a hs replies [] _ this

/-- Every batch is what it should be after those before it: fidelities alternate, a batch of low fidelity is proposed for the last batch of high fidelity, and a later batch of high fidelity
consists of the best points of the batch before it. -/
theorem C90_batches (a : Ax X V) (hs : Sorts a.argsort) (replies : List (Reply V)) (i : Nat) (t : Trial X V) (h : (start a replies).2.exp[i]? = some t) :
    Allowed a ((start a replies).2.exp.take i) t := (start_final a hs replies).al i t h

/-- The values of a batch are the rows of the reply to it, by position. -/
theorem C90_values (a : Ax X V) (hs : Sorts a.argsort) (replies : List (Reply V)) (i : Nat) (t : Trial X V) (h : (start a replies).2.exp[i]? = some t) :
    Valued replies i t := (start_final a hs replies).vl i t h

/-- One batch for every reply, and none after a stop; the function returns exactly at a stop. -/
theorem C90_stop (a : Ax X V) (hs : Sorts a.argsort) (replies : List (Reply V)) : (start a replies).2.exp.length ≤ lead replies + 1 ∧
    ((start a replies).1 ≠ .fails → (start a replies).2.exp.length = lead replies + 1) ∧
    ((start a replies).1 = .returned → ∃ v, replies[lead replies]? = some (.stop v)) ∧ ((start a replies).1 = .waits → lead replies = replies.length) :=
  have h := start_final a hs replies
  ⟨h.le, h.eq, h.ret, h.wait⟩

/-- Files: the m-th holds the trials of the first `m + 1` iterations as soon as another batch has been sent; every file holds trials of the experiment, from the first on. -/
theorem C90_saved_partial (a : Ax X V) (hs : Sorts a.argsort) (replies : List (Reply V)) :
    (∀ m, 2 * m + 2 < (start a replies).2.exp.length → (start a replies).2.saved[m]? = some ((start a replies).2.exp.take (2 * m + 2))) ∧
    ∀ z ∈ (start a replies).2.saved, z <+: (start a replies).2.exp :=
  have h := start_final a hs replies
  ⟨h.sv, h.pre⟩

/-- If models propose at least `n_opt_hifi` points and no reply is shorter than the batch it answers, the function never fails. -/
theorem run_no_failure (a : Ax X V) (hs : Sorts a.argsort) (M : Nat) (hg : ∀ tr h, a.nOptHifi ≤ (a.gen tr a.nOptLofi h).length ∧ (a.gen tr a.nOptLofi h).length ≤ M)
    (h1 : (a.sobol a.nInitHifi).length ≤ M) (h2 : (a.sobol a.nInitLofi).length ≤ M) : ∀ (replies past : List (Reply V)) (p : Phase) (s : St X V),
    (∀ r ∈ replies, ∀ vs, r.rows = some vs → M ≤ vs.length) → (p = .optLo → s.hifis ≠ []) → (p = .initLo → s.hifis ≠ []) →
    (p = .optHi → s.hifis ≠ [] ∧ ∃ t, s.exp.getLast? = some t ∧ a.nOptHifi ≤ t.pts.length ∧ t.pts.length ≤ M) → (run a p s replies).1 ≠ .fails := by
  intro replies
  have hbatch : ∀ (p : Phase) (s : St X V), (p = .optLo → s.hifis ≠ []) →
      (p = .optHi → s.hifis ≠ [] ∧ ∃ t, s.exp.getLast? = some t ∧ a.nOptHifi ≤ t.pts.length ∧ t.pts.length ≤ M) →
      ∃ k pts, batch a s p = some (k, pts) ∧ pts.length ≤ M ∧ (p = .initHi → k = .hifi) ∧ (p = .optLo → a.nOptHifi ≤ pts.length) := by
    intro p s hlo hhi
    cases p with
    | initHi => exact ⟨_, _, rfl, h1, fun _ => rfl, fun h => (nomatch h)⟩
    | initLo => exact ⟨_, _, rfl, h2, fun h => (nomatch h), fun h => (nomatch h)⟩
    | optLo =>
      cases hh : s.hifis.getLast? with
      | none => exact absurd (List.getLast?_eq_none_iff.mp hh) (hlo rfl)
      | some h => exact ⟨.lofi, a.gen s.exp a.nOptLofi h, by simp only [batch, hh], (hg _ _).2, fun h => (nomatch h), fun _ => (hg _ _).1⟩
    | optHi =>
      obtain ⟨_, t, ht, h3, h4⟩ := hhi rfl
      have hl := (C90_best a hs s.exp a.nOptHifi t.pts).1
      rw [Nat.min_eq_left h3] at hl
      exact ⟨.hifi, best a s.exp a.nOptHifi t.pts, by simp only [batch, ht]; rw [if_pos hl], by omega, fun h => (nomatch h), fun h => (nomatch h)⟩
  induction replies with
  | nil =>
    intro past p s _ hlo _ hhi
    obtain ⟨k, pts, hb, _⟩ := hbatch p s hlo hhi
    rw [run, hb]
    simp
  | cons r rest ih =>
    intro past p s hr hlo hil hhi
    obtain ⟨k, pts, hb, hM, hk, hn⟩ := hbatch p s hlo hhi
    have hlen : ∀ vs, r.rows = some vs → ¬ vs.length < pts.length := by
      intro vs hv
      have := hr r (by simp) vs hv
      omega
    rw [run, hb]
    cases r with
    | stop w =>
      cases w with
      | none => simp
      | some vs => simp [hlen vs rfl]
    | vals vs =>
      dsimp only
      rw [if_neg (hlen vs rfl)]
      refine ih [] p.next _ (fun r hm => hr r (by simp [hm])) ?_ ?_ ?_
      · intro hp
        have : s.hifis ≠ [] := by
          cases p with
          | initHi => cases hp
          | initLo => exact hil rfl
          | optLo => cases hp
          | optHi => exact (hhi rfl).1
        split <;> simp only [save, note] <;> split <;> simp [this]
      · intro hp
        have : p = .initHi := by cases p <;> first | rfl | cases hp
        subst this
        simp [note, hk rfl]
      · intro hp
        have : p = .optLo := by cases p <;> first | rfl | cases hp
        subst this
        have h5 := hlo rfl
        simp only [note]
        refine ⟨?_, ⟨k, pts, some (vs.take pts.length)⟩, by simp, hn rfl, hM⟩
        simp
        split <;> simp [h5]

/-- From the beginning. -/
theorem C90_no_failure (a : Ax X V) (hs : Sorts a.argsort) (M : Nat) (hg : ∀ tr h, a.nOptHifi ≤ (a.gen tr a.nOptLofi h).length ∧ (a.gen tr a.nOptLofi h).length ≤ M)
    (h1 : (a.sobol a.nInitHifi).length ≤ M) (h2 : (a.sobol a.nInitLofi).length ≤ M) (replies : List (Reply V)) (hr : ∀ r ∈ replies, ∀ vs, r.rows = some vs → M ≤ vs.length) :
    (start a replies).1 ≠ .fails :=
  run_no_failure a hs M hg h1 h2 replies [] .initHi ⟨[], [], []⟩ hr (fun h => (nomatch h)) (fun h => (nomatch h)) (fun h => (nomatch h))

/-- With `n_opt_hifi` above the number of points proposed, a run that is not stopped fails after its third batch. -/
theorem C90_weights (a : Ax X V) (hs : Sorts a.argsort) (v1 v2 v3 : List V) (rest : List (Reply V)) (hg : ∀ tr h, (a.gen tr a.nOptLofi h).length < a.nOptHifi) :
    (start a (.vals v1 :: .vals v2 :: .vals v3 :: rest)).1 = .fails := by
  have hf := start_final a hs (.vals v1 :: .vals v2 :: .vals v3 :: rest)
  generalize start a (.vals v1 :: .vals v2 :: .vals v3 :: rest) = r at hf
  have key : ¬ r.1 ≠ .fails := by
    intro hn
    have hl := hf.eq hn
    simp only [lead] at hl
    have h2 : 2 < r.2.exp.length := by omega
    have h3 : 3 < r.2.exp.length := by omega
    have a2 := hf.al 2 _ (List.getElem?_eq_getElem h2)
    have a3 := hf.al 3 _ (List.getElem?_eq_getElem h3)
    have e2 : (r.2.exp.take 2).length = 2 := by rw [List.length_take]; omega
    have e3 : (r.2.exp.take 3).length = 3 := by rw [List.length_take]; omega
    obtain ⟨h, -, -, -, hp⟩ := a2.2.2.2.1 (by omega) (by rw [e2]; rfl)
    obtain ⟨prev, hprev, hlen, htop⟩ := a3.2.2.2.2 (by omega) (by rw [e3]; rfl)
    have : prev = r.2.exp[2] := by
      rw [List.getLast?_eq_getElem?, e3, List.getElem?_take_of_lt (by omega), List.getElem?_eq_getElem h2] at hprev
      exact (Option.some.inj hprev).symm
    subst this
    have h4 := htop.1
    have h5 := hg (r.2.exp.take 2) h
    rw [← hp] at h5
    omega
  cases hr : r.1 with
  | fails => rfl
  | returned => exact absurd (by rw [hr]; simp) key
  | waits => exact absurd (by rw [hr]; simp) key

/-! ### A case -/

def ins (u : List Int) (i : Nat) : List Nat → List Nat
  | [] => [i]
  | j :: l => if u.getD i 0 ≤ u.getD j 0 then i :: j :: l else j :: ins u i l

theorem ins_perm (u : List Int) (i : Nat) : ∀ l, (ins u i l).Perm (i :: l)
  | [] => .refl _
  | j :: l => by
    rw [ins]
    split
    · exact .refl _
    · exact ((ins_perm u i l).cons j).trans (.swap i j l)

theorem ins_sorted (u : List Int) (i : Nat) : ∀ l, l.Pairwise (fun i j => u.getD i 0 ≤ u.getD j 0) → (ins u i l).Pairwise (fun i j => u.getD i 0 ≤ u.getD j 0)
  | [], _ => by simp [ins]
  | j :: l, h => by
    rw [ins]
    rw [List.pairwise_cons] at h
    split
    · rename_i hij
      rw [List.pairwise_cons, List.pairwise_cons]
      refine ⟨?_, h⟩
      intro k hk
      rcases List.mem_cons.mp hk with rfl | hk
      · exact hij
      · exact Int.le_trans hij (h.1 k hk)
    · rename_i hij
      rw [List.pairwise_cons]
      refine ⟨?_, ins_sorted u i l h.2⟩
      intro k hk
      rcases List.mem_cons.mp ((ins_perm u i l).mem_iff.mp hk) with rfl | hk
      · omega
      · exact h.1 k hk

def sortIdx (u : List Int) : List Nat := (List.range u.length).foldr (ins u) []

theorem sortIdx_sorts : Sorts sortIdx := by
  intro u
  have h : ∀ l : List Nat, (l.foldr (ins u) []).Perm l ∧ (l.foldr (ins u) []).Pairwise (fun i j => u.getD i 0 ≤ u.getD j 0) := by
    intro l
    induction l with
    | nil => simp
    | cons i l ih => exact ⟨(ins_perm u i _).trans (ih.1.cons i), ins_sorted u i _ ih.2⟩
  refine ⟨(h _).1, (h _).2.imp ?_⟩
  intro i j hij x y hx hy
  rw [List.getD_eq_getElem?_getD, List.getD_eq_getElem?_getD, hx, hy] at hij
  exact hij

/-- Four points of low fidelity, of which the nearest to 6 are repeated. -/
def exAx (nHi : Nat) : Ax Nat Int where
  nInitHifi := 1
  nInitLofi := 2
  nOptHifi := nHi
  nOptLofi := 4
  sobol := List.range
  gen := fun tr n h => (List.range n).map (fun i => 10 * h + tr.length + 3 * i)
  util := fun _ x => - ((x : Int) - 6) * ((x : Int) - 6)
  argsort := sortIdx

example : start (exAx 2) [.vals [1], .vals [1, 2], .vals [1, 2, 3, 4], .vals [5, 6], .stop none] = (.returned,
    ⟨[⟨.hifi, [0], some [1]⟩, ⟨.lofi, [0, 1], some [1, 2]⟩, ⟨.lofi, [2, 5, 8, 11], some [1, 2, 3, 4]⟩, ⟨.hifi, [5, 8], some [5, 6]⟩, ⟨.lofi, [34, 37, 40, 43], none⟩], [0, 3],
     [[⟨.hifi, [0], some [1]⟩, ⟨.lofi, [0, 1], some [1, 2]⟩],
      [⟨.hifi, [0], some [1]⟩, ⟨.lofi, [0, 1], some [1, 2]⟩, ⟨.lofi, [2, 5, 8, 11], some [1, 2, 3, 4]⟩, ⟨.hifi, [5, 8], some [5, 6]⟩]]⟩) := by decide

/-- A stop after a batch of low fidelity: its values, and those that come with the stop, are in no file. -/
theorem C90_unsaved_witness : (start (exAx 2) [.vals [1], .vals [1, 2], .vals [1, 2, 3, 4], .stop (some [5, 6])]).1 = .returned ∧
    (start (exAx 2) [.vals [1], .vals [1, 2], .vals [1, 2, 3, 4], .stop (some [5, 6])]).2.exp.map (·.vals) = [some [1], some [1, 2], some [1, 2, 3, 4], some [5, 6]] ∧
    (start (exAx 2) [.vals [1], .vals [1, 2], .vals [1, 2, 3, 4], .stop (some [5, 6])]).2.saved.map (·.map (·.vals)) = [[some [1], some [1, 2]]] := by decide

/-- More points of high than of low fidelity. -/
theorem C90_weights_witness : (start (exAx 5) [.vals [1], .vals [1, 2], .vals [1, 2, 3, 4]]).1 = .fails := by decide

end Verif.MultiTask
