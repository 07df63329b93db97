import Verif.Aposmm.Reach

/-
Whole passes, and every reachable state.
-/
namespace Verif.Aposmm

variable {α : Type}

/-- The rows given at the start: numbered, and without what a former run of APOSMM noted in `known_to_aposmm` and `num_active_runs`. -/
structure Given (H : List (ARow α)) : Prop where
  ids : ∀ (i : Nat) (r : ARow α), H[i]? = some r → r.sid = i
  known : ∀ r ∈ H, r.known = false
  nact : ∀ r ∈ H, r.nact = 0

/-- Every state of the generator after a pass: the results received are for rows that have none, each once. -/
inductive Reach (cf : Cfg α) (H : List (ARow α)) : St α → Prop
  | init {s : St α} : Given H → begin cf H = .ok s → Reach cf H s
  | pass {s s' : St α} {vals : List (Nat × FVal)} : Reach cf H s → (s.sent = true → Fresh s.rows vals) → pass cf s (.work vals) = .ok (some s') →
      Reach cf H s'

/-- Every state in which the generator decides where to start runs. -/
inductive Decides (cf : Cfg α) (H : List (ARow α)) : St α → Prop
  | first {s : St α} : Reach cf H s → s.sent = false → Decides cf H s
  | later {s0 s1 s : St α} {vals : List (Nat × FVal)} {o : Out} : Reach cf H s0 → s0.sent = true → enough cf s0 = false → Fresh s0.rows vals →
      receive cf s0 vals = .ok s1 → passRows cf (vals.map (·.1)) s1 {} = .ok (s, o) → Decides cf H s

structure Inv (cf : Cfg α) (H : List (ARow α)) (s : St α) : Prop where
  dist : Dist cf.geo s.rows
  told : Told s.rows
  best : HasBest s.rows
  book : Book cf H s [] none
  sent : H.length ≤ s.rows.length ∧ sentNew s.tr = List.range' H.length (s.rows.length - H.length)
  rep : Reports cf s (sentOpt s.tr)

/-- Rows that differ in what the bookkeeping of runs does not look at. -/
theorem Book.rows {cf : Cfg α} {H : List (ARow α)} {s : St α} {P P' : List Nat} (h : Book cf H s P none) (rows' : List (ARow α)) (ns : Nat) (e : List (Nat × FVal))
    (hr : ∀ (i : Nat) (q : ARow α), rows'[i]? = some q → ∃ p, s.rows[i]? = some p ∧ q.x = p.x ∧ q.isLocal = p.isLocal ∧ q.started = p.started ∧
      q.nact = p.nact ∧ q.lmin = p.lmin) (hlen : rows'.length = s.rows.length)
    (hl : ∀ i, Live { s with rows := rows', ns := ns, tr := .got e :: s.tr } P' i ↔ Live s P i) :
    Book cf H { s with rows := rows', ns := ns, tr := .got e :: s.tr } P' none := by
  have back : ∀ (i : Nat) (p : ARow α), s.rows[i]? = some p → ∃ q, rows'[i]? = some q ∧ q.x = p.x ∧ q.isLocal = p.isLocal ∧ q.started = p.started := by
    intro i p hp
    have hl : i < rows'.length := by rw [hlen]; exact (List.getElem?_eq_some_iff.mp hp).1
    obtain ⟨p2, h2, a, b, c, _⟩ := hr i _ (List.getElem?_eq_getElem hl)
    rw [hp] at h2; cases h2
    exact ⟨_, List.getElem?_eq_getElem hl, a, b, c⟩
  refine { h with live := ?_, asks := ?_, bound := ?_, heads := ?_, nact1 := ?_, nact0 := ?_, points := ?_, mins := ?_ }
  · intro c hw
    obtain ⟨p, h1, h2, h3⟩ := h.live c hw
    exact ⟨p, h1, (hl p).mpr h2, h3⟩
  · intro i c h1 h2
    exact h.asks i c ((hl i).mp h1) h2
  · intro c i hi
    show i < rows'.length
    rw [hlen]; exact h.bound c i hi
  · intro c i hi
    obtain ⟨r, h1, h2⟩ := h.heads c i hi
    obtain ⟨q, hq, _, _, e⟩ := back i r h1
    exact ⟨q, hq, by rw [e]; exact h2⟩
  · intro i q hq hs c hc hi
    obtain ⟨p, hp, _, _, e1, e2, _⟩ := hr i q hq
    rw [e2]; exact h.nact1 i p hp (by rw [← e1]; exact hs) c hc hi
  · intro i q hq hs hno
    obtain ⟨p, hp, _, _, e1, e2, _⟩ := hr i q hq
    rw [e2]; exact h.nact0 i p hp (by rw [← e1]; exact hs) hno
  · intro c k i hi
    obtain ⟨r, h1, h2, h3⟩ := h.points c k i hi
    obtain ⟨q, hq, e1, e2, _⟩ := back i r h1
    exact ⟨q, hq, by rw [e1]; exact h2, by rw [e2]; exact h3⟩
  · intro i q hq hm
    obtain ⟨p, hp, _, _, _, _, e⟩ := hr i q hq
    exact h.mins i p hp (by rw [← e]; exact hm)

theorem Inv.receive {cf : Cfg α} {H : List (ARow α)} {s : St α} {vals : List (Nat × FVal)} (h : Inv cf H s) (hf : Fresh s.rows vals) :
    ∃ s', receive cf s vals = .ok s' ∧ Mid cf H s.rows.length s' (vals.map (·.1)) {} ∧ s'.first = s.first ∧ s'.sent = s.sent ∧
      startsOf s'.tr = startsOf s.tr ∧ HasBest s'.rows ∧ s'.rows.length = s.rows.length ∧
      s'.ns = s.ns + vals.countP (fun v => ((s.rows[v.1]?).map fun r => !r.isLocal).getD false) := by
  obtain ⟨rows', hu, hd, ht, hbst, fr⟩ := updateDist_spec (h.dist.record hf)
  have hno : ¬ (vals.any (fun v => decide (s.rows.length ≤ v.1))) = true := by
    simp only [List.any_eq_true, decide_eq_true_eq]
    rintro ⟨v, hv, hle⟩
    obtain ⟨r, hr, _⟩ := hf.open' v hv
    have := (List.getElem?_eq_some_iff.mp hr).1
    omega
  have hlen : rows'.length = s.rows.length := by rw [fr.len, record_length]
  -- a row after, by the row before
  have row : ∀ (i : Nat) (q : ARow α), rows'[i]? = some q → ∃ p, s.rows[i]? = some p ∧ q.x = p.x ∧ q.isLocal = p.isLocal ∧ q.started = p.started ∧
      q.nact = p.nact ∧ q.lmin = p.lmin ∧ ((i ∈ vals.map (·.1) ∧ p.ended = false ∧ q.ended = true) ∨ (i ∉ vals.map (·.1) ∧ q.ended = p.ended)) := by
    intro i q hq
    obtain ⟨r, hr, lk⟩ := fr.like i q hq
    obtain ⟨p, hp, ⟨hn, rfl⟩ | ⟨y, hy, he, rfl⟩⟩ := record_cases hf hr
    · exact ⟨_, hp, lk.x, lk.loc, lk.started, lk.nact, lk.lmin, .inr ⟨hn, lk.ended⟩⟩
    · exact ⟨p, hp, lk.x, lk.loc, lk.started, lk.nact, lk.lmin, .inl ⟨List.mem_map.mpr ⟨_, hy, rfl⟩, he, lk.ended⟩⟩
  have back : ∀ (i : Nat) (p : ARow α), s.rows[i]? = some p → ∃ q, rows'[i]? = some q := fun i p hp =>
    ⟨_, List.getElem?_eq_getElem (by rw [hlen]; exact (List.getElem?_eq_some_iff.mp hp).1)⟩
  have hcount : vals.countP (fun v => (((record s.rows vals)[v.1]?).map fun r => !r.isLocal).getD false) =
      vals.countP (fun v => ((s.rows[v.1]?).map fun r => !r.isLocal).getD false) := by
    refine List.countP_congr fun v _ => ?_
    rw [record_get vals s.rows hf.nodup]
    cases s.rows[v.1]? with
    | none => rfl
    | some r =>
      simp only [Option.map_some]
      split <;> rfl
  have bk : ∀ ns : Nat, Book cf H { s with rows := rows', ns := ns, tr := .got vals :: s.tr } (vals.map (·.1)) none := by
    intro ns
    refine h.book.rows rows' _ _ (fun i q hq => ?_) hlen (fun i => ?_)
    · obtain ⟨p, h1, h2, h3, h4, h5, h6, _⟩ := row i q hq
      exact ⟨p, h1, h2, h3, h4, h5, h6⟩
    · unfold Live
      constructor
      · rintro (⟨q, hq, he⟩ | hm)
        · obtain ⟨p, hp, _, _, _, _, _, ⟨_, h2, _⟩ | ⟨_, h2⟩⟩ := row i q hq
          · exact .inl ⟨p, hp, h2⟩
          · exact .inl ⟨p, hp, by rw [← h2]; exact he⟩
        · obtain ⟨v, hv, rfl⟩ := List.mem_map.mp hm
          exact .inl (hf.open' v hv)
      · rintro (⟨p, hp, he⟩ | hm)
        · by_cases hi : i ∈ vals.map (·.1)
          · exact .inr hi
          · obtain ⟨q, hq⟩ := back i p hp
            obtain ⟨p2, hp2, _, _, _, _, _, ⟨h1, _⟩ | ⟨_, h2⟩⟩ := row i q hq
            · exact absurd h1 hi
            · rw [hp] at hp2; cases hp2
              exact .inl ⟨q, hq, by rw [h2]; exact he⟩
        · simp at hm
  refine ⟨({ s with rows := rows', ns := (s.ns + vals.countP (fun v => ((s.rows[v.1]?).map fun r => !r.isLocal).getD false)),
                    tr := (.got vals :: s.tr) } : St α), ?_, ?_, rfl, rfl, rfl, hbst, hlen, rfl⟩
  · unfold Aposmm.receive; rw [if_neg hno]; simp only [hu, hcount]
  refine ⟨hd, ht, hbst, bk _, ?_, hf.nodup, ?_, h.sent, ?_⟩
  · intro i hi
    obtain ⟨v, hv, rfl⟩ := List.mem_map.mp hi
    obtain ⟨p, hp, _⟩ := hf.open' v hv
    obtain ⟨q, hq⟩ := back _ p hp
    obtain ⟨_, _, _, _, _, _, _, ⟨_, _, h1⟩ | ⟨h1, _⟩⟩ := row _ q hq
    · exact ⟨q, hq, h1⟩
    · exact absurd hi h1
  · show s.rows.length ≤ rows'.length ∧ [] = List.range' s.rows.length (rows'.length - s.rows.length)
    rw [hlen]; simp
  · show Reports cf _ (sentOpt s.tr ++ [])
    rw [List.append_nil]
    refine h.rep.ext ⟨fun i p hp => ?_, fun _ _ => rfl, fun _ _ => rfl⟩ rfl h.book.bound
    obtain ⟨q, hq⟩ := back i p hp
    obtain ⟨p2, hp2, e1, _, _, _, e2, _⟩ := row i q hq
    rw [hp] at hp2; cases hp2
    exact ⟨q, hq, e1, fun e => by rw [e2]; exact e⟩

/-! ### New sample points -/

theorem Book.addSample {cf : Cfg α} {H : List (ARow α)} {s : St α} (h : Book cf H s [] none) (x : α) :
    Book cf H { s with rows := addRow s.rows x false } [] none := by
  have rget := addRow_get s.rows x false
  have rold : ∀ (j : Nat) (r : ARow α), s.rows[j]? = some r → (addRow s.rows x false)[j]? = some r := by
    intro j r hr
    rw [rget, if_neg (by have := (List.getElem?_eq_some_iff.mp hr).1; omega)]; exact hr
  have out : ∀ c i, i ∈ ordOf s c → i ≠ s.rows.length := fun c i hi => by have := h.bound c i hi; omega
  refine { h with live := ?_, asks := ?_, bound := ?_, heads := ?_, nact1 := ?_, nact0 := ?_, points := ?_, mins := ?_ }
  · intro c hw
    obtain ⟨p, h1, h2, h3⟩ := h.live c hw
    refine ⟨p, h1, ?_, h3⟩
    rcases h2 with ⟨r, hr, he⟩ | h2
    · exact .inl ⟨r, rold p r hr, he⟩
    · exact .inr h2
  · intro i c hl hc
    refine h.asks i c ?_ hc
    have hne := out c i (List.mem_of_mem_tail ((h.owner i c).mp hc))
    rcases hl with ⟨r, hr, he⟩ | hl
    · have hr' : (addRow s.rows x false)[i]? = some r := hr
      rw [rget, if_neg hne] at hr'
      exact .inl ⟨r, hr', he⟩
    · exact .inr hl
  · intro c i hi
    show i < (addRow s.rows x false).length
    have := h.bound c i hi
    simp [addRow]; omega
  · intro c i hi
    obtain ⟨r, h1, h2⟩ := h.heads c i hi
    exact ⟨r, rold i r h1, h2⟩
  · intro i r hr hs c hc hi
    have hr' : (addRow s.rows x false)[i]? = some r := hr
    rw [rget, if_neg (out c i (List.mem_of_mem_tail hi))] at hr'
    exact h.nact1 i r hr' hs c hc hi
  · intro i r hr hs hno
    have hr' : (addRow s.rows x false)[i]? = some r := hr
    rw [rget] at hr'
    split at hr'
    · cases hr'; rfl
    · exact h.nact0 i r hr' hs hno
  · intro c k i hi
    obtain ⟨r, h1, h2⟩ := h.points c k i hi
    exact ⟨r, rold i r h1, h2⟩
  · intro i r hr hm
    have hr' : (addRow s.rows x false)[i]? = some r := hr
    rw [rget] at hr'
    split at hr'
    · cases hr'; cases hm
    · exact h.mins i r hr' hm

theorem Book.addSamples {cf : Cfg α} {H : List (ARow α)} (k : Nat) {s : St α} (h : Book cf H s [] none) :
    Book cf H { s with rows := addSamples cf k s.rows } [] none := by
  induction k generalizing s with
  | zero => exact h
  | succ k ih => exact ih (h.addSample (cf.samp s.rows.length))

theorem addSamples_length (cf : Cfg α) (k : Nat) (rows : List (ARow α)) : (addSamples cf k rows).length = rows.length + k := by
  induction k generalizing rows with
  | zero => rfl
  | succ k ih => rw [addSamples, ih]; simp [addRow]; omega

theorem addSamples_old (cf : Cfg α) (k : Nat) (rows : List (ARow α)) (i : Nat) (r : ARow α) (h : rows[i]? = some r) :
    (addSamples cf k rows)[i]? = some r := by
  induction k generalizing rows with
  | zero => exact h
  | succ k ih =>
    refine ih _ ?_
    rw [addRow_get, if_neg (by have := (List.getElem?_eq_some_iff.mp h).1; omega)]; exact h

/-- Writing the trace and the flags of a pass does not matter to the bookkeeping. -/
theorem Book.flags {cf : Cfg α} {H : List (ARow α)} {s : St α} {P : List Nat} (h : Book cf H s P none) (f t : Bool) (a b : List Nat) :
    Book cf H { s with first := f, sent := t, tr := .send a b :: s.tr } P none := { h with }

theorem startInds_mem {g : Geo α} {rows : List (ARow α)} {rk : Option Int} {mu nu : Int} {i : Nat} :
    i ∈ startInds g rows rk mu nu ↔ ∃ r, rows[i]? = some r ∧ (r.sampleStart g rows rk mu nu = true ∨ r.localStart g rows rk mu nu = true) := by
  have ins : ∀ (v : Nat → FVal) (j : Nat) (l : List Nat), i ∈ insertBy v j l ↔ i = j ∨ i ∈ l := by
    intro v j l
    induction l with
    | nil => simp [insertBy]
    | cons a l ih =>
      rw [insertBy]
      split
      · simp only [List.mem_cons, ih]
        constructor
        · rintro (h | h | h)
          · exact .inr (.inl h)
          · exact .inl h
          · exact .inr (.inr h)
        · rintro (h | h | h)
          · exact .inr (.inl h)
          · exact .inl h
          · exact .inr (.inr h)
      · simp
  have fold : ∀ (v : Nat → FVal) (l : List Nat), i ∈ l.foldr (insertBy v) [] ↔ i ∈ l := by
    intro v l
    induction l with
    | nil => simp
    | cons a l ih => rw [List.foldr_cons, ins, ih]; simp
  have wh : ∀ p : ARow α → Bool, i ∈ indsWhere rows p ↔ ∃ r, rows[i]? = some r ∧ p r = true := by
    intro p
    simp only [indsWhere, List.mem_filter, List.mem_range]
    cases h : rows[i]? with
    | none => simp
    | some r =>
      have := (List.getElem?_eq_some_iff.mp h).1
      simp [this]
  rw [startInds, fold, List.mem_append, wh, wh]
  constructor
  · rintro (⟨r, h1, h2⟩ | ⟨r, h1, h2⟩)
    · exact ⟨r, h1, .inl h2⟩
    · exact ⟨r, h1, .inr h2⟩
  · rintro ⟨r, h1, h2 | h2⟩
    · exact .inl ⟨r, h1, h2⟩
    · exact .inr ⟨r, h1, h2⟩

theorem Mid.finishPass {cf : Cfg α} {H : List (ARow α)} {s : St α} {n : Nat} {o : Out} (nr : Nat) (h : Mid cf H n s [] o) :
    (∃ e, finishPass cf nr s o = .error e ∧ OptErr e) ∨ ∃ s', finishPass cf nr s o = .ok s' ∧ Inv cf H s' ∧ s'.sent = true ∧ s'.first = false ∧
      n + (if s.first = true then cf.nworkers - 1 else nr) ≤ s'.rows.length ∧
      startsOf s'.tr = startsOf s.tr ++ (startInds cf.geo s.rows (cf.rk s.ns) cf.mu cf.nu).take
        (room cf s (startInds cf.geo s.rows (cf.rk s.ns) cf.mu cf.nu)) := by
  unfold Aposmm.finishPass
  rcases h.startAll (startInds cf.geo s.rows (cf.rk s.ns) cf.mu cf.nu)
      (fun i hi => by obtain ⟨r, hr, _⟩ := startInds_mem.mp hi; exact (List.getElem?_eq_some_iff.mp hr).1) with
    ⟨e, he, hoe⟩ | ⟨s1, o1, e1, h1, gr, st, ts⟩
  · rw [he]; exact .inl ⟨e, rfl, hoe⟩
  · rw [e1]
    dsimp only
    generalize hk : (if s1.first = true then cf.nworkers - 1 else nr) - o1.new.length = k
    have gs := grow_addSamples cf k s1.rows
    have hnl : o1.new.length = s1.rows.length - n := by rw [h1.new.2]; simp
    refine .inr ⟨_, rfl, ⟨h1.dist.grow gs, h1.told.grow gs, h1.best.grow gs, (h1.book.addSamples k).flags _ _ _ _, ?_, ?_⟩, rfl, rfl, ?_, ts⟩
    · show H.length ≤ (addSamples cf k s1.rows).length ∧ sentNew s1.tr ++ (o1.new ++ List.range' s1.rows.length k) =
        List.range' H.length ((addSamples cf k s1.rows).length - H.length)
      rw [addSamples_length, h1.sent.2, h1.new.2]
      have a1 := h1.sent.1
      have a2 := h1.new.1
      refine ⟨by omega, ?_⟩
      have e2 : List.range' n (s1.rows.length - n) ++ List.range' s1.rows.length k = List.range' n (s1.rows.length - n + k) := by
        have := List.range'_append_1 (s := n) (m := s1.rows.length - n) (n := k)
        rw [show n + (s1.rows.length - n) = s1.rows.length by omega] at this
        rw [this]
      rw [e2]
      have := List.range'_append_1 (s := H.length) (m := n - H.length) (n := s1.rows.length - n + k)
      rw [show H.length + (n - H.length) = n by omega] at this
      rw [this]
      congr 1
      omega
    · show Reports cf _ (sentOpt s1.tr ++ o1.opt)
      refine h1.rep.ext ⟨fun i r hr => ?_, fun _ _ => rfl, fun _ _ => rfl⟩ rfl h1.book.bound
      exact ⟨r, addSamples_old cf k s1.rows i r hr, rfl, id⟩
    · show n + _ ≤ (addSamples cf k s1.rows).length
      rw [addSamples_length]
      have a2 := h1.new.1
      rw [st.first] at hk
      omega

theorem Inv.mid {cf : Cfg α} {H : List (ARow α)} {s : St α} (h : Inv cf H s) : Mid cf H s.rows.length s [] {} :=
  ⟨h.dist, h.told, h.best, h.book, by simp, List.nodup_nil, by simp, h.sent, by rw [show sentOpt s.tr ++ ({} : Out).opt = sentOpt s.tr from List.append_nil _]; exact h.rep⟩

/-- One pass: the generator returns because it has found enough, an optimizer fails, or the pass is completed. -/
theorem Inv.pass {cf : Cfg α} {H : List (ARow α)} {s : St α} {vals : List (Nat × FVal)} (h : Inv cf H s) (hf : s.sent = true → Fresh s.rows vals) :
    (pass cf s (.work vals) = .ok none ∧ s.sent = true ∧ enough cf s = true) ∨ (∃ e, pass cf s (.work vals) = .error e ∧ OptErr e) ∨
      ∃ s', pass cf s (.work vals) = .ok (some s') ∧ Inv cf H s' ∧ s'.sent = true ∧ s'.first = false ∧
        s.rows.length + (if s.first = true then cf.nworkers - 1 else if s.sent = true then vals.length else 0) ≤ s'.rows.length := by
  unfold Aposmm.pass
  cases hs : s.sent with
  | false =>
    simp only [Bool.false_eq_true, if_false]
    rcases h.mid.finishPass 0 with ⟨e, he, hoe⟩ | ⟨s', e1, h1, h2, h3, h4, _⟩
    · rw [he]; exact .inr (.inl ⟨e, rfl, hoe⟩)
    · rw [e1]; exact .inr (.inr ⟨s', rfl, h1, h2, h3, h4⟩)
  | true =>
    simp only [if_true]
    cases hen : enough cf s with
    | true => exact .inl ⟨by simp, by trivial, by trivial⟩
    | false =>
      simp only [Bool.false_eq_true, if_false]
      obtain ⟨s1, e1, m1, f1, _, _, _, l1, _⟩ := h.receive (hf hs)
      rw [e1]
      dsimp only
      rcases m1.passRows with e2 | ⟨s2, o2, e2, m2, _, st2, _⟩
      · rw [e2]; exact .inr (.inl ⟨_, rfl, .inl rfl⟩)
      · rw [e2]
        dsimp only
        rcases m2.finishPass vals.length with ⟨e, he, hoe⟩ | ⟨s', e3, h1, h2, h3, h4, _⟩
        · rw [he]; exact .inr (.inl ⟨e, rfl, hoe⟩)
        · rw [e3]
          refine .inr (.inr ⟨s', rfl, h1, h2, h3, ?_⟩)
          rw [st2.first, f1] at h4
          exact h4

/-! ### The beginning -/

/-- The rows given, with the distances reset. -/
def reset (H : List (ARow α)) : List (ARow α) := H.map fun r => { r with bnd := none, dl := none, ds := none, il := -1, iS := -1 }

theorem dist_reset {g : Geo α} {H : List (ARow α)} (h : Given H) : Dist g (reset H) := by
  have row : ∀ (i : Nat) (q : ARow α), (reset H)[i]? = some q → ∃ r, H[i]? = some r ∧ q.sid = r.sid ∧ q.known = false ∧ ∀ k, q.d k = none := by
    intro i q hq
    rw [reset, List.getElem?_map, Option.map_eq_some_iff] at hq
    obtain ⟨r, hr, rfl⟩ := hq
    exact ⟨r, hr, rfl, h.known r (List.mem_iff_getElem?.mpr ⟨i, hr⟩), fun k => by cases k <;> rfl⟩
  refine ⟨?_, ?_, ?_, ?_, ?_, ?_⟩
  · intro i q hq; obtain ⟨r, hr, e, _⟩ := row i q hq; rw [e]; exact h.ids i r hr
  · intro i q hq hk; obtain ⟨_, _, _, e, _⟩ := row i q hq; rw [e] at hk; cases hk
  · intro i q hq _ k; obtain ⟨_, _, _, _, e⟩ := row i q hq; exact e k
  · intro i j q o hq _ hk; obtain ⟨_, _, _, e, _⟩ := row i q hq; rw [e] at hk; cases hk
  · intro i q k d hq hd; obtain ⟨_, _, _, _, e⟩ := row i q hq; rw [e] at hd; cases hd
  · intro i q hq hk; obtain ⟨_, _, _, e, _⟩ := row i q hq; rw [e] at hk; cases hk

theorem begin_spec (cf : Cfg α) {H : List (ARow α)} (h : Given H) :
    (begin cf H = .error .noPoints ∧ cf.initial = 0 ∧ ∀ r ∈ H, r.isLocal = true) ∨ ∃ s, begin cf H = .ok s ∧ Inv cf H s ∧ s.first = true ∧
      s.rows.length = H.length + cf.initial := by
  have hrows : ∃ rows, (if (reset H).isEmpty = true then (.ok (reset H) : Except Err (List (ARow α))) else updateDist cf.geo (reset H)) = .ok rows ∧
      Dist cf.geo rows ∧ Told rows ∧ HasBest rows ∧ Frame (reset H) rows := by
    by_cases he : (reset H).isEmpty = true
    · rw [if_pos he]
      refine ⟨_, rfl, dist_reset h, ?_, ?_, Frame.refl _⟩
      · intro i r hr
        rw [List.isEmpty_iff.mp he] at hr; simp at hr
      · rintro ⟨r, hr, _⟩
        rw [List.isEmpty_iff.mp he] at hr; simp at hr
    · rw [if_neg he]
      obtain ⟨rows, h1, h2, h3, h4, h5⟩ := updateDist_spec (dist_reset (g := cf.geo) h)
      exact ⟨rows, h1, h2, h3, h4, h5⟩
  obtain ⟨rows, e1, hd, ht, hbs, fr⟩ := hrows
  have row : ∀ (i : Nat) (q : ARow α), rows[i]? = some q → ∃ r, H[i]? = some r ∧ q.isLocal = r.isLocal ∧ q.nact = 0 ∧ q.lmin = r.lmin := by
    intro i q hq
    obtain ⟨p, hp, lk⟩ := fr.like i q hq
    rw [reset, List.getElem?_map, Option.map_eq_some_iff] at hp
    obtain ⟨r, hr, rfl⟩ := hp
    exact ⟨r, hr, lk.loc, lk.nact.trans (h.nact r (List.mem_iff_getElem?.mpr ⟨i, hr⟩)), lk.lmin⟩
  have hlen : rows.length = H.length := by rw [fr.len]; simp [reset]
  have e0 : begin cf H = (match (if (reset H).isEmpty = true then (.ok (reset H) : Except Err (List (ARow α))) else updateDist cf.geo (reset H)) with
      | .error e => .error e
      | .ok rows =>
        if rows.countP (fun r => !r.isLocal) = 0 ∧ cf.initial = 0 then .error .noPoints
        else if cf.initial = 0 then .ok { rows := rows, ns := rows.countP fun r => !r.isLocal }
        else .ok { rows := addSamples cf cf.initial rows, ns := rows.countP (fun r => !r.isLocal), sent := true,
                   tr := [.send (List.range' rows.length cf.initial) []] }) := rfl
  rw [e0, e1]
  dsimp only
  have bk : Book cf H { rows := rows, ns := rows.countP fun r => !r.isLocal } [] none := by
    have ho : ∀ c, ordOf ({ rows := rows, ns := rows.countP fun r => !r.isLocal } : St α) c = [] := by intro c; simp [ordOf]
    refine ⟨by simp, List.nodup_nil, by simp, List.nodup_nil, by simp, by simp, ?_, fun c _ => ho c, fun _ => .inl rfl, ?_, ?_, ?_, fun c => by rw [ho]; exact List.Pairwise.nil, ?_, ?_, ?_, by simp,
      fun _ => rfl, ?_, by simp, ?_⟩
    · rintro c ⟨hc, _⟩; simp at hc
    · intro i c; rw [ho]; simp
    · intro i c _ hc; cases hc
    · intro c i hi; rw [ho] at hi; simp at hi
    · intro c i hi; rw [ho] at hi; simp at hi
    · intro i r _ _ c hc; simp at hc
    · intro i r hr _ _; obtain ⟨_, _, _, e, _⟩ := row i r hr; exact e
    · intro c k i hi; rw [ho] at hi; simp at hi
    · intro i r hr hm; obtain ⟨r0, h0, _, _, e⟩ := row i r hr; exact .inl ⟨r0, h0, by rw [← e]; exact hm⟩
  have rep : ∀ s : St α, s.endedRuns = [] → Reports cf s [] := by
    intro s hs; exact ⟨by rw [hs], fun k j c h1 => by simp at h1⟩
  by_cases c1 : rows.countP (fun r => !r.isLocal) = 0 ∧ cf.initial = 0
  · rw [if_pos c1]
    refine .inl ⟨rfl, c1.2, fun r hr => ?_⟩
    obtain ⟨i, hi⟩ := List.mem_iff_getElem?.mp hr
    have hl : i < rows.length := by rw [hlen]; exact (List.getElem?_eq_some_iff.mp hi).1
    obtain ⟨r2, h2, e2, _⟩ := row i _ (List.getElem?_eq_getElem hl)
    rw [hi] at h2; cases h2
    have := List.countP_eq_zero.mp c1.1 _ (List.getElem_mem hl)
    rw [← e2]; simpa using this
  · rw [if_neg c1]
    by_cases c2 : cf.initial = 0
    · rw [if_pos c2]
      exact .inr ⟨_, rfl, ⟨hd, ht, hbs, bk, ⟨by show H.length ≤ rows.length; omega, by show [] = List.range' H.length (rows.length - H.length); rw [hlen]; simp⟩,
        rep _ rfl⟩, rfl, by show rows.length = _; omega⟩
    · rw [if_neg c2]
      have gs := grow_addSamples cf cf.initial rows
      refine .inr ⟨_, rfl, ⟨hd.grow gs, ht.grow gs, hbs.grow gs, ?_, ?_, rep _ rfl⟩, rfl, ?_⟩
      · exact (bk.addSamples cf.initial).flags true true (List.range' rows.length cf.initial) []
      · show H.length ≤ (addSamples cf cf.initial rows).length ∧ [] ++ List.range' rows.length cf.initial =
          List.range' H.length ((addSamples cf cf.initial rows).length - H.length)
        rw [addSamples_length, hlen]
        refine ⟨by omega, ?_⟩
        rw [show H.length + cf.initial - H.length = cf.initial by omega]; rfl
      · show (addSamples cf cf.initial rows).length = _
        rw [addSamples_length, hlen]

theorem Reach.inv {cf : Cfg α} {H : List (ARow α)} {s : St α} (h : Reach cf H s) : Inv cf H s := by
  induction h with
  | init hg hb =>
    rcases begin_spec cf hg with ⟨e, _⟩ | ⟨s', e, hi, _⟩
    · rw [e] at hb; cases hb
    · rw [e] at hb; cases hb; exact hi
  | pass _ hf hp ih =>
    rcases ih.pass hf with ⟨e, _⟩ | ⟨e, he, _⟩ | ⟨s', e, hi, _⟩
    · rw [e] at hp; cases hp
    · rw [he] at hp; cases hp
    · rw [e] at hp; cases hp; exact hi

theorem Decides.mid {cf : Cfg α} {H : List (ARow α)} {s : St α} (h : Decides cf H s) : ∃ n o, Mid cf H n s [] o := by
  cases h with
  | first hr _ => exact ⟨_, _, hr.inv.mid⟩
  | later hr hs _ hf h1 h2 =>
    obtain ⟨s1, e1, m1, _⟩ := hr.inv.receive hf
    rw [e1] at h1; cases h1
    rcases m1.passRows with e2 | ⟨s2, o2, e2, m2, _⟩
    · rw [e2] at h2; cases h2
    · rw [e2] at h2; cases h2; exact ⟨_, _, m2⟩

end Verif.Aposmm
