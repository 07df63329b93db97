import Verif.Aposmm.Book

/-
The invariant of the generator, for every reachable state.
-/
namespace Verif.Aposmm

variable {α : Type}

/-- The new rows sent, oldest first. -/
def sentNew : List Ev → List Nat
  | [] => []
  | .send a _ :: t => sentNew t ++ a
  | .start _ _ :: t => sentNew t
  | .iter _ _ :: t => sentNew t
  | .conv _ :: t => sentNew t
  | .got _ :: t => sentNew t

/-- The rows reported as minima, oldest first. -/
def sentOpt : List Ev → List Nat
  | [] => []
  | .send _ b :: t => sentOpt t ++ b
  | .start _ _ :: t => sentOpt t
  | .iter _ _ :: t => sentOpt t
  | .conv _ :: t => sentOpt t
  | .got _ :: t => sentOpt t

/-- The rows at which runs were started, oldest first. -/
def startsOf : List Ev → List Nat
  | [] => []
  | .start _ i :: t => startsOf t ++ [i]
  | .send _ _ :: t => startsOf t
  | .iter _ _ :: t => startsOf t
  | .conv _ :: t => startsOf t
  | .got _ :: t => startsOf t

/-- Row `j` was rightly reported for run `c`. -/
structure Rep (cf : Cfg α) (s : St α) (j c : Nat) : Prop where
  mem : j ∈ ordOf s c
  near : ∃ x flag r, cf.ans c (s.calls c - 1) = .conv x flag ∧ s.rows[j]? = some r ∧ (flag = true → r.lmin = true) ∧
    ∀ i ∈ ordOf s c, ∀ q, s.rows[i]? = some q → cf.geo.dist r.x x ≤ cf.geo.dist q.x x

/-- The rows reported are those of the runs ended, in order. -/
def Reports (cf : Cfg α) (s : St α) (l : List Nat) : Prop :=
  l.length = s.endedRuns.length ∧ ∀ (k j c : Nat), l[k]? = some j → s.endedRuns[k]? = some c → Rep cf s j c

/-- What a step leaves of the ended runs and of the rows. -/
structure Ext (s s' : St α) : Prop where
  rows : ∀ (i : Nat) (r : ARow α), s.rows[i]? = some r → ∃ r', s'.rows[i]? = some r' ∧ r'.x = r.x ∧ (r.lmin = true → r'.lmin = true)
  ord : ∀ c ∈ s.endedRuns, ordOf s' c = ordOf s c
  calls : ∀ c ∈ s.endedRuns, s'.calls c = s.calls c

theorem Rep.ext {cf : Cfg α} {s s' : St α} {j c : Nat} (h : Rep cf s j c) (k : Ext s s') (hc : c ∈ s.endedRuns)
    (hb : ∀ i ∈ ordOf s c, i < s.rows.length) : Rep cf s' j c := by
  obtain ⟨hm, x, flag, r, h1, h2, h3, h4⟩ := h
  obtain ⟨r', hr', ex, el⟩ := k.rows j r h2
  refine ⟨by rw [k.ord c hc]; exact hm, x, flag, r', by rw [k.calls c hc]; exact h1, hr', fun hf => el (h3 hf), ?_⟩
  intro i hi q hq
  rw [k.ord c hc] at hi
  have hlt := hb i hi
  obtain ⟨q', hq', ex', _⟩ := k.rows i _ (List.getElem?_eq_getElem hlt)
  rw [hq] at hq'; cases hq'
  rw [ex, ex']
  exact h4 i hi _ (List.getElem?_eq_getElem hlt)

theorem Reports.ext {cf : Cfg α} {s s' : St α} {l : List Nat} (h : Reports cf s l) (k : Ext s s') (he : s'.endedRuns = s.endedRuns)
    (hb : ∀ c i, i ∈ ordOf s c → i < s.rows.length) : Reports cf s' l := by
  refine ⟨by rw [he]; exact h.1, fun a j c h1 h2 => ?_⟩
  rw [he] at h2
  exact (h.2 a j c h1 h2).ext k (List.mem_iff_getElem?.mpr ⟨a, h2⟩) (hb c)

/-- The state in the middle of a pass that began with `n` rows: `P` are the rows received but not passed on. -/
structure Mid (cf : Cfg α) (H : List (ARow α)) (n : Nat) (s : St α) (P : List Nat) (o : Out) : Prop where
  dist : Dist cf.geo s.rows
  told : Told s.rows
  best : HasBest s.rows
  book : Book cf H s P none
  pend : ∀ i ∈ P, ∃ r, s.rows[i]? = some r ∧ r.ended = true
  pnodup : P.Nodup
  new : n ≤ s.rows.length ∧ o.new = List.range' n (s.rows.length - n)
  sent : H.length ≤ n ∧ sentNew s.tr = List.range' H.length (n - H.length)
  rep : Reports cf s (sentOpt s.tr ++ o.opt)

theorem grow_ext {s s' : St α} (h : Grow s.rows s'.rows)
    (hl : ∀ (i : Nat) (r r' : ARow α), s.rows[i]? = some r → s'.rows[i]? = some r' → r.lmin = true → r'.lmin = true)
    (ho : ∀ c ∈ s.endedRuns, ordOf s' c = ordOf s c) (hc : ∀ c ∈ s.endedRuns, s'.calls c = s.calls c) : Ext s s' := by
  refine ⟨fun i r hr => ?_, ho, hc⟩
  obtain ⟨r', hr', c⟩ := h.keep i r hr
  exact ⟨r', hr', c.x, hl i r r' hr hr'⟩

theorem range'_succ_end {n m : Nat} (h : n ≤ m) : List.range' n (m - n) ++ [m] = List.range' n (m + 1 - n) := by
  have : m + 1 - n = (m - n) + 1 := by omega
  rw [this, List.range'_concat]
  congr 2
  omega

theorem Grow.ended {rows rows' : List (ARow α)} (h : Grow rows rows') {i : Nat} {r : ARow α} (hr : rows[i]? = some r) (he : r.ended = true) :
    ∃ r', rows'[i]? = some r' ∧ r'.ended = true := by
  obtain ⟨r', hr', c⟩ := h.keep i r hr
  exact ⟨r', hr', by rw [c.ended]; exact he⟩

/-- The step with a new point, from a state in which run `c` has just been asked. -/
theorem mid_addPoint {cf : Cfg α} {H : List (ARow α)} {n : Nat} {s : St α} {c : Nat} {P : List Nat} {o : Out} {x : α}
    (hd : Dist cf.geo s.rows) (ht : Told s.rows) (hbs : HasBest s.rows) (hb : Book cf H s P (some c)) (hp : ∀ i ∈ P, ∃ r, s.rows[i]? = some r ∧ r.ended = true)
    (hpn : P.Nodup) (hn : n ≤ s.rows.length ∧ o.new = List.range' n (s.rows.length - n))
    (hs : H.length ≤ n ∧ sentNew s.tr = List.range' H.length (n - H.length)) (hr : Reports cf s (sentOpt s.tr ++ o.opt))
    (ha : cf.ans c (s.calls c - 1) = .point x) (h0 : 0 < s.calls c) :
    Mid cf H n (addPoint s c x) P { o with new := o.new ++ [s.rows.length] } := by
  have gr : Grow s.rows (addPoint s c x).rows := grow_addRow s.rows x true
  have hcop := hb.adv c rfl
  refine ⟨hd.grow gr, ht.grow gr, hbs.grow gr, hb.addPoint (fun i hi => ?_) ha h0, fun i hi => ?_, hpn, ?_, hs, ?_⟩
  · obtain ⟨r, h1, _⟩ := hp i hi; exact (List.getElem?_eq_some_iff.mp h1).1
  · obtain ⟨r, h1, h2⟩ := hp i hi; exact gr.ended h1 h2
  · have hl : (addPoint s c x).rows.length = s.rows.length + 1 := by simp [addPoint, addRow]
    refine ⟨by omega, ?_⟩
    show o.new ++ [s.rows.length] = _
    rw [hl, hn.2, range'_succ_end hn.1]
  · refine hr.ext (grow_ext gr ?_ ?_ fun _ _ => rfl) rfl hb.bound
    · intro i r r' h1 h2 h3
      have e : (addPoint s c x).rows[i]? = some r := by
        show (addRow s.rows x true)[i]? = some r
        rw [addRow_get, if_neg (by have := (List.getElem?_eq_some_iff.mp h1).1; omega)]; exact h1
      rw [h2] at e; cases e; exact h3
    · intro d hd'
      rw [ordOf_addPoint s c x d (hb.lt c hcop), if_neg]
      intro e; subst e; exact ((hb.endd d).mp hd').2 hcop

theorem Mid.skip {cf : Cfg α} {H : List (ARow α)} {n : Nat} {s : St α} {i : Nat} {P : List Nat} {o : Out} (h : Mid cf H n s (i :: P) o)
    (hc : s.child i = []) : Mid cf H n s P o :=
  ⟨h.dist, h.told, h.best, h.book.skip hc, fun j hj => h.pend j (List.mem_cons_of_mem _ hj), (List.nodup_cons.mp h.pnodup).2, h.new, h.sent, h.rep⟩

/-- Quantities a pass does not change before its end. -/
structure Still (s s' : St α) : Prop where
  ns : s'.ns = s.ns
  first : s'.first = s.first
  sent : s'.sent = s.sent

theorem Mid.passTo {cf : Cfg α} {H : List (ARow α)} {n : Nat} {s : St α} {i c : Nat} {P : List Nat} {o : Out} (h : Mid cf H n s (i :: P) o)
    (hc : s.child i = [c]) :
    passTo cf i c s o = .error .optimizer ∨ ∃ s' o', passTo cf i c s o = .ok (s', o') ∧ Mid cf H n s' P o' ∧ Grow s.rows s'.rows ∧ Still s s' ∧
      startsOf s'.tr = startsOf s.tr := by
  obtain ⟨hiP, hPn⟩ := List.nodup_cons.mp h.pnodup
  obtain ⟨ri, hri, hre⟩ := h.pend i List.mem_cons_self
  obtain ⟨hcop, hb⟩ := h.book.ask hc hiP (fun r hr => by rw [hri] at hr; cases hr; exact hre)
  have hcall : (ask cf s c i).2.calls c = s.calls c + 1 := by simp [ask]
  have hpend : ∀ j ∈ P, ∃ r, (ask cf s c i).2.rows[j]? = some r ∧ r.ended = true := fun j hj => h.pend j (List.mem_cons_of_mem _ hj)
  have ext0 : Ext s (ask cf s c i).2 := by
    refine ⟨fun j r hr => ⟨r, hr, rfl, id⟩, fun _ _ => rfl, fun d hd => ?_⟩
    have : d ≠ c := fun e => ((h.book.endd d).mp hd).2 (by rw [e]; exact hcop)
    simp [ask, this]
  have rep0 : Reports cf (ask cf s c i).2 (sentOpt (ask cf s c i).2.tr ++ o.opt) := h.rep.ext ext0 rfl h.book.bound
  unfold Aposmm.passTo
  rw [if_neg (by simpa using hcop)]
  rcases hans : cf.ans c (s.calls c) with x | ⟨x, flag⟩ | _
  · have e : Aposmm.ask cf s c i = (.point x, (Aposmm.ask cf s c i).2) := by rw [← hans]; rfl
    rw [e]
    refine .inr ⟨_, _, rfl, ?_, grow_addRow _ x true, ⟨rfl, rfl, rfl⟩, rfl⟩
    exact mid_addPoint h.dist h.told h.best hb hpend hPn h.new h.sent rep0 (by rw [hcall]; simpa using hans) (by omega)
  · have e : Aposmm.ask cf s c i = (.conv x flag, (Aposmm.ask cf s c i).2) := by rw [← hans]; rfl
    rw [e]
    have hcl := hb.lt c hcop
    obtain ⟨j, r, rows', ho, hj1, hj2, hj3, hlen, hrow⟩ :=
      optimal_spec cf (ask cf s c i).2.rows x flag (ordOf (ask cf s c i).2 c) (hb.first c hcl) (fun k hk => hb.bound c k hk)
    have hans' : cf.ans c ((ask cf s c i).2.calls c - 1) = .conv x flag := by rw [hcall]; simpa using hans
    have gr := optimal_core cf _ x flag _ j rows' ho
    have hb2 := hb.endRun hans' ho
    dsimp only
    have ho' : optimal cf (Aposmm.ask cf s c i).2.rows x flag (((Aposmm.ask cf s c i).2.order[c]?).getD []) = some (j, rows') := ho
    rw [ho']
    refine .inr ⟨endRun (ask cf s c i).2 c rows', _, rfl, ⟨h.dist.grow gr, h.told.grow gr, h.best.grow gr, hb2, ?_, hPn, ?_, h.sent, ?_⟩, gr, ⟨rfl, rfl, rfl⟩, rfl⟩
    · intro k hk; obtain ⟨q, h1, h2⟩ := hpend k hk; exact gr.ended h1 h2
    · show n ≤ rows'.length ∧ o.new = List.range' n (rows'.length - n)
      rw [hlen]; exact h.new
    · have ext1 : Ext (ask cf s c i).2 (endRun (ask cf s c i).2 c rows') := by
        refine grow_ext gr ?_ (fun _ _ => rfl) (fun _ _ => rfl)
        intro k q q' h1 h2 h3
        obtain ⟨p, hp, _, _, _, _, _, el, _⟩ := hrow k q' h2
        rw [h1] at hp; cases hp; exact el h3
      have hne : ∀ d, d ∈ (ask cf s c i).2.endedRuns → d ≠ c := fun d hd e => ((hb.endd d).mp hd).2 (by rw [e]; exact hcop)
      show Reports cf _ (sentOpt (ask cf s c i).2.tr ++ (o.opt ++ [j]))
      rw [← List.append_assoc]
      refine ⟨?_, fun k a d h1 h2 => ?_⟩
      · show _ = ((ask cf s c i).2.endedRuns ++ [c]).length
        simp only [List.length_append, List.length_singleton]
        have := rep0.1
        simp only [List.length_append] at this
        omega
      · have h2' : ((ask cf s c i).2.endedRuns ++ [c])[k]? = some d := h2
        rw [List.getElem?_append] at h1 h2'
        rw [rep0.1] at h1
        split at h1
        · rename_i hk
          rw [if_pos hk] at h2'
          exact (rep0.2 k a d h1 h2').ext ext1 (List.mem_iff_getElem?.mpr ⟨k, h2'⟩) (hb.bound d)
        · rename_i hk
          rw [if_neg hk] at h2'
          have hz : k - (ask cf s c i).2.endedRuns.length = 0 := by
            have := (List.getElem?_eq_some_iff.mp h1).1
            simp at this; omega
          rw [hz] at h1 h2'
          simp only [List.getElem?_cons_zero, Option.some.injEq] at h1 h2'
          subst h1; subst h2'
          have hjl : j < rows'.length := by rw [hlen]; exact hb.bound c j hj1
          obtain ⟨p, hp, cc, _, _, _, _, _, el⟩ := hrow j _ (List.getElem?_eq_getElem hjl)
          rw [hj2] at hp; cases hp
          refine ⟨hj1, x, flag, _, hans', List.getElem?_eq_getElem hjl, fun hf => el hf rfl, ?_⟩
          intro k2 hk2 q hq
          obtain ⟨p2, hp2, cc2, _⟩ := hrow k2 q hq
          rw [cc.x, cc2.x]
          exact hj3 k2 hk2 p2 hp2
  · have e : Aposmm.ask cf s c i = (.err, (Aposmm.ask cf s c i).2) := by rw [← hans]; rfl
    rw [e]
    exact .inl rfl

theorem Still.refl (s : St α) : Still s s := ⟨rfl, rfl, rfl⟩

theorem Still.trans {a b c : St α} (h : Still a b) (k : Still b c) : Still a c :=
  ⟨k.ns.trans h.ns, k.first.trans h.first, k.sent.trans h.sent⟩

theorem Mid.passRows {cf : Cfg α} {H : List (ARow α)} {n : Nat} (P : List Nat) {s : St α} {o : Out} (h : Mid cf H n s P o) :
    passRows cf P s o = .error .optimizer ∨ ∃ s' o', passRows cf P s o = .ok (s', o') ∧ Mid cf H n s' [] o' ∧ Grow s.rows s'.rows ∧ Still s s' ∧
      startsOf s'.tr = startsOf s.tr := by
  induction P generalizing s o with
  | nil => exact .inr ⟨s, o, rfl, h, Grow.refl _, Still.refl _, rfl⟩
  | cons i P ih =>
    rw [Aposmm.passRows]
    rcases h.book.sole i with hc | ⟨c, hc⟩
    · rw [hc, passAll]
      exact ih (h.skip hc)
    · rw [hc]
      rcases h.passTo hc with e | ⟨s', o', e, h', gr, st, ts⟩
      · refine .inl ?_
        rw [passAll, e]
      · rw [passAll, e]
        dsimp only
        rw [passAll]
        dsimp only
        rcases ih h' with e2 | ⟨s2, o2, e2, h2, gr2, st2, ts2⟩
        · exact .inl e2
        · exact .inr ⟨s2, o2, e2, h2, gr.trans gr2, st.trans st2, ts2.trans ts⟩

/-! ### Starting runs -/

/-- The state in which the new run has been given its starting point. -/
def opened (cf : Cfg α) (s : St α) (i : Nat) : St α :=
  (ask cf { s with rows := s.rows.modify i fun r => { r with started := true }, opters := s.opters ++ [s.order.length], order := s.order ++ [[i]],
                   tr := .start s.order.length i :: s.tr } s.order.length i).2

theorem ordOf_opened (cf : Cfg α) (s : St α) (i d : Nat) : ordOf (opened cf s i) d = if d = s.order.length then [i] else ordOf s d := by
  show ((s.order ++ [[i]])[d]?).getD [] = _
  rw [List.getElem?_append]
  by_cases e : d = s.order.length
  · subst e; simp
  · by_cases hl : d < s.order.length
    · simp [hl, e, ordOf]
    · have h1 : s.order[d]? = none := List.getElem?_eq_none (by omega)
      have h2 : ([[i]] : List (List Nat))[d - s.order.length]? = none := List.getElem?_eq_none (by simp; omega)
      simp [hl, e, ordOf, h1, h2]

theorem core_started (r : ARow α) : Core r { r with started := true } := ⟨rfl, rfl, rfl, rfl, rfl, rfl, rfl, rfl, rfl, rfl, rfl⟩

theorem opened_get (cf : Cfg α) (s : St α) (i j : Nat) (q : ARow α) (h : (opened cf s i).rows[j]? = some q) :
    ∃ p, s.rows[j]? = some p ∧ Core p q ∧ q.nact = p.nact ∧ q.lmin = p.lmin ∧ q.started = (if j = i then true else p.started) := by
  have h' : (s.rows.modify i fun r => { r with started := true })[j]? = some q := h
  rw [List.getElem?_modify, Option.map_eq_map, Option.map_eq_some_iff] at h'
  obtain ⟨p, hp, e⟩ := h'
  refine ⟨p, hp, ?_⟩
  by_cases hij : i = j
  · simp only [hij, if_true] at e
    subst e
    exact ⟨core_started p, rfl, rfl, by simp [hij]⟩
  · have : ¬ j = i := fun e => hij e.symm
    simp only [hij, if_false, id] at e
    subst e
    exact ⟨Core.refl _, rfl, rfl, by simp [this]⟩

theorem Book.opened {cf : Cfg α} {H : List (ARow α)} {s : St α} {i : Nat} {P : List Nat} (h : Book cf H s P none) (hi : i < s.rows.length)
    (hm : mayStart cf s = true) : Book cf H (opened cf s i) P (some s.order.length) := by
  have ord := ordOf_opened cf s i
  have hnew : s.order.length ∉ s.opters := fun hc => by have := h.lt _ hc; omega
  have hne : s.order.length ∉ s.endedRuns := fun hc => by have := ((h.endd _).mp hc).1; omega
  have hempty : ordOf s s.order.length = [] := by simp [ordOf]
  have hpas : passed s.tr s.order.length = [] := by rw [← h.done _ fun hw => hnew hw.1]; exact hempty
  have gr : Grow s.rows (Aposmm.opened cf s i).rows := grow_modify s.rows i _ core_started
  have hlen : (Aposmm.opened cf s i).rows.length = s.rows.length := by simp [Aposmm.opened, Aposmm.ask]
  have pa : ∀ d, passed (Aposmm.opened cf s i).tr d = if d = s.order.length then [i] else passed s.tr d := by
    intro d
    show (if s.order.length = d then passed s.tr d ++ [i] else passed s.tr d) = _
    by_cases e : d = s.order.length
    · subst e; simp [hpas]
    · have : ¬ s.order.length = d := fun e' => e e'.symm
      simp [e, this]
  have cl : ∀ d, (Aposmm.opened cf s i).calls d = if d = s.order.length then s.calls d + 1 else s.calls d := fun d => rfl
  have ops : ∀ d, d ∈ (Aposmm.opened cf s i).opters ↔ d ∈ s.opters ∨ d = s.order.length := by
    intro d; show d ∈ s.opters ++ [s.order.length] ↔ _; simp
  have livee : ∀ j, Live (Aposmm.opened cf s i) P j ↔ Live s P j := by
    intro j
    unfold Live
    constructor
    · rintro (⟨q, hq, he⟩ | hq)
      · obtain ⟨p, hp, cc, _⟩ := opened_get cf s i j q hq
        exact .inl ⟨p, hp, by rw [← cc.ended]; exact he⟩
      · exact .inr hq
    · rintro (⟨p, hp, he⟩ | hq)
      · obtain ⟨q, hq, cc⟩ := gr.keep j p hp
        exact .inl ⟨q, hq, by rw [cc.ended]; exact he⟩
      · exact .inr hq
  have wts : ∀ d, Waits (Aposmm.opened cf s i) (some s.order.length) d ↔ Waits s none d := by
    intro d
    unfold Waits
    rw [ops]
    constructor
    · rintro ⟨h1 | h1, h2⟩
      · exact ⟨h1, by simp⟩
      · exact absurd (by rw [h1]) h2
    · rintro ⟨h1, _⟩
      exact ⟨.inl h1, fun e => by cases e; exact hnew h1⟩
  have tl : ∀ d j, j ∈ (ordOf (Aposmm.opened cf s i) d).tail ↔ j ∈ (ordOf s d).tail := by
    intro d j
    rw [ord]
    split
    · rename_i e; subst e; simp [hempty]
    · rfl
  have wne : ∀ d, Waits s none d → d ≠ s.order.length := fun d hw e => hnew (by rw [← e]; exact hw.1)
  refine ⟨?_, ?_, ?_, h.enodup, ?_, ?_, ?_, ?_, h.sole, ?_, ?_, ?_, ?_, ?_, ?_, ?_, ?_, ?_, ?_, ?_, ?_⟩
  · intro d hd
    show d < (s.order ++ [[i]]).length
    simp only [List.length_append, List.length_singleton]
    rcases (ops d).mp hd with hd | hd
    · have := h.lt d hd; omega
    · omega
  · show (s.opters ++ [s.order.length]).Nodup
    rw [List.nodup_append]
    refine ⟨h.nodup, by simp, fun a ha b hb e => ?_⟩
    rw [List.mem_singleton] at hb
    subst hb; subst e; exact hnew ha
  · intro d
    show d ∈ s.endedRuns ↔ d < (s.order ++ [[i]]).length ∧ d ∉ (Aposmm.opened cf s i).opters
    rw [h.endd, ops]
    simp only [List.length_append, List.length_singleton]
    constructor
    · rintro ⟨h1, h2⟩
      exact ⟨by omega, fun h3 => h3.elim h2 (by omega)⟩
    · rintro ⟨h1, h2⟩
      refine ⟨?_, fun h3 => h2 (.inl h3)⟩
      have : d ≠ s.order.length := fun e => h2 (.inr e)
      omega
  · intro m hm'
    show (s.opters ++ [s.order.length]).length ≤ m
    simp only [mayStart, hm', decide_eq_true_eq] at hm
    simp only [List.length_append, List.length_singleton]
    omega
  · intro d hd; cases hd; exact (ops _).mpr (.inr rfl)
  · intro d hw
    have hw' := (wts d).mp hw
    obtain ⟨p, h1, h2, h3⟩ := h.live d hw'
    refine ⟨p, ?_, (livee p).mpr h2, h3⟩
    rw [ord, pa, if_neg (wne d hw'), if_neg (wne d hw')]; exact h1
  · intro d hw
    rw [ord, pa]
    split
    · rfl
    · exact h.done d fun hw' => hw ((wts d).mpr hw')
  · intro j d
    rw [tl]; exact h.owner j d
  · intro j d hl hj
    obtain ⟨h1, h2⟩ := h.asks j d ((livee j).mp hl) hj
    refine ⟨(wts d).mpr h1, ?_⟩
    rw [ord, if_neg (wne d h1)]; exact h2
  · intro d j hj
    rw [hlen]
    rw [ord] at hj
    split at hj
    · rw [List.mem_singleton] at hj; omega
    · exact h.bound d j hj
  · intro d
    rw [ord]
    split
    · simp
    · exact h.incr d
  · intro d j hj
    rw [ord] at hj
    split at hj
    · simp only [List.head?_cons, Option.some.injEq] at hj
      subst hj
      have hl : i < (Aposmm.opened cf s i).rows.length := by omega
      obtain ⟨p, _, _, _, _, e⟩ := opened_get cf s i i _ (List.getElem?_eq_getElem hl)
      exact ⟨_, List.getElem?_eq_getElem hl, by rw [e, if_pos rfl]⟩
    · obtain ⟨r, h1, h2⟩ := h.heads d j hj
      have hl : j < (Aposmm.opened cf s i).rows.length := by rw [hlen]; exact (List.getElem?_eq_some_iff.mp h1).1
      obtain ⟨p, hp, _, _, _, e⟩ := opened_get cf s i j _ (List.getElem?_eq_getElem hl)
      rw [h1] at hp; cases hp
      exact ⟨_, List.getElem?_eq_getElem hl, by rw [e, h2]; simp⟩
  · intro j q hq hs d hd hj
    obtain ⟨p, hp, _, en, _, e⟩ := opened_get cf s i j q hq
    have hji : ¬ j = i := fun e' => by rw [e, if_pos e'] at hs; cases hs
    rw [e, if_neg hji] at hs
    rw [tl] at hj
    rw [en]
    rcases (ops d).mp hd with hd | hd
    · exact h.nact1 j p hp hs d hd hj
    · subst hd; rw [hempty] at hj; simp at hj
  · intro j q hq hs hno
    obtain ⟨p, hp, _, en, _, e⟩ := opened_get cf s i j q hq
    have hji : ¬ j = i := fun e' => by rw [e, if_pos e'] at hs; cases hs
    rw [e, if_neg hji] at hs
    rw [en]
    exact h.nact0 j p hp hs fun d hd hj => hno d ((ops d).mpr (.inl hd)) ((tl d j).mpr hj)
  · intro d hd
    rw [ord]
    split
    · simp
    · rename_i e
      have : d < (s.order ++ [[i]]).length := hd
      simp only [List.length_append, List.length_singleton] at this
      exact h.first d (by omega)
  · intro d
    rw [cl, pa]
    split
    · rename_i e; subst e; rw [h.calls, hpas]; rfl
    · exact h.calls d
  · intro d k j hj
    rw [ord] at hj
    split at hj
    · simp at hj
    · obtain ⟨r, h1, h2, h3⟩ := h.points d k j hj
      obtain ⟨q, hq, cc⟩ := gr.keep j r h1
      exact ⟨q, hq, by rw [cc.x]; exact h2, by rw [cc.loc]; exact h3⟩
  · intro d hd
    have : d ≠ s.order.length := fun e => hne (by rw [← e]; exact hd)
    rw [cl, if_neg this]; exact h.concl d hd
  · intro j q hq hm'
    obtain ⟨p, hp, _, _, el, _⟩ := opened_get cf s i j q hq
    rcases h.mins j p hp (by rw [← el]; exact hm') with h1 | ⟨d, hd, h2, x, h3⟩
    · exact .inl h1
    · have : d ≠ s.order.length := fun e => hne (by rw [← e]; exact hd)
      exact .inr ⟨d, hd, by rw [ord, if_neg this]; exact h2, x, by rw [cl, if_neg this]; exact h3⟩

/-- The run cannot be started because of its optimizer. -/
def OptErr (e : Err) : Prop := e = .optimizer ∨ e = .badStart

theorem Mid.startRun {cf : Cfg α} {H : List (ARow α)} {n : Nat} {s : St α} {i : Nat} {o : Out} (h : Mid cf H n s [] o) (hi : i < s.rows.length)
    (hm : mayStart cf s = true) :
    (∃ e, startRun cf i s o = .error e ∧ OptErr e) ∨ ∃ s' o', startRun cf i s o = .ok (s', o') ∧ Mid cf H n s' [] o' ∧ Grow s.rows s'.rows ∧ Still s s' ∧
      startsOf s'.tr = startsOf s.tr ++ [i] ∧ s'.opters.length = s.opters.length + 1 := by
  have hb := h.book.opened hi hm
  have hnew : s.order.length ∉ s.opters := fun hc => by have := h.book.lt _ hc; omega
  have hempty : ordOf s s.order.length = [] := by simp [ordOf]
  have h0 : s.calls s.order.length = 0 := by
    rw [h.book.calls, ← h.book.done _ fun hw => hnew hw.1, hempty]; rfl
  have gr : Grow s.rows (opened cf s i).rows := grow_modify s.rows i _ core_started
  have hlen : (opened cf s i).rows.length = s.rows.length := by simp [opened, ask]
  have hcall : (opened cf s i).calls s.order.length = 1 := by
    show (if s.order.length = s.order.length then s.calls s.order.length + 1 else _) = 1
    rw [if_pos rfl, h0]
  have ext : Ext s (opened cf s i) := by
    have hne : ∀ c ∈ s.endedRuns, c ≠ s.order.length := fun c hc e => by have := ((h.book.endd c).mp hc).1; omega
    refine grow_ext gr ?_ (fun c hc => ?_) (fun c hc => ?_)
    · intro j r r' h1 h2 h3
      obtain ⟨p, hp, _, _, el, _⟩ := opened_get cf s i j r' h2
      rw [h1] at hp; cases hp; rw [el]; exact h3
    · rw [ordOf_opened, if_neg (hne c hc)]
    · show (if c = s.order.length then s.calls c + 1 else s.calls c) = s.calls c
      rw [if_neg (hne c hc)]
  have rep : Reports cf (opened cf s i) (sentOpt (opened cf s i).tr ++ o.opt) := h.rep.ext ext rfl h.book.bound
  unfold Aposmm.startRun
  dsimp only
  rcases hans : cf.ans s.order.length (s.calls s.order.length) with x | ⟨x, flag⟩ | _
  · refine .inr ⟨addPoint (opened cf s i) s.order.length x, { o with new := o.new ++ [(opened cf s i).rows.length] }, ?_, ?_,
      gr.trans (grow_addRow _ x true), ⟨rfl, rfl, rfl⟩, rfl, ?_⟩
    · simp only [ask, hans, opened]
    · exact mid_addPoint (h.dist.grow gr) (h.told.grow gr) (h.best.grow gr) hb (by simp) List.nodup_nil (by rw [hlen]; exact h.new) h.sent rep
        (by rw [hcall]; rw [h0] at hans; exact hans) (by omega)
    · show (s.opters ++ [s.order.length]).length = _
      simp
  · exact .inl ⟨.badStart, by simp only [ask, hans], .inr rfl⟩
  · exact .inl ⟨.optimizer, by simp only [ask, hans], .inl rfl⟩

/-- How many runs may still be started. -/
def room (cf : Cfg α) (s : St α) (l : List Nat) : Nat := match cf.maxActive with
  | none => l.length
  | some m => m - s.opters.length

theorem startAll_full {cf : Cfg α} (l : List Nat) {s : St α} {o : Out} (h : mayStart cf s = false) : startAll cf l s o = .ok (s, o) := by
  induction l with
  | nil => rfl
  | cons i l ih => rw [startAll, h]; exact ih

theorem Mid.startAll {cf : Cfg α} {H : List (ARow α)} {n : Nat} (l : List Nat) {s : St α} {o : Out} (h : Mid cf H n s [] o)
    (hl : ∀ i ∈ l, i < s.rows.length) :
    (∃ e, startAll cf l s o = .error e ∧ OptErr e) ∨ ∃ s' o', startAll cf l s o = .ok (s', o') ∧ Mid cf H n s' [] o' ∧ Grow s.rows s'.rows ∧ Still s s' ∧
      startsOf s'.tr = startsOf s.tr ++ l.take (room cf s l) := by
  induction l generalizing s o with
  | nil => exact .inr ⟨s, o, rfl, h, Grow.refl _, Still.refl _, by simp⟩
  | cons i l ih =>
    cases hm : mayStart cf s with
    | false =>
      refine .inr ⟨s, o, startAll_full _ hm, h, Grow.refl _, Still.refl _, ?_⟩
      have : room cf s (i :: l) = 0 := by
        unfold mayStart at hm
        unfold room
        cases hx : cf.maxActive with
        | none => rw [hx] at hm; cases hm
        | some m => rw [hx] at hm; simp only [decide_eq_false_iff_not] at hm; simp only; omega
      rw [this]; simp
    | true =>
      rw [Aposmm.startAll, hm, if_pos rfl]
      rcases h.startRun (hl i List.mem_cons_self) hm with ⟨e, he, hoe⟩ | ⟨s1, o1, e1, h1, gr1, st1, ts1, op1⟩
      · rw [he]; exact .inl ⟨e, rfl, hoe⟩
      · rw [e1]
        dsimp only
        rcases ih h1 (fun j hj => by have := hl j (List.mem_cons_of_mem _ hj); have := gr1.len; omega) with ⟨e, he, hoe⟩ | ⟨s2, o2, e2, h2, gr2, st2, ts2⟩
        · exact .inl ⟨e, he, hoe⟩
        · refine .inr ⟨s2, o2, e2, h2, gr1.trans gr2, st1.trans st2, ?_⟩
          have : room cf s (i :: l) = room cf s1 l + 1 := by
            unfold mayStart at hm
            unfold room
            cases hx : cf.maxActive with
            | none => rfl
            | some m => rw [hx] at hm; simp only [decide_eq_true_eq] at hm; simp only [op1]; omega
          rw [ts2, ts1, this, List.take_succ_cons, List.append_assoc]; rfl

end Verif.Aposmm
