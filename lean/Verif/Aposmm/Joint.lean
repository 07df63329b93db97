import Verif.Aposmm.ClassInv
import Verif.Aposmm.Props

/-
The class `APOSMM` together with the generator in its process.
-/
namespace Verif.Aposmm

variable {α : Type}

/-! ### What one pass of the generator sends -/

/-- The rows passed to runs, newest first. -/
def iters : List Ev → List Nat
  | [] => []
  | .iter _ i :: t => i :: iters t
  | .start _ _ :: t => iters t
  | .conv _ :: t => iters t
  | .send _ _ :: t => iters t
  | .got _ :: t => iters t

/-- Part of a pass in which nothing is sent and only rows of `L` are passed to runs. -/
structure Quiet (L : List Nat) (s s' : St α) : Prop where
  new : sentNew s'.tr = sentNew s.tr
  opt : sentOpt s'.tr = sentOpt s.tr
  its : ∀ i ∈ iters s'.tr, i ∈ L ∨ i ∈ iters s.tr

theorem Quiet.trans {L M : List Nat} {a b c : St α} (h : Quiet L a b) (k : Quiet M b c) : Quiet (L ++ M) a c := by
  refine ⟨k.new.trans h.new, k.opt.trans h.opt, fun i hi => ?_⟩
  rcases k.its i hi with h1 | h1
  · exact .inl (List.mem_append_right _ h1)
  · rcases h.its i h1 with h2 | h2
    · exact .inl (List.mem_append_left _ h2)
    · exact .inr h2

theorem Quiet.mono {L M : List Nat} {a b : St α} (h : Quiet L a b) (k : ∀ i ∈ L, i ∈ M) : Quiet M a b :=
  ⟨h.new, h.opt, fun i hi => (h.its i hi).imp (k i) id⟩

theorem quiet_refl (L : List Nat) (s : St α) : Quiet L s s := ⟨rfl, rfl, fun _ h => .inr h⟩

theorem quiet_passTo {cf : Cfg α} {i c : Nat} {s s' : St α} {o o' : Out} (h : passTo cf i c s o = .ok (s', o')) : Quiet [i] s s' := by
  unfold passTo at h
  split at h
  · cases h
  · have ha : (ask cf s c i).2.tr = .iter c i :: s.tr := rfl
    revert h
    rcases hb : ask cf s c i with ⟨a, s1⟩
    rw [hb] at ha
    replace ha : s1.tr = .iter c i :: s.tr := ha
    intro h
    cases a with
    | err => cases h
    | point x =>
      cases h
      refine ⟨?_, ?_, fun j hj => ?_⟩
      · show sentNew s1.tr = _; rw [ha]; rfl
      · show sentOpt s1.tr = _; rw [ha]; rfl
      · have hj : j ∈ iters s1.tr := hj
        rw [ha] at hj
        simpa [iters] using hj
    | conv x flag =>
      dsimp only at h
      split at h
      · cases h
      · cases h
        refine ⟨?_, ?_, fun j hj => ?_⟩
        · show sentNew s1.tr = _; rw [ha]; rfl
        · show sentOpt s1.tr = _; rw [ha]; rfl
        · have hj : j ∈ iters s1.tr := hj
          rw [ha] at hj
          simpa [iters] using hj

theorem quiet_passAll {cf : Cfg α} {i : Nat} (cs : List Nat) {s s' : St α} {o o' : Out} (h : passAll cf i cs s o = .ok (s', o')) : Quiet [i] s s' := by
  induction cs generalizing s o with
  | nil => cases h; exact quiet_refl _ _
  | cons c cs ih =>
    rw [passAll] at h
    split at h
    · cases h
    · rename_i hp; exact ((quiet_passTo hp).trans (ih h)).mono (by simp)

theorem quiet_passRows {cf : Cfg α} (is : List Nat) {s s' : St α} {o o' : Out} (h : passRows cf is s o = .ok (s', o')) : Quiet is s s' := by
  induction is generalizing s o with
  | nil => cases h; exact quiet_refl _ _
  | cons i is ih =>
    rw [passRows] at h
    split at h
    · cases h
    · rename_i hp; exact ((quiet_passAll _ hp).trans (ih h)).mono (by simp)

theorem quiet_startRun {cf : Cfg α} {i : Nat} {s s' : St α} {o o' : Out} (h : startRun cf i s o = .ok (s', o')) : Quiet [i] s s' := by
  unfold startRun at h
  dsimp only at h
  split at h
  · cases h
  · cases h
  · rename_i x s1 heq
    cases h
    have ha : s1.tr = .iter s.order.length i :: .start s.order.length i :: s.tr := by
      have := congrArg (fun b => b.2.tr) heq
      exact this.symm
    refine ⟨?_, ?_, fun j hj => ?_⟩
    · show sentNew s1.tr = _; rw [ha]; rfl
    · show sentOpt s1.tr = _; rw [ha]; rfl
    · have hj : j ∈ iters s1.tr := hj
      rw [ha] at hj
      simpa [iters] using hj

theorem quiet_startAll {cf : Cfg α} (is : List Nat) {s s' : St α} {o o' : Out} (h : startAll cf is s o = .ok (s', o')) : Quiet is s s' := by
  induction is generalizing s o with
  | nil => cases h; exact quiet_refl _ _
  | cons i is ih =>
    rw [startAll] at h
    split at h
    · split at h
      · cases h
      · rename_i hp; exact ((quiet_startRun hp).trans (ih h)).mono (by simp)
    · exact (ih h).mono (by simp +contextual)

/-- The rows passed to runs have values. -/
def Seen (s : St α) : Prop := ∀ i ∈ iters s.tr, ∃ r, s.rows[i]? = some r ∧ r.ended = true

theorem Seen.step {cf : Cfg α} {L : List Nat} {s s' : St α} (h : Seen s) (q : ∀ i ∈ iters s'.tr, i ∈ L ∨ i ∈ iters s.tr) (k : Held cf s s')
    (hL : ∀ i ∈ L, ∃ r, s.rows[i]? = some r ∧ r.ended = true) : Seen s' := by
  intro i hi
  have : ∃ r, s.rows[i]? = some r ∧ r.ended = true := (q i hi).elim (hL i) (h i)
  obtain ⟨r, h1, h2⟩ := this
  obtain ⟨r', h3, sm⟩ := k.old i r h1
  exact ⟨r', h3, sm.ended.trans h2⟩

theorem mem_insertBy {v : Nat → FVal} {i j : Nat} {l : List Nat} (h : j ∈ insertBy v i l) : j = i ∨ j ∈ l := by
  induction l with
  | nil => exact .inl (by simpa [insertBy] using h)
  | cons a l ih =>
    rw [insertBy] at h
    split at h
    · rcases List.mem_cons.mp h with rfl | h
      · exact .inr List.mem_cons_self
      · exact (ih h).imp id (List.mem_cons_of_mem _)
    · exact List.mem_cons.mp h

theorem startInds_ended {g : Geo α} {rows : List (ARow α)} {rk : Option Int} {mu nu : Int} {i : Nat} (h : i ∈ startInds g rows rk mu nu) :
    ∃ r, rows[i]? = some r ∧ r.ended = true := by
  have h1 : i ∈ indsWhere rows (ARow.sampleStart g rows rk mu nu) ++ indsWhere rows (ARow.localStart g rows rk mu nu) := by
    unfold startInds at h
    generalize indsWhere rows (ARow.sampleStart g rows rk mu nu) ++ indsWhere rows (ARow.localStart g rows rk mu nu) = l at h ⊢
    induction l with
    | nil => cases h
    | cons a l ih =>
      rcases mem_insertBy h with rfl | h
      · exact List.mem_cons_self
      · exact List.mem_cons_of_mem _ (ih h)
  have h2 : ∀ p : ARow α → Bool, i ∈ indsWhere rows p → ∃ r, rows[i]? = some r ∧ p r = true := by
    intro p hp
    rw [indsWhere, List.mem_filter] at hp
    cases hr : rows[i]? with
    | none => rw [hr] at hp; simp at hp
    | some r => rw [hr] at hp; exact ⟨r, rfl, by simpa using hp.2⟩
  rcases List.mem_append.mp h1 with h1 | h1
  · obtain ⟨r, e, hp⟩ := h2 _ h1
    refine ⟨r, e, ?_⟩
    simp only [ARow.sampleStart, ARow.tests, Bool.and_eq_true] at hp
    exact hp.1.1.2.1.1.1.1
  · obtain ⟨r, e, hp⟩ := h2 _ h1
    refine ⟨r, e, ?_⟩
    simp only [ARow.localStart, ARow.tests, Bool.and_eq_true] at hp
    exact hp.1.1.2.1.1.1.1

/-- The end of a pass. -/
theorem finishPass_sends {cf : Cfg α} {nr : Nat} {s s' : St α} {o : Out} (hs : Seen s) (h : finishPass cf nr s o = .ok s') :
    ∃ new opt t, s'.tr = .send new opt :: t ∧ sentNew t = sentNew s.tr ∧ sentOpt t = sentOpt s.tr ∧ Seen s' := by
  have hh := held_finishPass h
  unfold finishPass at h
  split at h
  · cases h
  · rename_i s1 o1 hp
    cases h
    have q := quiet_startAll _ hp
    refine ⟨_, _, s1.tr, rfl, q.new, q.opt, ?_⟩
    exact hs.step (L := startInds cf.geo s.rows (cf.rk s.ns) cf.mu cf.nu) q.its hh fun i hi => startInds_ended hi

theorem seen_receive {cf : Cfg α} {s s' : St α} {vals : List (Nat × FVal)} (h : Seen s) (hd : Dist cf.geo s.rows)
    (hf : Fresh s.rows vals) (hr : receive cf s vals = .ok s') :
    Seen s' ∧ sentNew s'.tr = sentNew s.tr ∧ sentOpt s'.tr = sentOpt s.tr ∧ gotVals s'.tr = vals ++ gotVals s.tr ∧
      ∀ v ∈ vals, ∃ r, s'.rows[v.1]? = some r ∧ r.ended = true := by
  obtain ⟨rows', hu, _, _, _, fr⟩ := updateDist_spec (hd.record hf)
  have hs' : s' = { s with rows := rows', ns := s.ns + vals.countP (fun v => isSample (record s.rows vals) v.1), tr := .got vals :: s.tr } := by
    unfold Aposmm.receive at hr
    split at hr
    · cases hr
    · dsimp only at hr; rw [hu] at hr; cases hr; rfl
  subst hs'
  have hlen : rows'.length = s.rows.length := by rw [fr.len, record_length]
  have row : ∀ (i : Nat) (r : ARow α), s.rows[i]? = some r → (r.ended = true ∨ i ∈ vals.map (·.1)) → ∃ r', rows'[i]? = some r' ∧ r'.ended = true := by
    intro i r hi hor
    have hlt : i < rows'.length := by rw [hlen]; exact (List.getElem?_eq_some_iff.mp hi).1
    refine ⟨_, List.getElem?_eq_getElem hlt, ?_⟩
    obtain ⟨r1, h1, lk⟩ := fr.like i _ (List.getElem?_eq_getElem hlt)
    rw [lk.ended]
    obtain ⟨r2, h2, ⟨h3, e⟩ | ⟨y, _, _, e⟩⟩ := record_cases hf h1
    · subst e
      rw [hi] at h2; cases h2
      exact hor.elim id fun hm => absurd hm h3
    · rw [e]
  refine ⟨fun i hi => ?_, rfl, rfl, rfl, fun v hv => ?_⟩
  · obtain ⟨r, h1, h2⟩ := h i hi
    exact row i r h1 (.inl h2)
  · obtain ⟨r, h1, _⟩ := hf.open' v hv
    exact row v.1 r h1 (.inr (List.mem_map.mpr ⟨v, hv, rfl⟩))

/-- What a pass adds to what has happened. -/
theorem Reach.sends {cf : Cfg α} {H : List (ARow α)} {s s' : St α} {vals : List (Nat × FVal)} (h : Reach cf H s) (hs : Seen s)
    (hf : s.sent = true → Fresh s.rows vals) (hp : Aposmm.pass cf s (.work vals) = .ok (some s')) :
    Seen s' ∧ s'.sent = true ∧ (s.sent = true → gotVals s'.tr = vals ++ gotVals s.tr) ∧
      ∃ new opt t, s'.tr = .send new opt :: t ∧ sentNew t = sentNew s.tr ∧ sentOpt t = sentOpt s.tr := by
  have snt : ∀ {nr : Nat} {a b : St α} {o : Out}, finishPass cf nr a o = .ok b → b.sent = true := by
    intro nr a b o e
    unfold finishPass at e
    split at e
    · cases e
    · cases e; rfl
  unfold Aposmm.pass at hp
  cases hb : s.sent with
  | false =>
    rw [hb] at hp
    simp only [Bool.false_eq_true, if_false] at hp
    split at hp
    · cases hp
    · rename_i s2 e2
      cases hp
      obtain ⟨new, opt, t, a1, a2, a3, a4⟩ := finishPass_sends hs e2
      exact ⟨a4, snt e2, by simp, new, opt, t, a1, a2, a3⟩
  | true =>
    rw [hb] at hp
    simp only [if_true] at hp
    split at hp
    · cases hp
    · split at hp
      · cases hp
      · rename_i s1 e1
        split at hp
        · cases hp
        · rename_i s2 o2 e2
          split at hp
          · cases hp
          · rename_i s3 e3
            cases hp
            obtain ⟨b1, b2, b3, b4, b5⟩ := seen_receive hs h.inv.dist (hf hb) e1
            have q := quiet_passRows _ e2
            have k := held_passRows _ e2
            have sn : Seen s2 := b1.step q.its k fun i hi => by
              obtain ⟨v, hv, rfl⟩ := List.mem_map.mp hi
              exact b5 v hv
            obtain ⟨new, opt, t, a1, a2, a3, a4⟩ := finishPass_sends sn e3
            refine ⟨a4, snt e3, fun _ => ?_, new, opt, t, a1, by rw [a2, q.new, b2], by rw [a3, q.opt, b3]⟩
            rw [(held_finishPass e3).got, k.got, b4]

/-- A row marked as a minimum has a value, if no rows are given. -/
theorem Reach.marked {cf : Cfg α} {s : St α} (h : Reach cf [] s) (hs : Seen s) {i : Nat} {r : ARow α} (hi : s.rows[i]? = some r) (hm : r.lmin = true) :
    r.ended = true := by
  have hb := h.inv.book
  rcases hb.mins i r hi hm with ⟨r0, h1, _⟩ | ⟨c, hc, h2, _⟩
  · simp at h1
  · have hnw : ¬ Waits s none c := fun hw => ((hb.endd c).mp hc).2 hw.1
    rw [hb.done c hnw] at h2
    have : ∀ t : List Ev, ∀ j, j ∈ passed t c → j ∈ iters t := by
      intro t
      induction t with
      | nil => intro j hj; cases hj
      | cons e t ih =>
        intro j hj
        cases e with
        | iter d i =>
          rw [passed] at hj
          rw [iters]
          split at hj
          · rcases List.mem_append.mp hj with hj | hj
            · exact List.mem_cons_of_mem _ (ih j hj)
            · rw [List.mem_singleton] at hj; subst hj; exact List.mem_cons_self
          · exact List.mem_cons_of_mem _ (ih j hj)
        | start _ _ => exact ih j hj
        | conv _ => exact ih j hj
        | send _ _ => exact ih j hj
        | got _ => exact ih j hj
    obtain ⟨r', h3, h4⟩ := hs i (this _ i h2)
    rw [hi] at h3; cases h3; exact h4

/-- The new rows have no value and no mark; the rows reported are marked if the runs end at minima. -/
theorem Reach.sendsMore {cf : Cfg α} {s s' : St α} {vals : List (Nat × FVal)} (h : Reach cf [] s) (hs : Seen s) (hb : s.sent = true)
    (hf : Fresh s.rows vals) (hp : Aposmm.pass cf s (.work vals) = .ok (some s')) (hmin : ∀ c k x b, cf.ans c k = .conv x b → b = true) :
    ∃ new opt t, s'.tr = .send new opt :: t ∧ new = List.range' s.rows.length (s'.rows.length - s.rows.length) ∧ s.rows.length ≤ s'.rows.length ∧
      (∀ i ∈ new, ∃ r, s'.rows[i]? = some r ∧ r.lmin = false) ∧ (∀ i ∈ opt, ∃ r, s'.rows[i]? = some r ∧ r.lmin = true) := by
  obtain ⟨sn, _, gt, new, opt, t, a1, a2, a3⟩ := h.sends hs (fun _ => hf) hp
  have h' : Reach cf [] s' := .pass h (fun _ => hf) hp
  have e1 := h.inv.sent.2
  have e2 := h'.inv.sent.2
  rw [a1, sentNew, a2, e1] at e2
  simp only [List.length_nil, Nat.sub_zero] at e2
  have hlen : s.rows.length + new.length = s'.rows.length := by
    have := congrArg List.length e2
    simpa using this
  have enew : new = List.range' s.rows.length (s'.rows.length - s.rows.length) := by
    have : s'.rows.length = s.rows.length + (s'.rows.length - s.rows.length) := by omega
    rw [this, ← List.range'_append] at e2
    simpa using e2
  refine ⟨new, opt, t, a1, enew, by omega, fun i hi => ?_, fun i hi => ?_⟩
  · rw [enew, List.mem_range'_1] at hi
    have hlt : i < s'.rows.length := by omega
    refine ⟨_, List.getElem?_eq_getElem hlt, ?_⟩
    cases hm : (s'.rows[i]).lmin with
    | false => rfl
    | true =>
      exfalso
      have hend := h'.marked sn (List.getElem?_eq_getElem hlt) hm
      rcases (h'.vals.made i _ (Nat.zero_le _) (List.getElem?_eq_getElem hlt)).2 with ⟨_, h2, _⟩ | ⟨_, _, h3⟩
      · rw [hend] at h2; cases h2
      · rw [gt hb] at h3
        rcases List.mem_append.mp h3 with h3 | h3
        · obtain ⟨r, h4, _⟩ := hf.open' _ h3
          have := (List.getElem?_eq_some_iff.mp h4).1
          dsimp only at this
          omega
        · have := h.vals.inside _ h3
          dsimp only at this
          omega
  · have hmem : i ∈ sentOpt s'.tr := by rw [a1, sentOpt]; exact List.mem_append_right _ hi
    obtain ⟨k, hk⟩ := List.mem_iff_getElem?.mp hmem
    have hr := h'.inv.rep
    have hlt : k < s'.endedRuns.length := by rw [← hr.1]; exact (List.getElem?_eq_some_iff.mp hk).1
    obtain ⟨_, x, flag, r, h1, h2, h3, _⟩ := hr.2 k i _ hk (List.getElem?_eq_getElem hlt)
    exact ⟨r, h2, h3 (hmin _ _ _ _ h1)⟩

/-! ### The class and the generator -/

/-- The message for an entry of what happened (persistent_aposmm.py:186-194, 296). -/
def msgOf (g : St α) : List Sug := match g.tr with
  | .send new opt :: _ => (new ++ opt).map fun i => ⟨i, ((g.rows[i]?).map (·.lmin)).getD false⟩
  | _ => []

/-- A batch of results as the generator sees it. -/
def valsOf (b : List (Nat × Option FVal)) : List (Nat × FVal) := b.map fun e => (e.1, e.2.getD (.num 0))

/-- The class with the generator, which has handled the first `done` batches.  `g` is `none` before the process is started. -/
structure JS (α : Type) where
  c : Cls FVal
  g : Option (St α) := none
  done : Nat := 0

/-- The caller gives results once each, for points handed out; those for the initial sample in the order of their numbers. -/
structure Polite (c : Cls FVal) (rs : List (Nat × FVal)) : Prop where
  once : ((c.given ++ rs).map (·.1)).Nodup
  asked : ∀ r ∈ rs, ∃ p ∈ c.handed, p.id = r.1
  order : ∀ (k : Nat) (r : Nat × FVal), k < c.size → (c.given ++ rs)[k]? = some r → r.1 = k

/-- Every state of the class with the generator, in the mode in which `suggest` is called first.  The process is started by the first call (generators.py:188-190). -/
inductive JReach (cf : Cfg α) : JS α → Prop
  | init : JReach cf { c := { size := cf.initial } }
  | start {s : JS α} {g : St α} : JReach cf s → s.g = none → begin cf [] = .ok g →
      JReach cf { s with c := { s.c with inbox := s.c.inbox ++ [msgOf g] }, g := some g }
  | suggest {s : JS α} {c' : Cls FVal} {j : Nat} {l : List Sug} : JReach cf s → s.g.isSome = true →
      (j = 0 → s.c.last = none ∨ s.c.idx = 0 ∨ s.c.ready = .ok true) → s.c.suggest j = .ok (l, c') → JReach cf { s with c := c' }
  | ingest {s : JS α} {c' : Cls FVal} {rs : List (Nat × FVal)} : JReach cf s → s.g.isSome = true → Polite s.c rs →
      s.c.ingest .simId rs = .ok c' → JReach cf { s with c := c' }
  | updates {s : JS α} : JReach cf s → JReach cf { s with c := s.c.takeUpdates }
  | gen {s : JS α} {g g' : St α} {b : List (Nat × Option FVal)} : JReach cf s → s.g = some g → s.c.out[s.done]? = some b →
      pass cf g (.work (valsOf b)) = .ok (some g') →
      JReach cf { s with c := { s.c with inbox := s.c.inbox ++ [msgOf g'] }, g := some g', done := s.done + 1 }

theorem JReach.cls {cf : Cfg α} {s : JS α} (h : JReach cf s) : CReach .simId cf.initial s.c := by
  induction h with
  | init => exact .init
  | start _ _ _ ih => exact .arrive _ ih
  | suggest _ _ hn hs ih => exact .suggest ih hn hs
  | ingest _ _ _ hi ih => exact .ingest ih hi
  | updates _ ih => exact .updates ih
  | gen _ _ _ _ ih => exact .arrive _ ih

/-- All messages of the generator. -/
def JS.msgs (s : JS α) : List Sug := (s.c.taken ++ s.c.inbox).flatten

/-- The results are given once each, the first ones in order, for points handed out. -/
structure Fair (c : Cls FVal) : Prop where
  once : (c.given.map (·.1)).Nodup
  asked : ∀ r ∈ c.given, ∃ p ∈ c.handed, p.id = r.1
  order : ∀ (k : Nat) (r : Nat × FVal), k < c.size → c.given[k]? = some r → r.1 = k

theorem JReach.fair {cf : Cfg α} {s : JS α} (h : JReach cf s) : Fair s.c := by
  induction h with
  | init => exact ⟨by simp, by simp, by simp⟩
  | start _ _ _ ih => exact ⟨ih.once, ih.asked, ih.order⟩
  | @suggest s c' j l h0 _ hn hs ih =>
    obtain ⟨a1, _, _, _, a5, _⟩ := suggest_frame hs
    have e := (h0.cls.handed.suggest hn hs).2
    refine ⟨by rw [a5]; exact ih.once, fun r hr => ?_, by rw [a5, a1]; exact ih.order⟩
    rw [a5] at hr
    obtain ⟨p, hp, e2⟩ := ih.asked r hr
    exact ⟨p, by rw [e]; exact List.mem_append_left _ hp, e2⟩
  | @ingest s c' rs h0 _ hpo hi ih =>
    have : c'.given = s.c.given ++ rs ∧ c'.handed = s.c.handed ∧ c'.size = s.c.size := by
      unfold Cls.ingest at hi
      dsimp only at hi
      (repeat' split at hi) <;> cases hi <;> exact ⟨rfl, rfl, rfl⟩
    obtain ⟨e1, e2, e3⟩ := this
    refine ⟨by rw [e1]; exact hpo.once, fun r hr => ?_, by rw [e1, e3]; exact hpo.order⟩
    rw [e1] at hr
    rw [e2]
    rcases List.mem_append.mp hr with hr | hr
    · exact ih.asked r hr
    · exact hpo.asked r hr
  | updates _ ih => exact ⟨ih.once, ih.asked, ih.order⟩
  | gen _ _ _ _ ih => exact ⟨ih.once, ih.asked, ih.order⟩

/-- What has been sent to the generator is what was given. -/
theorem sent_given {n : Nat} {c : Cls FVal} (hp : Passed .simId n c) (hf : Fair c) (ht : c.told = true) : (c.out.map valsOf).flatten = c.given := by
  obtain ⟨b, os, h1, h2, h3, h4, h5⟩ := hp.after ht
  have hb : valsOf b = c.given.take n := by
    refine List.ext_getElem? fun i => ?_
    rw [valsOf, List.getElem?_map, List.getElem?_take]
    split
    · rename_i hi
      rw [h4 i hi]
      have hlt : i < c.given.length := by omega
      rw [List.getElem?_eq_getElem hlt]
      have := hf.order i _ (by rw [hp.size]; exact hi) (List.getElem?_eq_getElem hlt)
      exact congrArg some (Prod.ext this.symm rfl)
    · rw [List.getElem?_eq_none (by omega)]; rfl
  have ho : (os.map valsOf).flatten = c.given.drop n := by
    have : (os.map valsOf).flatten = valsOf os.flatten := by
      unfold valsOf; rw [List.map_flatten]
    rw [this, h5]
    simp [valsOf, Function.comp_def]
  rw [h1, List.map_cons, List.flatten_cons, hb, ho, List.take_append_drop]

structure JInv (cf : Cfg α) (s : JS α) : Prop where
  off : s.g = none → s.c.taken = [] ∧ s.c.inbox = [] ∧ s.done = 0
  reach : ∀ g, s.g = some g → Reach cf [] g ∧ Seen g ∧ g.sent = true
  got : ∀ g, s.g = some g → ∀ v, v ∈ gotVals g.tr ↔ v ∈ ((s.c.out.take s.done).map valsOf).flatten
  pts : ∀ g, s.g = some g → ((s.msgs.filter fun p => !p.lmin).map (·.id)) = List.range g.rows.length
  done : s.done ≤ s.c.out.length
  count : ∀ g, s.g = some g → s.c.taken.length + s.c.inbox.length = s.done + 1

theorem begin_nil {cf : Cfg α} {g : St α} (h : begin cf [] = .ok g) :
    0 < cf.initial ∧ g.sent = true ∧ g.tr = [.send (List.range' 0 cf.initial) []] ∧ g.endedRuns = [] := by
  unfold begin at h
  simp only [List.map_nil, List.isEmpty_nil, if_true, List.countP_nil, true_and] at h
  split at h
  · cases h
  · rename_i hn
    cases h
    exact ⟨by omega, rfl, rfl, rfl⟩

/-- The results of a batch are for rows without a value. -/
theorem JInv.fresh {cf : Cfg α} {s : JS α} {g : St α} {b : List (Nat × Option FVal)} (h : JInv cf s) (hr : JReach cf s) (hn : 0 < cf.initial) (hg : s.g = some g)
    (hb : s.c.out[s.done]? = some b) : Fresh g.rows (valsOf b) := by
  have hf := hr.fair
  have hp := hr.cls.passed hn
  have hlt := (List.getElem?_eq_some_iff.mp hb).1
  have ht : s.c.told = true := by
    cases ht : s.c.told with
    | true => rfl
    | false => rw [(hp.before ht).1] at hlt; exact absurd hlt (by simp)
  have hsplit : s.c.given = ((s.c.out.take s.done).map valsOf).flatten ++ (valsOf b ++ ((s.c.out.drop (s.done + 1)).map valsOf).flatten) := by
    rw [← sent_given hp hf ht]
    have : s.c.out = s.c.out.take s.done ++ b :: s.c.out.drop (s.done + 1) := by
      have e : b = s.c.out[s.done] := by rw [List.getElem?_eq_getElem hlt] at hb; exact (Option.some.inj hb).symm
      rw [e, ← List.drop_eq_getElem_cons hlt, List.take_append_drop]
    generalize s.c.out.take s.done = A at this ⊢
    generalize s.c.out.drop (s.done + 1) = B at this ⊢
    rw [this]
    simp
  have hnd := hf.once
  rw [hsplit, List.map_append, List.map_append, List.nodup_append] at hnd
  obtain ⟨_, hnd2, hdis⟩ := hnd
  refine ⟨(List.nodup_append.mp hnd2).1, fun v hv => ?_⟩
  have hvg : v ∈ s.c.given := by rw [hsplit]; exact List.mem_append_right _ (List.mem_append_left _ hv)
  obtain ⟨p, hph, hpe⟩ := hf.asked v hvg
  have hpm : p ∈ s.msgs.filter fun p => !p.lmin := by
    have := hr.cls.handed.pts
    have h1 : p ∈ s.c.taken.flatten.filter fun p => !p.lmin := by rw [← this]; exact List.mem_append_left _ hph
    rw [JS.msgs, List.flatten_append, List.filter_append]
    exact List.mem_append_left _ h1
  have hlt2 : v.1 < g.rows.length := by
    have : v.1 ∈ List.range g.rows.length := by rw [← h.pts g hg]; exact List.mem_map.mpr ⟨p, hpm, hpe⟩
    exact List.mem_range.mp this
  refine ⟨_, List.getElem?_eq_getElem hlt2, ?_⟩
  rcases ((h.reach g hg).1.vals.made v.1 _ (Nat.zero_le _) (List.getElem?_eq_getElem hlt2)).2 with ⟨_, h2, _⟩ | ⟨_, _, h3⟩
  · exact h2
  · exfalso
    have := (h.got g hg _).mp h3
    exact hdis v.1 (List.mem_map.mpr ⟨_, this, rfl⟩) v.1 (List.mem_append_left _ (List.mem_map.mpr ⟨v, hv, rfl⟩)) rfl

theorem filter_msg {g : St α} {new opt : List Nat} {t : List Ev} (ht : g.tr = .send new opt :: t) (hn : ∀ i ∈ new, ∃ r, g.rows[i]? = some r ∧ r.lmin = false)
    (ho : ∀ i ∈ opt, ∃ r, g.rows[i]? = some r ∧ r.lmin = true) : ((msgOf g).filter fun p => !p.lmin).map (·.id) = new := by
  have e : msgOf g = (new ++ opt).map fun i => ⟨i, ((g.rows[i]?).map (·.lmin)).getD false⟩ := by unfold msgOf; rw [ht]
  rw [e, List.map_append, List.filter_append, List.map_append]
  have h1 : ((opt.map fun i => (⟨i, ((g.rows[i]?).map (·.lmin)).getD false⟩ : Sug)).filter fun p => !p.lmin) = [] := by
    rw [List.filter_eq_nil_iff]
    intro p hp
    obtain ⟨i, hi, rfl⟩ := List.mem_map.mp hp
    obtain ⟨r, h1, h2⟩ := ho i hi
    simp [h1, h2]
  have h2 : ((new.map fun i => (⟨i, ((g.rows[i]?).map (·.lmin)).getD false⟩ : Sug)).filter fun p => !p.lmin) =
      new.map fun i => (⟨i, ((g.rows[i]?).map (·.lmin)).getD false⟩ : Sug) := by
    rw [List.filter_eq_self]
    intro p hp
    obtain ⟨i, hi, rfl⟩ := List.mem_map.mp hp
    obtain ⟨r, h1, h2⟩ := hn i hi
    simp [h1, h2]
  rw [h1, h2]
  simp [Function.comp_def]

theorem JReach.inv {cf : Cfg α} {s : JS α} (hmin : ∀ c k x b, cf.ans c k = .conv x b → b = true) (h : JReach cf s) : JInv cf s := by
  induction h with
  | init =>
    exact ⟨fun _ => ⟨rfl, rfl, rfl⟩, nofun, nofun, nofun, Nat.le_refl _, nofun⟩
  | @start s g h0 hg hb ih =>
    obtain ⟨hn, hs, ht, he⟩ := begin_nil hb
    obtain ⟨o1, o2, o3⟩ := ih.off hg
    have hr : Reach cf [] g := .init ⟨by simp, by simp, by simp⟩ hb
    have hrow : ∀ (i : Nat) (r : ARow α), g.rows[i]? = some r → r.lmin = false := by
      intro i r hi
      cases hm : r.lmin with
      | false => rfl
      | true =>
        rcases hr.inv.book.mins i r hi hm with ⟨r0, h1, _⟩ | ⟨c, hc, _⟩
        · simp at h1
        · rw [he] at hc; cases hc
    have hlen : cf.initial = g.rows.length := by
      have := congrArg List.length hr.inv.sent.2
      rw [ht] at this
      simpa [sentNew] using this
    refine ⟨nofun, fun _ e => ?_, fun _ e => ?_, fun _ e => ?_, ih.done, fun _ _ => ?_⟩
    · cases e; exact ⟨hr, (by intro i hi; rw [ht] at hi; cases hi), hs⟩
    · cases e
      intro v
      show v ∈ gotVals g.tr ↔ v ∈ ((s.c.out.take s.done).map valsOf).flatten
      rw [ht, o3]; simp [gotVals]
    · cases e
      show (((s.c.taken ++ (s.c.inbox ++ [msgOf g])).flatten.filter fun p => !p.lmin).map (·.id)) = _
      rw [o1, o2]
      simp only [List.nil_append, List.flatten_cons, List.flatten_nil, List.append_nil]
      rw [filter_msg ht (fun i hi => ?_) (by simp), hlen, List.range_eq_range']
      rw [List.mem_range'_1] at hi
      exact ⟨_, List.getElem?_eq_getElem (by omega), hrow i _ (List.getElem?_eq_getElem (by omega))⟩
    · show s.c.taken.length + (s.c.inbox ++ [msgOf g]).length = s.done + 1
      rw [o1, o2, o3]; rfl
  | @suggest s c' j l h0 hg hn hs ih =>
    obtain ⟨_, _, a3, _, _, _, a7⟩ := suggest_frame hs
    have hl : c'.taken.length + c'.inbox.length = s.c.taken.length + s.c.inbox.length := by
      have := congrArg List.length a7
      simpa using this
    refine ⟨fun e => ?_, ih.reach, ?_, ?_, ?_, ?_⟩
    · rw [show s.g = none from e] at hg; cases hg
    · show ∀ g, s.g = some g → ∀ v, v ∈ gotVals g.tr ↔ v ∈ ((c'.out.take s.done).map valsOf).flatten
      rw [a3]; exact ih.got
    · show ∀ g, s.g = some g → (((c'.taken ++ c'.inbox).flatten.filter fun p => !p.lmin).map (·.id)) = _
      rw [a7]; exact ih.pts
    · show s.done ≤ c'.out.length
      rw [a3]; exact ih.done
    · intro g e; show c'.taken.length + c'.inbox.length = _; rw [hl]; exact ih.count g e
  | @ingest s c' rs h0 hg hpo hi ih =>
    have : (∃ m, c'.out = s.c.out ++ m) ∧ c'.taken = s.c.taken ∧ c'.inbox = s.c.inbox := by
      unfold Cls.ingest at hi
      dsimp only at hi
      (repeat' split at hi) <;> cases hi <;> first | exact ⟨⟨_, rfl⟩, rfl, rfl⟩ | exact ⟨⟨[], by simp⟩, rfl, rfl⟩
    obtain ⟨⟨m, e1⟩, e2, e3⟩ := this
    refine ⟨fun e => ?_, ih.reach, ?_, ?_, ?_, ?_⟩
    · rw [show s.g = none from e] at hg; cases hg
    · show ∀ g, s.g = some g → ∀ v, v ∈ gotVals g.tr ↔ v ∈ ((c'.out.take s.done).map valsOf).flatten
      rw [e1, List.take_append_of_le_length ih.done]; exact ih.got
    · show ∀ g, s.g = some g → (((c'.taken ++ c'.inbox).flatten.filter fun p => !p.lmin).map (·.id)) = _
      rw [e2, e3]; exact ih.pts
    · show s.done ≤ c'.out.length
      rw [e1, List.length_append]; have := ih.done; omega
    · show ∀ g, s.g = some g → c'.taken.length + c'.inbox.length = _
      rw [e2, e3]; exact ih.count
  | updates _ ih => exact ⟨ih.off, ih.reach, ih.got, ih.pts, ih.done, ih.count⟩
  | @gen s g g' b h0 hg hb hp ih =>
    obtain ⟨hr, sn, hs⟩ := ih.reach g hg
    have hn : 0 < cf.initial := by
      have : ∀ {t : JS α}, JReach cf t → t.g.isSome = true → 0 < cf.initial := by
        intro t ht
        induction ht with
        | init => intro e; cases e
        | start _ _ hb _ => intro _; exact (begin_nil hb).1
        | suggest _ _ _ _ ih => exact ih
        | ingest _ _ _ _ ih => exact ih
        | updates _ ih => exact ih
        | gen _ hg _ _ ih => intro _; exact ih (by rw [hg]; rfl)
      exact this h0 (by rw [hg]; rfl)
    have hf := ih.fresh h0 hn hg hb
    obtain ⟨sn', hs', gt, _⟩ := hr.sends sn (fun _ => hf) hp
    obtain ⟨new, opt, t, a1, a2, a3, a4, a5⟩ := hr.sendsMore sn hs hf hp hmin
    have hlt := (List.getElem?_eq_some_iff.mp hb).1
    refine ⟨nofun, fun _ e => ?_, fun _ e => ?_, fun _ e => ?_, hlt, fun _ _ => ?_⟩
    · cases e; exact ⟨.pass hr (fun _ => hf) hp, sn', hs'⟩
    · cases e
      intro v
      show v ∈ gotVals g'.tr ↔ v ∈ ((s.c.out.take (s.done + 1)).map valsOf).flatten
      rw [gt hs, List.take_add_one, hb, List.map_append, List.flatten_append, List.mem_append, List.mem_append, ih.got g hg]
      simp [Or.comm]
    · cases e
      show (((s.c.taken ++ (s.c.inbox ++ [msgOf g'])).flatten.filter fun p => !p.lmin).map (·.id)) = _
      rw [← List.append_assoc, List.flatten_append, List.filter_append, List.map_append]
      have := ih.pts g hg
      rw [JS.msgs] at this
      rw [this]
      simp only [List.flatten_cons, List.flatten_nil, List.append_nil]
      rw [filter_msg a1 a4 a5, a2, List.range_eq_range', List.range_eq_range']
      have e := List.range'_append (s := 0) (m := g.rows.length) (n := g'.rows.length - g.rows.length) (step := 1)
      rw [Nat.add_sub_cancel' a3] at e
      simpa using e
    · show s.c.taken.length + (s.c.inbox ++ [msgOf g']).length = s.done + 1 + 1
      have := ih.count g hg
      simp only [List.length_append, List.length_cons, List.length_nil]
      omega

end Verif.Aposmm
