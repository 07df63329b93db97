import Verif.Aposmm.Run

/-
What the rows contain: points and values are those that were asked for and received.
-/
namespace Verif.Aposmm

variable {α : Type}

/-- The results received, newest first. -/
def gotVals : List Ev → List (Nat × FVal)
  | [] => []
  | .got v :: t => v ++ gotVals t
  | .start _ _ :: t => gotVals t
  | .iter _ _ :: t => gotVals t
  | .conv _ :: t => gotVals t
  | .send _ _ :: t => gotVals t

/-- Points and values of a row. -/
structure Same (r r' : ARow α) : Prop where
  x : r'.x = r.x
  f : r'.f = r.f
  loc : r'.isLocal = r.isLocal
  ended : r'.ended = r.ended

/-- A step that receives nothing. -/
structure Held (cf : Cfg α) (s s' : St α) : Prop where
  old : ∀ (i : Nat) (r : ARow α), s.rows[i]? = some r → ∃ r', s'.rows[i]? = some r' ∧ Same r r'
  new : ∀ (i : Nat) (r' : ARow α), s'.rows[i]? = some r' → s.rows.length ≤ i → r'.ended = false ∧ (r'.isLocal = false → r'.x = cf.samp i)
  ns : s'.ns = s.ns
  got : gotVals s'.tr = gotVals s.tr

theorem held_same {cf : Cfg α} {s s' : St α} (hr : ∀ i : Nat, ∃ f : ARow α → ARow α, (∀ r, Same r (f r)) ∧ s'.rows[i]? = (s.rows[i]?).map f)
    (hn : s'.ns = s.ns) (hg : gotVals s'.tr = gotVals s.tr) : Held cf s s' := by
  refine ⟨fun i r h => ?_, fun i r' h hl => ?_, hn, hg⟩
  · obtain ⟨f, hf, e⟩ := hr i
    exact ⟨f r, by rw [e, h]; rfl, hf r⟩
  · obtain ⟨f, _, e⟩ := hr i
    rw [e, List.getElem?_eq_none hl] at h
    cases h

theorem held_refl (cf : Cfg α) (s : St α) : Held cf s s :=
  held_same (fun i => ⟨id, fun _ => ⟨rfl, rfl, rfl, rfl⟩, by simp⟩) rfl rfl

theorem Held.trans {cf : Cfg α} {a b c : St α} (h : Held cf a b) (k : Held cf b c) : Held cf a c := by
  refine ⟨fun i r hi => ?_, fun i r' hi hl => ?_, k.ns.trans h.ns, k.got.trans h.got⟩
  · obtain ⟨r1, h1, s1⟩ := h.old i r hi
    obtain ⟨r2, h2, s2⟩ := k.old i r1 h1
    exact ⟨r2, h2, s2.x.trans s1.x, s2.f.trans s1.f, s2.loc.trans s1.loc, s2.ended.trans s1.ended⟩
  · by_cases hb : b.rows.length ≤ i
    · exact k.new i r' hi hb
    · have hlt : i < b.rows.length := by omega
      obtain ⟨r2, h2, s2⟩ := k.old i _ (List.getElem?_eq_getElem hlt)
      rw [hi] at h2; cases h2
      obtain ⟨e1, e2⟩ := h.new i _ (List.getElem?_eq_getElem hlt) hl
      exact ⟨s2.ended.trans e1, fun hf => s2.x.trans (e2 (s2.loc.symm.trans hf))⟩

theorem held_addRow (cf : Cfg α) (s s' : St α) (x : α) (loc : Bool) (hx : loc = false → x = cf.samp s.rows.length) (hr : s'.rows = addRow s.rows x loc)
    (hn : s'.ns = s.ns) (hg : gotVals s'.tr = gotVals s.tr) : Held cf s s' := by
  refine ⟨fun i r h => ?_, fun i r' h hl => ?_, hn, hg⟩
  · refine ⟨r, ?_, rfl, rfl, rfl, rfl⟩
    rw [hr, addRow_get, if_neg (by have := (List.getElem?_eq_some_iff.mp h).1; omega)]; exact h
  · rw [hr, addRow_get] at h
    split at h
    · rename_i e
      cases h
      exact ⟨rfl, fun hf => by rw [e]; exact hx hf⟩
    · rw [List.getElem?_eq_none hl] at h; cases h

theorem held_ask (cf : Cfg α) (s : St α) (c i : Nat) : Held cf s (ask cf s c i).2 :=
  held_same (fun i => ⟨id, fun _ => ⟨rfl, rfl, rfl, rfl⟩, by simp [ask]⟩) rfl rfl

theorem held_passTo {cf : Cfg α} {i c : Nat} {s s' : St α} {o o' : Out} (h : passTo cf i c s o = .ok (s', o')) : Held cf s s' := by
  unfold passTo at h
  split at h
  · cases h
  · have ha : ∀ b : Ans α × St α, ask cf s c i = b → Held cf s b.2 := fun b e => e ▸ held_ask cf s c i
    revert h
    rcases hb : ask cf s c i with ⟨a, s1⟩
    replace ha : Held cf s s1 := ha _ hb
    intro h
    cases a with
    | err => cases h
    | point x => cases h; exact ha.trans (held_addRow cf s1 (addPoint s1 c x) x true (by simp) rfl rfl rfl)
    | conv x flag =>
      dsimp only at h
      split at h
      · cases h
      · rename_i j rows heq
        cases h
        refine ha.trans (held_same (fun i => ?_) rfl rfl)
        unfold optimal at heq
        split at heq
        · cases heq
        · cases heq
          simp only [List.getElem?_mapIdx, Option.map_map]
          refine ⟨_, fun r => ?_, rfl⟩
          simp only [Function.comp]
          constructor <;> (repeat' split) <;> rfl

theorem held_passAll {cf : Cfg α} {i : Nat} (cs : List Nat) {s s' : St α} {o o' : Out} (h : passAll cf i cs s o = .ok (s', o')) : Held cf s s' := by
  induction cs generalizing s o with
  | nil => cases h; exact held_refl cf _
  | cons c cs ih =>
    rw [passAll] at h
    split at h
    · cases h
    · rename_i hp; exact (held_passTo hp).trans (ih h)

theorem held_passRows {cf : Cfg α} (is : List Nat) {s s' : St α} {o o' : Out} (h : passRows cf is s o = .ok (s', o')) : Held cf s s' := by
  induction is generalizing s o with
  | nil => cases h; exact held_refl cf _
  | cons i is ih =>
    rw [passRows] at h
    split at h
    · cases h
    · rename_i hp; exact (held_passAll _ hp).trans (ih h)

theorem held_startRun {cf : Cfg α} {i : Nat} {s s' : St α} {o o' : Out} (h : startRun cf i s o = .ok (s', o')) : Held cf s s' := by
  unfold startRun at h
  dsimp only at h
  split at h
  · cases h
  · cases h
  · rename_i x s1 heq
    cases h
    have ha := held_ask cf { s with rows := s.rows.modify i fun r => { r with started := true }, opters := s.opters ++ [s.order.length],
                                    order := s.order ++ [[i]], tr := .start s.order.length i :: s.tr } s.order.length i
    rw [heq] at ha
    refine Held.trans ?_ (ha.trans (held_addRow cf s1 (addPoint s1 s.order.length x) x true (by simp) rfl rfl rfl))
    refine held_same (fun j => ?_) rfl rfl
    rw [List.getElem?_modify]
    by_cases e : i = j
    · exact ⟨fun r => { r with started := true }, fun _ => ⟨rfl, rfl, rfl, rfl⟩, by simp [e]⟩
    · exact ⟨id, fun _ => ⟨rfl, rfl, rfl, rfl⟩, by simp [e]⟩

theorem held_startAll {cf : Cfg α} (is : List Nat) {s s' : St α} {o o' : Out} (h : startAll cf is s o = .ok (s', o')) : Held cf s s' := by
  induction is generalizing s o with
  | nil => cases h; exact held_refl cf _
  | cons i is ih =>
    rw [startAll] at h
    split at h
    · split at h
      · cases h
      · rename_i hp; exact (held_startRun hp).trans (ih h)
    · exact ih h

theorem held_samples (cf : Cfg α) (k : Nat) (s s' : St α) (hr : s'.rows = addSamples cf k s.rows)
    (hn : s'.ns = s.ns) (hg : gotVals s'.tr = gotVals s.tr) : Held cf s s' := by
  induction k generalizing s with
  | zero => exact held_same (fun i => ⟨id, fun _ => ⟨rfl, rfl, rfl, rfl⟩, by rw [hr]; simp [addSamples]⟩) hn hg
  | succ k ih =>
    exact (held_addRow cf s { s with rows := addRow s.rows (cf.samp s.rows.length) false } _ false (fun _ => rfl) rfl rfl rfl).trans (ih _ hr hn hg)

theorem held_finishPass {cf : Cfg α} {nr : Nat} {s s' : St α} {o : Out} (h : finishPass cf nr s o = .ok s') : Held cf s s' := by
  unfold finishPass at h
  split at h
  · cases h
  · rename_i s1 o1 hp
    cases h
    exact (held_startAll _ hp).trans (held_samples cf _ s1 _ rfl rfl rfl)

/-- What a row holds, given the results received: the value received for it, or what it had before (`f`, `e`). -/
def Holds (got : List (Nat × FVal)) (i : Nat) (r : ARow α) (f : FVal) (e : Bool) : Prop :=
  (i ∉ got.map (·.1) ∧ r.ended = e ∧ (e = true → r.f = f)) ∨ (e = false ∧ r.ended = true ∧ (i, r.f) ∈ got)

/-- Is row `i` a sample point? -/
def isSample (rows : List (ARow α)) (i : Nat) : Bool := ((rows[i]?).map fun r => !r.isLocal).getD false

structure Vals (cf : Cfg α) (H : List (ARow α)) (s : St α) : Prop where
  len : H.length ≤ s.rows.length
  given : ∀ (i : Nat) (r0 : ARow α), H[i]? = some r0 → ∃ r, s.rows[i]? = some r ∧ r.x = r0.x ∧ r.isLocal = r0.isLocal ∧
    Holds (gotVals s.tr) i r r0.f r0.ended
  made : ∀ (i : Nat) (r : ARow α), H.length ≤ i → s.rows[i]? = some r →
    (r.isLocal = false → r.x = cf.samp i) ∧ Holds (gotVals s.tr) i r (.num 0) false
  once : ((gotVals s.tr).map (·.1)).Nodup
  inside : ∀ v ∈ gotVals s.tr, v.1 < s.rows.length
  count : s.ns = H.countP (fun r => !r.isLocal) + (gotVals s.tr).countP fun v => isSample s.rows v.1

theorem Holds.same {got : List (Nat × FVal)} {i : Nat} {r r' : ARow α} {f : FVal} {e : Bool} (h : Holds got i r f e) (k : Same r r') : Holds got i r' f e := by
  rcases h with ⟨h1, h2, h3⟩ | ⟨h1, h2, h3⟩
  · exact .inl ⟨h1, k.ended.trans h2, fun he => k.f.trans (h3 he)⟩
  · exact .inr ⟨h1, k.ended.trans h2, by rw [k.f]; exact h3⟩

theorem Vals.held {cf : Cfg α} {H : List (ARow α)} {s s' : St α} (h : Vals cf H s) (k : Held cf s s') : Vals cf H s' := by
  have hlen : s.rows.length ≤ s'.rows.length := by
    refine Nat.le_of_not_lt fun hlt => ?_
    obtain ⟨r', hr, _⟩ := k.old s'.rows.length _ (List.getElem?_eq_getElem hlt)
    rw [List.getElem?_eq_none (Nat.le_refl _)] at hr; cases hr
  refine ⟨Nat.le_trans h.len hlen, fun i r0 hi => ?_, fun i r' hl hi => ?_, by rw [k.got]; exact h.once,
    fun v hv => Nat.lt_of_lt_of_le (h.inside v (by rw [← k.got]; exact hv)) hlen, ?_⟩
  · obtain ⟨r, h1, h2, h3, h4⟩ := h.given i r0 hi
    obtain ⟨r', h5, sm⟩ := k.old i r h1
    exact ⟨r', h5, sm.x.trans h2, sm.loc.trans h3, by rw [k.got]; exact h4.same sm⟩
  · rw [k.got]
    by_cases hb : i < s.rows.length
    · obtain ⟨r2, h2, sm⟩ := k.old i _ (List.getElem?_eq_getElem hb)
      rw [hi] at h2; cases h2
      obtain ⟨h3, h4⟩ := h.made i _ hl (List.getElem?_eq_getElem hb)
      exact ⟨fun hf => sm.x.trans (h3 (sm.loc.symm.trans hf)), h4.same sm⟩
    · obtain ⟨e1, e2⟩ := k.new i r' hi (by omega)
      refine ⟨e2, .inl ⟨fun hm => ?_, e1, by simp⟩⟩
      obtain ⟨v, hv, rfl⟩ := List.mem_map.mp hm
      exact hb (h.inside v hv)
  · rw [k.ns, k.got, h.count]
    congr 1
    refine List.countP_congr fun v hv => ?_
    obtain ⟨r', h5, sm⟩ := k.old v.1 _ (List.getElem?_eq_getElem (h.inside v hv))
    simp [isSample, h5, sm.loc, List.getElem?_eq_getElem (h.inside v hv)]

theorem Vals.receive {cf : Cfg α} {H : List (ARow α)} {s s' : St α} {vals : List (Nat × FVal)} (h : Vals cf H s) (hd : Dist cf.geo s.rows)
    (hf : Fresh s.rows vals) (hr : receive cf s vals = .ok s') : Vals cf H s' := by
  obtain ⟨rows', hu, _, _, _, fr⟩ := updateDist_spec (hd.record hf)
  have hs' : s' = { s with rows := rows', ns := s.ns + vals.countP (fun v => isSample (record s.rows vals) v.1), tr := .got vals :: s.tr } := by
    unfold Aposmm.receive at hr
    split at hr
    · cases hr
    · dsimp only at hr; rw [hu] at hr; cases hr; rfl
  subst hs'
  have row : ∀ (i : Nat) (r' : ARow α), rows'[i]? = some r' → ∃ r, s.rows[i]? = some r ∧ r'.x = r.x ∧ r'.isLocal = r.isLocal ∧
      ((i ∉ vals.map (·.1) ∧ r'.f = r.f ∧ r'.ended = r.ended) ∨ ((i, r'.f) ∈ vals ∧ r.ended = false ∧ r'.ended = true)) := by
    intro i r' hi
    obtain ⟨r1, h1, lk⟩ := fr.like i r' hi
    obtain ⟨r, h2, ⟨h3, rfl⟩ | ⟨y, h3, h4, rfl⟩⟩ := record_cases hf h1
    · exact ⟨r1, h2, lk.x, lk.loc, .inl ⟨h3, lk.f, lk.ended⟩⟩
    · exact ⟨r, h2, lk.x, lk.loc, .inr ⟨by rw [lk.f]; exact h3, h4, lk.ended⟩⟩
  have hlen : rows'.length = s.rows.length := by rw [fr.len, record_length]
  have smp : ∀ i, i < s.rows.length → isSample rows' i = isSample s.rows i := by
    intro i hi
    obtain ⟨r, h1, _, h3, _⟩ := row i _ (List.getElem?_eq_getElem (by rw [hlen]; exact hi : i < rows'.length))
    simp [isSample, h1, ← h3, List.getElem?_eq_getElem (by rw [hlen]; exact hi : i < rows'.length)]
  have smr : ∀ i, i < s.rows.length → isSample (record s.rows vals) i = isSample s.rows i := by
    intro i hi
    have hi' : i < (record s.rows vals).length := by rw [record_length]; exact hi
    obtain ⟨r, h2, ⟨_, h3⟩ | ⟨y, _, _, h3⟩⟩ := record_cases hf (List.getElem?_eq_getElem hi')
    · simp [isSample, h2, List.getElem?_eq_getElem hi', h3]
    · simp [isSample, h2, List.getElem?_eq_getElem hi', h3]
  have upd : ∀ (i : Nat) (r r' : ARow α) (f : FVal) (e : Bool), Holds (gotVals s.tr) i r f e →
      ((i ∉ vals.map (·.1) ∧ r'.f = r.f ∧ r'.ended = r.ended) ∨ ((i, r'.f) ∈ vals ∧ r.ended = false ∧ r'.ended = true)) →
      Holds (vals ++ gotVals s.tr) i r' f e := by
    intro i r r' f e h1 h2
    rcases h2 with ⟨a, b, c⟩ | ⟨a, b, c⟩
    · rcases h1 with ⟨p, q, t⟩ | ⟨p, q, t⟩
      · exact .inl ⟨by simp only [List.map_append, List.mem_append]; exact fun hm => hm.elim a p, c.trans q, fun he => b.trans (t he)⟩
      · exact .inr ⟨p, c.trans q, List.mem_append_right _ (by rw [b]; exact t)⟩
    · rcases h1 with ⟨p, q, t⟩ | ⟨p, q, t⟩
      · exact .inr ⟨by rw [← q]; exact b, c, List.mem_append_left _ a⟩
      · rw [q] at b; cases b
  refine ⟨by show H.length ≤ rows'.length; rw [hlen]; exact h.len, fun i r0 hi => ?_, fun i r' hl hi => ?_, ?_, ?_, ?_⟩
  · obtain ⟨r, h1, h2, h3, h4⟩ := h.given i r0 hi
    have hlt := (List.getElem?_eq_some_iff.mp h1).1
    obtain ⟨r2, e1, e2, e3, e4⟩ := row i _ (List.getElem?_eq_getElem (by rw [hlen]; exact hlt : i < rows'.length))
    rw [h1] at e1; cases e1
    exact ⟨_, List.getElem?_eq_getElem (by rw [hlen]; exact hlt), e2.trans h2, e3.trans h3, upd i _ _ _ _ h4 e4⟩
  · obtain ⟨r2, e1, e2, e3, e4⟩ := row i r' hi
    obtain ⟨h3, h4⟩ := h.made i r2 hl e1
    exact ⟨fun hf => e2.trans (h3 (e3.symm.trans hf)), upd i _ _ _ _ h4 e4⟩
  · show ((vals ++ gotVals s.tr).map (·.1)).Nodup
    rw [List.map_append, List.nodup_append]
    refine ⟨hf.nodup, h.once, fun a ha b hb e => ?_⟩
    subst e
    obtain ⟨v, hv, rfl⟩ := List.mem_map.mp ha
    obtain ⟨r, hr1, hr2⟩ := hf.open' v hv
    have hold : ∃ f e, Holds (gotVals s.tr) v.1 r f e := by
      by_cases hH : v.1 < H.length
      · obtain ⟨r1, h1, _, _, h4⟩ := h.given v.1 _ (List.getElem?_eq_getElem hH)
        rw [hr1] at h1; cases h1
        exact ⟨_, _, h4⟩
      · exact ⟨_, _, (h.made v.1 r (by omega) hr1).2⟩
    obtain ⟨f, e, ⟨h1, _⟩ | ⟨_, h2, _⟩⟩ := hold
    · exact h1 hb
    · rw [hr2] at h2; cases h2
  · intro v hv
    show v.1 < rows'.length
    rw [hlen]
    rcases List.mem_append.mp hv with hv | hv
    · obtain ⟨r, hr1, _⟩ := hf.open' v hv
      exact (List.getElem?_eq_some_iff.mp hr1).1
    · exact h.inside v hv
  · show s.ns + _ = _ + (vals ++ gotVals s.tr).countP (fun v => isSample rows' v.1)
    rw [List.countP_append, h.count]
    have c1 : vals.countP (fun v => isSample (record s.rows vals) v.1) = vals.countP (fun v => isSample rows' v.1) := by
      refine List.countP_congr fun v hv => ?_
      obtain ⟨r, hr1, _⟩ := hf.open' v hv
      have hl := (List.getElem?_eq_some_iff.mp hr1).1
      rw [smp _ hl, smr _ hl]
    have c2 : (gotVals s.tr).countP (fun v => isSample s.rows v.1) = (gotVals s.tr).countP (fun v => isSample rows' v.1) := by
      refine List.countP_congr fun v hv => ?_
      rw [smp _ (h.inside v hv)]
    rw [c1, c2]; omega

theorem vals_begin {cf : Cfg α} {H : List (ARow α)} {s : St α} (hg : Given H) (hb : begin cf H = .ok s) : Vals cf H s := by
  have hrows : ∃ rows, (if (reset H).isEmpty = true then (.ok (reset H) : Except Err (List (ARow α))) else updateDist cf.geo (reset H)) = .ok rows ∧
      Frame (reset H) rows := by
    by_cases he : (reset H).isEmpty = true
    · rw [if_pos he]; exact ⟨_, rfl, Frame.refl _⟩
    · rw [if_neg he]
      obtain ⟨rows', hu, _, _, _, fr⟩ := updateDist_spec (dist_reset (g := cf.geo) hg)
      exact ⟨rows', hu, fr⟩
  obtain ⟨rows, e1, fr⟩ := hrows
  have hlen : rows.length = H.length := by rw [fr.len]; simp [reset]
  have row : ∀ (i : Nat) (r' : ARow α), rows[i]? = some r' → ∃ r, H[i]? = some r ∧ r'.x = r.x ∧ r'.isLocal = r.isLocal ∧ r'.f = r.f ∧ r'.ended = r.ended := by
    intro i r' hi
    obtain ⟨r1, h1, lk⟩ := fr.like i r' hi
    rw [reset, List.getElem?_map, Option.map_eq_some_iff] at h1
    obtain ⟨r, h2, rfl⟩ := h1
    exact ⟨r, h2, lk.x, lk.loc, lk.f, lk.ended⟩
  have hc : rows.countP (fun r => !r.isLocal) = H.countP (fun r => !r.isLocal) := by
    have : rows.map (fun r => !r.isLocal) = H.map (fun r => !r.isLocal) := by
      refine List.ext_getElem? fun i => ?_
      rw [List.getElem?_map, List.getElem?_map]
      by_cases hi : i < rows.length
      · obtain ⟨r, h1, _, h3, _⟩ := row i _ (List.getElem?_eq_getElem hi)
        rw [h1, List.getElem?_eq_getElem hi]; simp [h3]
      · rw [List.getElem?_eq_none (by omega), List.getElem?_eq_none (by omega)]
    have h1 : ∀ l : List (ARow α), l.countP (fun r => !r.isLocal) = (l.map fun r => !r.isLocal).countP id := fun l => by rw [List.countP_map]; rfl
    rw [h1, h1, this]
  have base : Vals cf H ({ rows := rows, ns := rows.countP fun r => !r.isLocal } : St α) := by
    refine ⟨by rw [hlen]; exact Nat.le_refl _, fun i r0 hi => ?_, fun i r hl hi => ?_, by simp [gotVals], by simp [gotVals], by simp [gotVals, hc]⟩
    · have hlt : i < rows.length := by rw [hlen]; exact (List.getElem?_eq_some_iff.mp hi).1
      obtain ⟨r, h1, h2, h3, h4, h5⟩ := row i _ (List.getElem?_eq_getElem hlt)
      rw [hi] at h1; cases h1
      exact ⟨_, List.getElem?_eq_getElem hlt, h2, h3, .inl ⟨by simp [gotVals], h5, fun _ => h4⟩⟩
    · rw [List.getElem?_eq_none (by show rows.length ≤ i; omega)] at hi; cases hi
  unfold begin at hb
  change (match (if (reset H).isEmpty = true then (.ok (reset H) : Except Err (List (ARow α))) else updateDist cf.geo (reset H)) with
    | .error e => _ | .ok rows => _) = _ at hb
  rw [e1] at hb
  dsimp only at hb
  split at hb
  · cases hb
  · split at hb
    · cases hb; exact base
    · cases hb; exact base.held (held_samples cf _ _ _ rfl rfl rfl)

theorem Reach.vals {cf : Cfg α} {H : List (ARow α)} {s : St α} (h : Reach cf H s) : Vals cf H s := by
  induction h with
  | init hg hb => exact vals_begin hg hb
  | @pass s s' vals h0 hf hp ih =>
    unfold Aposmm.pass at hp
    cases hs : s.sent with
    | false =>
      rw [hs] at hp
      simp only [Bool.false_eq_true, if_false] at hp
      split at hp
      · cases hp
      · rename_i s2 e2; cases hp; exact ih.held (held_finishPass e2)
    | true =>
      rw [hs] at hp
      simp only [if_true] at hp
      split at hp
      · cases hp
      · split at hp
        · cases hp
        · rename_i s1 e1
          split at hp
          · cases hp
          · rename_i s2 o2 e2
            split at hp
            · cases hp
            · rename_i s3 e3
              cases hp
              exact ((ih.receive h0.inv.dist (hf hs) e1).held (held_passRows _ e2)).held (held_finishPass e3)

end Verif.Aposmm
