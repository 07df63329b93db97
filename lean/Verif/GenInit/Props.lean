import Verif.GenInit.Model
import Verif.Arrays.Props

/-!
# C86: generator objects get the mapping and the settings they were made with
-/

namespace Verif.GenInit
open Verif.Arrays (Mapping Proper)

variable {V : Type} [DecidableEq V]

/-! ### Dictionaries -/

omit [DecidableEq V] in
theorem lookup_app (d : Dic V) (k j : String) (v : V) (hk : k ∉ d.map (·.1)) :
    (d ++ [(k, v)]).lookup j = if j = k then some v else d.lookup j := by
  induction d with
  | nil => by_cases e : j = k <;> simp [List.lookup_cons, e, beq_eq_false_iff_ne.mpr]
  | cons p ps ih =>
    rw [List.map_cons, List.mem_cons, not_or] at hk
    rw [List.cons_append, List.lookup_cons, List.lookup_cons, ih hk.2]
    by_cases e : j = p.1
    · have : ¬ j = k := fun h => hk.1 (h.symm.trans e)
      subst e
      simp [this]
    · simp [beq_eq_false_iff_ne.mpr e]

omit [DecidableEq V] in
theorem lookup_repl (d : Dic V) (k j : String) (v : V) (hk : k ∈ d.map (·.1)) :
    (d.map (fun p => if p.1 = k then (k, v) else p)).lookup j = if j = k then some v else d.lookup j := by
  induction d with
  | nil => cases hk
  | cons p ps ih =>
    rw [List.map_cons, List.lookup_cons, List.lookup_cons]
    by_cases e : p.1 = k
    · rw [if_pos e]
      by_cases ej : j = k
      · simp [ej]
      · have : (j == p.1) = false := beq_eq_false_iff_ne.mpr (fun h => ej (h.trans e))
        simp only [beq_eq_false_iff_ne.mpr ej, this, if_neg ej]
        by_cases hm : k ∈ ps.map (·.1)
        · rw [ih hm, if_neg ej]
        · congr 1
          rw [List.map_congr_left (g := id), List.map_id]
          intro q hq
          rw [if_neg (fun h => hm (List.mem_map.mpr ⟨q, hq, h⟩))]
          rfl
    · rw [if_neg e]
      have hm : k ∈ ps.map (·.1) := by
        rw [List.map_cons, List.mem_cons] at hk
        exact hk.resolve_left (fun h => e h.symm)
      rw [ih hm]
      by_cases ej : j = p.1
      · have : ¬ j = k := fun h => e (ej.symm.trans h)
        simp [ej, e]
      · simp [beq_eq_false_iff_ne.mpr ej]

omit [DecidableEq V] in
theorem lookup_put (d : Dic V) (k j : String) (v : V) : (put d k v).lookup j = if j = k then some v else d.lookup j := by
  unfold put
  split
  · exact lookup_repl d k j v ‹_›
  · exact lookup_app d k j v ‹_›

omit [DecidableEq V] in
theorem lookup_update (kw : Dic V) : ∀ (d : Dic V) (j : String), (kw.map (·.1)).Nodup →
    (update d kw).lookup j = (kw.lookup j).or (d.lookup j) := by
  induction kw with
  | nil => intro d j _; simp [update]
  | cons p ps ih =>
    intro d j hn
    rw [List.map_cons, List.nodup_cons] at hn
    have := ih (put d p.1 p.2) j hn.2
    unfold update at this ⊢
    rw [List.foldl_cons, this, lookup_put, List.lookup_cons]
    by_cases e : j = p.1
    · subst e
      rw [Verif.Arrays.lookup_none hn.1]
      simp
    · simp [beq_eq_false_iff_ne.mpr e, e]

/-! ### The mapping -/

/-- `addField` without its cases: nothing to do, or the free names are added under the key. -/
theorem addField_ok {m m' : Mapping} {key : String} {names : List String} (h : addField m key names = (m', none)) :
    (m' = m ∧ (key ∈ m.keys ∨ names = [key])) ∨
    (m' = m ++ [(key, unmapped m names)] ∧ key ∉ m.keys ∧ names ≠ [] ∧ names ≠ [key]) := by
  unfold addField at h
  split at h
  · cases h; exact .inl ⟨rfl, .inl ‹_›⟩
  · rename_i hk
    cases names with
    | nil => cases h
    | cons n rest =>
      simp only at h
      split at h
      · rename_i hc
        cases h
        refine .inr ⟨rfl, hk, by simp, ?_⟩
        intro e
        cases e
        simp at hc
      · rename_i hc
        cases h
        simp only [not_or, ne_eq, Classical.not_not] at hc
        exact .inl ⟨rfl, .inr (by rw [hc.1, hc.2])⟩

theorem lookup_addField {m m' : Mapping} {key : String} {names : List String} (h : addField m key names = (m', none)) (j : String) :
    m'.lookup j = if j = key ∧ key ∉ m.keys ∧ names ≠ [key] then some (unmapped m names) else m.lookup j := by
  rcases addField_ok h with ⟨rfl, h1⟩ | ⟨rfl, h1, _, h2⟩
  · rw [if_neg]
    rintro ⟨_, h3, h4⟩
    exact h1.elim h3 h4
  · rw [lookup_app m key j _ h1]
    by_cases e : j = key <;> simp [e, h1, h2]

/-- What the mapping says for every field.  The fields that the user mapped are as given; "x" gets the variables and "f" the objectives that are in no list yet,
unless the only variable (objective) has this name; "sim_id" is "_id" for generators with their own numbers. -/
theorem C86_mapping (m m' : Mapping) (v : Vocs) (returnsId : Bool) (h : mapping m v returnsId = (m', none)) :
    (∀ k, k ∈ m.keys → (returnsId = true → k ≠ "sim_id") → m'.lookup k = m.lookup k) ∧
    ("x" ∉ m.keys → v.vars ≠ ["x"] → m'.lookup "x" = some (v.vars.filter (fun s => decide (s ∉ m.sources)))) ∧
    ("f" ∉ m.keys → v.objs ≠ ["f"] → ∃ fs, m'.lookup "f" = some fs ∧
      ∀ s, s ∈ fs ↔ s ∈ v.objs ∧ s ∉ m.sources ∧ ("x" ∉ m.keys → v.vars ≠ ["x"] → s ∉ v.vars)) ∧
    (returnsId = true → m'.lookup "sim_id" = some ["_id"]) ∧
    (∀ k, k ∉ m.keys → k ≠ "x" → k ≠ "f" → (returnsId = true → k ≠ "sim_id") → m'.lookup k = none) := by
  unfold mapping at h
  split at h
  · cases h
  · rename_i m1 h1
    split at h
    · cases h
    · rename_i m2 h2
      have e : m' = if returnsId then put m2 "sim_id" ["_id"] else m2 := (Prod.mk.inj h).1.symm
      have l1 := lookup_addField h1
      have l2 := lookup_addField h2
      have hl : ∀ j, m'.lookup j = if returnsId = true ∧ j = "sim_id" then some ["_id"] else m2.lookup j := by
        intro j
        rw [e]
        cases returnsId with
        | true => simp only [if_true]; rw [lookup_put]; simp
        | false => simp
      have k1 : "f" ∈ m1.keys ↔ "f" ∈ m.keys := by
        rcases addField_ok h1 with ⟨rfl, _⟩ | ⟨rfl, _⟩
        · exact Iff.rfl
        · simp [Mapping.keys]
      refine ⟨?_, ?_, ?_, ?_, ?_⟩
      · intro k hk hs
        rw [hl, if_neg (fun h => hs h.1 h.2), l2, if_neg, l1, if_neg]
        · rintro ⟨rfl, h3, _⟩; exact h3 hk
        · rintro ⟨rfl, h3, _⟩; exact h3 (k1.mpr hk)
      · intro hx hv
        rw [hl, if_neg (by simp), l2, if_neg (by simp), l1, if_pos ⟨rfl, hx, hv⟩]
        rfl
      · intro hf ho
        refine ⟨_, by rw [hl, if_neg (by simp), l2, if_pos ⟨rfl, fun h => hf (k1.mp h), ho⟩], ?_⟩
        intro s
        unfold unmapped
        rw [List.mem_filter, decide_eq_true_eq]
        rcases addField_ok h1 with ⟨rfl, h3⟩ | ⟨rfl, h3, _, h4⟩
        · unfold Mapping.sources
          constructor
          · rintro ⟨a, b⟩
            exact ⟨a, b, fun c d => (h3.elim c d).elim⟩
          · rintro ⟨a, b, _⟩; exact ⟨a, b⟩
        · unfold Mapping.sources
          rw [List.flatMap_append, List.mem_append]
          simp only [List.flatMap_cons, List.flatMap_nil, List.append_nil, unmapped, List.mem_filter, decide_eq_true_eq, not_or, not_and,
            Classical.not_not]
          constructor
          · rintro ⟨a, b, c⟩
            exact ⟨a, b, fun _ _ hs => b (c hs)⟩
          · rintro ⟨a, b, c⟩
            exact ⟨a, b, fun hs => absurd hs (c h3 h4)⟩
      · intro hr
        rw [hl, if_pos ⟨hr, rfl⟩]
      · intro k hk hx hf hs
        rw [hl, if_neg (fun h => hs h.1 h.2), l2, if_neg (fun h => hf h.1), l1, if_neg (fun h => hx h.1)]
        exact Verif.Arrays.lookup_none hk

example : mapping [("y", ["c"])] ⟨["a", "b", "c"], ["o", "p"]⟩ true =
    ([("y", ["c"]), ("x", ["a", "b"]), ("f", ["o", "p"]), ("sim_id", ["_id"])], none) := by decide

theorem mem_sources_of_lookup {m : Mapping} {k : String} {l : List String} (h : m.lookup k = some l) {s : String} (hs : s ∈ l) : s ∈ m.sources :=
  List.mem_flatMap.mpr ⟨_, Verif.Arrays.lookup_mem h, hs⟩

/-- Every variable is in some list, if the user does not map "x" (or there is just one variable and it has this name). -/
theorem C86_covered_partial (m m' : Mapping) (v : Vocs) (h : mapping m v false = (m', none)) (hx : "x" ∉ m.keys) (hm : m.keys.Nodup)
    (s : String) (hs : s ∈ v.vars) : s ∈ m'.sources ∨ v.vars = ["x"] := by
  by_cases hv : v.vars = ["x"]
  · exact .inr hv
  · refine .inl ?_
    obtain ⟨h1, h2, h3⟩ := C86_mapping m m' v false h
    clear h3
    by_cases hc : s ∈ m.sources
    · obtain ⟨⟨k, l⟩, hk, hsl⟩ := List.mem_flatMap.mp hc
      have hkk : k ∈ m.keys := List.mem_map.mpr ⟨_, hk, rfl⟩
      have hl : m.lookup k = some l := by
        clear h h1 h2 hx hc hkk
        induction m with
        | nil => cases hk
        | cons p ps ih =>
          rw [Mapping.keys, List.map_cons, List.nodup_cons] at hm
          rw [List.lookup_cons]
          rcases List.mem_cons.mp hk with rfl | hk
          · simp
          · have : k ≠ p.1 := fun e => hm.1 (List.mem_map.mpr ⟨_, hk, e⟩)
            simp only [beq_eq_false_iff_ne.mpr this]
            exact ih hm.2 hk
      exact mem_sources_of_lookup ((h1 k hkk (by simp)).trans hl) hsl
    · exact mem_sources_of_lookup (h2 hx hv) (by simp [hs, hc])

/-- A variable left out of the "x" of the user is in no list. -/
theorem C86_left_out_witness : ∃ (m m' : Mapping) (v : Vocs), mapping m v false = (m', none) ∧ Proper m ∧ "b" ∈ v.vars ∧ "b" ∉ m'.sources :=
  ⟨[("x", ["a"])], [("x", ["a"]), ("f", ["o"])], ⟨["a", "b"], ["o"]⟩, by decide, ⟨by decide, by decide, by decide⟩, by decide, by decide⟩

/-- A mapping of all variables to other fields gives "x" the empty list. -/
theorem C86_empty_x_witness : ∃ (m m' : Mapping) (v : Vocs), mapping m v false = (m', none) ∧ Proper m ∧ m'.lookup "x" = some [] :=
  ⟨[("y", ["a", "b"])], [("y", ["a", "b"]), ("x", []), ("f", ["o"])], ⟨["a", "b"], ["o"]⟩, by decide, ⟨by decide, by decide, by decide⟩, by decide⟩

/-- A user without a mapping gets one in the form which conversions need (C46): one list for each field, no name twice, no empty list; it names
the variables and the objectives. -/
theorem C86_proper (m' : Mapping) (v : Vocs) (h : mapping [] v false = (m', none)) (hv : v.vars.Nodup) (ho : v.objs.Nodup)
    (hd : ∀ s ∈ v.vars, s ∉ v.objs) :
    Proper m' ∧ m'.sources = (if v.vars = ["x"] then [] else v.vars) ++ (if v.objs = ["f"] then [] else v.objs) := by
  unfold mapping at h
  split at h
  · cases h
  · rename_i m1 h1
    split at h
    · cases h
    · rename_i m2 h2
      have e : m2 = m' := (Prod.mk.inj h).1
      subst e
      have f1 : unmapped [] v.vars = v.vars := by unfold unmapped; simp
      have f2 : unmapped [] v.objs = v.objs := by unfold unmapped; simp
      have f3 : unmapped [("x", v.vars)] v.objs = v.objs := by
        unfold unmapped
        rw [List.filter_eq_self]
        intro s hs
        simp only [List.flatMap_cons, List.flatMap_nil, List.append_nil, decide_eq_true_eq]
        exact fun hm => hd s hm hs
      have hdis : ∀ a ∈ v.vars, ∀ b ∈ v.objs, a ≠ b := fun a ha b hb e => hd a ha (e ▸ hb)
      rcases addField_ok h1 with ⟨rfl, h3⟩ | ⟨rfl, _, h4, h5⟩
      · have hvx : v.vars = ["x"] := h3.resolve_left (by simp [Mapping.keys])
        rcases addField_ok h2 with ⟨rfl, h6⟩ | ⟨rfl, _, h7, h8⟩
        · have hof : v.objs = ["f"] := h6.resolve_left (by simp [Mapping.keys])
          rw [if_pos hvx, if_pos hof]
          exact ⟨⟨by simp [Mapping.keys], by simp [Mapping.sources], by simp⟩, by simp [Mapping.sources]⟩
        · rw [if_pos hvx, if_neg h8, f2]
          exact ⟨⟨by simp [Mapping.keys], by simpa [Mapping.sources] using ho, by simpa using h7⟩, by simp [Mapping.sources]⟩
      · rw [f1] at h2
        rw [if_neg h5]
        rcases addField_ok h2 with ⟨rfl, h6⟩ | ⟨rfl, _, h7, h8⟩
        · have hof : v.objs = ["f"] := h6.resolve_left (by simp [Mapping.keys])
          rw [if_pos hof]
          exact ⟨⟨by simp [Mapping.keys], by simpa [Mapping.sources] using hv, by simpa using h4⟩, by simp [Mapping.sources]⟩
        · rw [if_neg h8, List.nil_append, f3]
          refine ⟨⟨by simp [Mapping.keys], ?_, by simpa using ⟨h4, h7⟩⟩, by simp [Mapping.sources]⟩
          simpa [Mapping.sources] using List.nodup_append.mpr ⟨hv, ho, hdis⟩

example : mapping [] ⟨["a", "b"], ["o"]⟩ false = ([("x", ["a", "b"]), ("f", ["o"])], none) ∧
    mapping [] ⟨["x"], ["f"]⟩ false = ([], none) := by decide

/-! ### Several generators -/

/-- The invariant: the default arguments are there and the default mapping has no entries. -/
def Good (h : Heap V) : Prop := h.maps[0]? = some []

theorem start_good : Good (start V) := rfl

theorem build_maps (fresh : Dic V) (h : Heap V) (a : Args V) (i : Nat) (hi : i < h.maps.length) (hne : i ≠ a.map ∨ h.maps[i]? = some []) :
    (build fresh h a).1.maps[i]? = h.maps[i]? := by
  have key : (if h.maps[a.map]?.getD [] = [] then h.maps ++ [(mapping (h.maps[a.map]?.getD []) a.vocs a.returnsId).1]
      else h.maps.set a.map (mapping (h.maps[a.map]?.getD []) a.vocs a.returnsId).1)[i]? = h.maps[i]? := by
    split
    · exact List.getElem?_append_left hi
    · rename_i hg
      by_cases e : i = a.map
      · rcases hne with h1 | h1
        · exact absurd e h1
        · rw [← e, h1] at hg; simp at hg
      · exact List.getElem?_set_ne (fun h => e h.symm)
  unfold build
  simp only
  split <;> exact key

theorem build_length (fresh : Dic V) (h : Heap V) (a : Args V) : h.maps.length ≤ (build fresh h a).1.maps.length := by
  unfold build
  simp only
  split <;> (simp only; split <;> simp)

theorem build_good (fresh : Dic V) {h : Heap V} (hg : Good h) (a : Args V) : Good (build fresh h a).1 := by
  unfold Good at *
  rw [build_maps fresh h a 0 (by cases hm : h.maps with | nil => rw [hm] at hg; cases hg | cons => simp) (.inr hg), hg]

theorem buildAll_good (fresh : Dic V) : ∀ (as : List (Args V)) {h : Heap V}, Good h → Good (buildAll fresh h as).1
  | [], _, hg => hg
  | a :: as, _, hg => buildAll_good fresh as (build_good fresh hg a)

theorem buildAll_maps (fresh : Dic V) : ∀ (as : List (Args V)) (h : Heap V) (i : Nat), i < h.maps.length → (∀ a ∈ as, a.map ≠ i) →
    (buildAll fresh h as).1.maps[i]? = h.maps[i]?
  | [], _, _, _, _ => rfl
  | a :: as, h, i, hi, hn => by
    show (buildAll fresh (build fresh h a).1 as).1.maps[i]? = _
    rw [buildAll_maps fresh as _ i (Nat.lt_of_lt_of_le hi (build_length fresh h a)) (fun b hb => hn b (List.mem_cons_of_mem _ hb)),
      build_maps fresh h a i hi (.inl (fun e => hn a List.mem_cons_self e.symm))]

theorem build_map (fresh : Dic V) {h : Heap V} {a : Args V} {g : Gen V} (hb : (build fresh h a).2 = .ok g) :
    (mapping (h.maps[a.map]?.getD []) a.vocs a.returnsId).2 = none ∧
    mapOf (build fresh h a).1 g = (mapping (h.maps[a.map]?.getD []) a.vocs a.returnsId).1 ∧
    g.map < (build fresh h a).1.maps.length ∧ (g.map = a.map ∨ g.map = h.maps.length) ∧ (h.maps[a.map]?.getD [] = [] → g.map = h.maps.length) := by
  unfold build at hb ⊢
  simp only at hb ⊢
  split at hb
  · cases hb
  · rename_i hr
    cases hb
    refine ⟨hr, ?_, ?_, ?_, ?_⟩
    · simp only [hr, mapOf]
      split
      · simp
      · rename_i hg
        have : a.map < h.maps.length := by
          rcases Nat.lt_or_ge a.map h.maps.length with h1 | h1
          · exact h1
          · rw [List.getElem?_eq_none h1] at hg; simp at hg
        simp [this]
    · simp only [hr]
      split
      · simp
      · rename_i hg
        rcases Nat.lt_or_ge a.map h.maps.length with h1 | h1
        · simpa using h1
        · rw [List.getElem?_eq_none h1] at hg; simp at hg
    · simp only
      split
      · exact .inr rfl
      · exact .inl rfl
    · intro he
      simp [he]

/-- The mapping of a generator does not change when others are made later, unless one of them is given the very dictionary. -/
theorem C86_kept_partial (fresh : Dic V) (h : Heap V) (a : Args V) (g : Gen V) (hb : (build fresh h a).2 = .ok g) (as : List (Args V))
    (hn : ∀ b ∈ as, b.map ≠ g.map) : mapOf (buildAll fresh (build fresh h a).1 as).1 g = mapOf (build fresh h a).1 g := by
  unfold mapOf
  rw [buildAll_maps fresh as _ g.map (build_map fresh hb).2.2.1 hn]

/-- Generators for which no mapping is given: whatever was made before (also with mappings of users, also with failures) and whatever is made after it by calls that
are given no mapping, the mapping of the generator is that of its own variables and objectives. -/
theorem C86_default (fresh : Dic V) (before after : List (Args V)) (a : Args V) (ha : a.map = 0) (hafter : ∀ b ∈ after, b.map = 0) (g : Gen V)
    (hb : (build fresh (buildAll fresh (start V) before).1 a).2 = .ok g) :
    mapOf (buildAll fresh (build fresh (buildAll fresh (start V) before).1 a).1 after).1 g = (mapping [] a.vocs a.returnsId).1 := by
  have hg := buildAll_good fresh before (start_good (V := V))
  have h0 : (buildAll fresh (start V) before).1.maps[a.map]?.getD [] = [] := by rw [ha, hg]; rfl
  obtain ⟨_, h2, _, _, h5⟩ := build_map fresh hb
  have hpos : 0 < (buildAll fresh (start V) before).1.maps.length := by
    unfold Good at hg
    rcases Nat.lt_or_ge 0 (buildAll fresh (start V) before).1.maps.length with h1 | h1
    · exact h1
    · rw [List.getElem?_eq_none h1] at hg; cases hg
  rw [C86_kept_partial fresh _ a g hb after (fun b hb' => by rw [hafter b hb', h5 h0]; omega), h2, h0]

/-- Two generators over different variables: each has its own mapping. -/
example : (let r := buildAll (V := Nat) [] (start Nat) [{ vocs := ⟨["a"], ["o"]⟩ }, { vocs := ⟨["b", "c"], ["o"]⟩ }];
    r.2.map (fun g => match g with | .ok g => mapOf r.1 g | .error _ => [])) =
    [[("x", ["a"]), ("f", ["o"])], [("x", ["b", "c"]), ("f", ["o"])]] := by decide

/-- One dictionary given to two generators: the entries which the first adds are taken for the user's by the second, whose variables are in no list. -/
theorem C86_shared_map_witness : ∃ (h : Heap Nat) (a b : Args Nat) (g g' : Gen Nat), a.map = b.map ∧
    (build [] h a).2 = .ok g ∧ (build [] (build [] h a).1 b).2 = .ok g' ∧ b.vocs.vars = ["b"] ∧
    mapOf (build [] (build [] h a).1 b).1 g' = [("grad", ["d"]), ("x", ["a"]), ("f", ["o"])] :=
  ⟨⟨[[], [("grad", ["d"])]], [none]⟩, { vocs := ⟨["a"], ["o"]⟩, map := 1 }, { vocs := ⟨["b"], ["o"]⟩, map := 1 }, _, _, rfl, rfl, rfl, rfl, by decide⟩

/-! ### Settings -/

theorem build_specs (fresh : Dic V) (h : Heap V) (a : Args V) (i : Nat) (hi : i ≠ a.spec ∨ a.kwargs = []) :
    (build fresh h a).1.specs[i]? = h.specs[i]? := by
  unfold build
  simp only
  split
  · rfl
  · simp only
    by_cases e : i = a.spec
    · have hk := hi.resolve_left (fun h => h e)
      subst e
      rcases Nat.lt_or_ge a.spec h.specs.length with h1 | h1
      · simp [userOf, hk, h1]
      · rw [List.getElem?_eq_none (by simpa using h1), List.getElem?_eq_none h1]
    · exact List.getElem?_set_ne (fun h => e h.symm)

theorem buildAll_specs (fresh : Dic V) : ∀ (as : List (Args V)) (h : Heap V) (i : Nat), (∀ a ∈ as, i ≠ a.spec ∨ a.kwargs = []) →
    (buildAll fresh h as).1.specs[i]? = h.specs[i]?
  | [], _, _, _ => rfl
  | a :: as, h, i, hn => by
    show (buildAll fresh (build fresh h a).1 as).1.specs[i]? = _
    rw [buildAll_specs fresh as _ i (fun b hb => hn b (List.mem_cons_of_mem _ hb)), build_specs fresh h a i (hn a List.mem_cons_self)]

/-- The settings of a generator are the keyword arguments over those of the given `gen_specs`, now and after other generators are made, as long as no generator is made
with keyword arguments and the same `gen_specs` later. -/
theorem C86_settings_partial (fresh : Dic V) (h : Heap V) (a : Args V) (g : Gen V) (hb : (build fresh h a).2 = .ok g) (hs : a.spec < h.specs.length)
    (hk : (a.kwargs.map (·.1)).Nodup) (as : List (Args V)) (hn : ∀ b ∈ as, b.spec = a.spec → b.kwargs = []) (k : String) :
    (settingsOf (buildAll fresh (build fresh h a).1 as).1 g).lookup k = (a.kwargs.lookup k).or (((h.specs[a.spec]?.getD none).getD []).lookup k) := by
  have hg : g.spec = a.spec := by
    unfold build at hb
    simp only at hb
    split at hb
    · cases hb
    · cases hb; rfl
  have he : (build fresh h a).1.specs[a.spec]? = some (userOf (h.specs[a.spec]?.getD none) a.kwargs) := by
    unfold build at hb ⊢
    simp only at hb ⊢
    split at hb
    · cases hb
    · rename_i hr
      simp only [hr]
      rw [List.getElem?_set_self hs]
  unfold settingsOf
  rw [hg, buildAll_specs fresh as _ a.spec (fun b hb' => by
    by_cases e : a.spec = b.spec
    · exact .inr (hn b hb' e.symm)
    · exact .inl e), he]
  unfold userOf
  by_cases hkw : a.kwargs = []
  · simp [hkw]
  · simp only [if_neg hkw, Option.getD_some]
    rw [lookup_update _ _ _ hk]
    cases h.specs[a.spec]?.getD none <;> rfl

/-- Two generators with a `gen_specs` of their own. -/
example : (let h : Heap Nat := ⟨[[]], [none, some [("q", 7)], none]⟩
    let r := buildAll [] h [{ vocs := ⟨["a"], ["o"]⟩, spec := 1, kwargs := [("p", 1)] }, { vocs := ⟨["b"], ["o"]⟩, spec := 2, kwargs := [("p", 2)] }];
    r.2.map (fun g => match g with | .ok g => settingsOf r.1 g | .error _ => [])) = [[("q", 7), ("p", 1)], [("p", 2)]] := by decide

/-- Without `gen_specs` all generators share the settings (the default argument): the second, made without keyword arguments, has the setting of the first, and the first
has that of the third. -/
theorem C86_shared_witness : ∃ (as : List (Args Nat)), (∀ a ∈ as, a.spec = 0) ∧
    (let r := buildAll (V := Nat) [] (start Nat) as;
      r.2.map (fun g => match g with | .ok g => settingsOf r.1 g | .error _ => [])) = [[("p", 3)], [("p", 3)], [("p", 3)]] ∧
    as.map (·.kwargs) = [[("p", 1)], [], [("p", 3)]] :=
  ⟨[{ vocs := ⟨["a"], ["o"]⟩, kwargs := [("p", 1)] }, { vocs := ⟨["b"], ["o"]⟩ }, { vocs := ⟨["c"], ["o"]⟩, kwargs := [("p", 3)] }],
    by decide, by decide, by decide⟩

/-- The given `persis_info` is kept if it has a random stream. -/
theorem C86_persis_partial (fresh : Dic V) (h : Heap V) (a : Args V) (g : Gen V) (hb : (build fresh h a).2 = .ok g)
    (hr : "rand_stream" ∈ a.pinfo.map (·.1)) : g.pinfo = a.pinfo := by
  unfold build at hb
  simp only at hb
  split at hb
  · cases hb
  · cases hb; simp only [if_pos hr]

/-- Without a stream everything in it is dropped. -/
theorem C86_persis_witness : ∃ (a : Args Nat) (g : Gen Nat), (build [("rand_stream", 0)] (start Nat) a).2 = .ok g ∧
    a.pinfo = [("nworkers", 4)] ∧ g.pinfo = [("rand_stream", 0)] :=
  ⟨{ vocs := ⟨["a"], ["o"]⟩, pinfo := [("nworkers", 4)] }, _, rfl, rfl, rfl⟩

/-! ### APOSMM -/

/-- The bounds of `APOSMM`: one for each entry of "x", in the order of the mapping; both kinds of coordinates have the same positive number of entries. -/
theorem C86_bounds {B : Type} (v : Vocs) (dom : String → B × B) (m : Mapping) (s : Sizes B) (h : aposmm v dom m = .ok s) :
    ∃ xs cs, m.lookup "x" = some xs ∧ m.lookup "x_on_cube" = some cs ∧ 0 < xs.length ∧ xs.length = cs.length ∧ s.x = xs.length ∧ s.cube = cs.length ∧
      s.lb.length = s.x ∧ s.ub.length = s.x ∧
      ∀ (i : Nat) (n : String), xs[i]? = some n → n ∈ v.vars ∧ s.lb[i]? = some (dom n).1 ∧ s.ub[i]? = some (dom n).2 := by
  unfold aposmm at h
  split at h
  · cases h
  · rename_i xs hx
    split at h
    · rename_i hall
      simp only at h
      split at h
      · cases h
      · rename_i h1
        split at h
        · cases h
        · rename_i h2
          cases h
          cases hc : m.lookup "x_on_cube" with
          | none => rw [hc] at h1; simp at h1
          | some cs =>
            rw [hc] at h1 h2
            simp only [Option.getD_some, ne_eq, Classical.not_not, not_or] at h1 h2
            refine ⟨xs, cs, hx, rfl, Nat.pos_of_ne_zero h1.1, h2, rfl, rfl, by simp, by simp, ?_⟩
            intro i n hi
            refine ⟨?_, by simp [hi], by simp [hi]⟩
            have := List.all_eq_true.mp hall n (List.mem_of_getElem? hi)
            simpa using this
    · cases h

/-- The default of the constant of the critical distance is computed with twice the dimension of the points: the variables are those of "x" and those of "x_on_cube". -/
theorem C86_dimension_doubled {B : Type} (v : Vocs) (dom : String → B × B) (m : Mapping) (s : Sizes B) (h : aposmm v dom m = .ok s)
    (xs cs : List String) (hx : m.lookup "x" = some xs) (hc : m.lookup "x_on_cube" = some cs) (hv : v.vars.Perm (xs ++ cs)) : s.n = 2 * s.x := by
  have hn : s.n = v.vars.length := by
    unfold aposmm at h
    rw [hx] at h
    simp only at h
    split at h
    · split at h
      · cases h
      · split at h
        · cases h
        · cases h; rfl
    · cases h
  obtain ⟨xs', cs', h1, h2, _, h4, h5, _⟩ := C86_bounds v dom m s h
  rw [hx] at h1; cases h1
  rw [hc] at h2; cases h2
  rw [hn, hv.length_eq, List.length_append, h5]
  omega

def sampleVocs : Vocs := ⟨["core", "edge", "core_on_cube", "edge_on_cube"], ["energy"]⟩
def sampleMap : Mapping := [("x", ["core", "edge"]), ("x_on_cube", ["core_on_cube", "edge_on_cube"]), ("f", ["energy"])]

example : (match aposmm sampleVocs (fun s => (s.length, s.length + 1)) sampleMap with
    | .ok s => some (s.lb, s.ub, s.x, s.cube, s.n) | .error _ => none) = some ([4, 4], [5, 5], 2, 2, 4) ∧
    sampleVocs.vars.Perm (["core", "edge"] ++ ["core_on_cube", "edge_on_cube"]) ∧
    mapping sampleMap sampleVocs true = (sampleMap ++ [("sim_id", ["_id"])], none) :=
  ⟨by decide, List.Perm.refl _, by decide⟩

/-- With one variable named "x" the request for a mapping never comes: the constructor ends with a KeyError. -/
theorem C86_key_witness : ∃ v : Vocs, (mapping [] v true).2 = none ∧ aposmm v (fun _ => ((0 : Int), (1 : Int))) (mapping [] v true).1 = .error .key :=
  ⟨⟨["x"], ["f"]⟩, by decide, rfl⟩

end Verif.GenInit
