import Verif.FromFile.Model

/-!
# C91: settings from a file are added to those that are there
-/

namespace Verif.FromFile

variable {V : Type}

/-- What a dictionary says about a field, by name or alias. -/
def given (d : Dict V) (f : String) : Option V :=
  if f = "inputs" then (d.lookup "in").or (d.lookup "inputs")
  else if f = "outputs" then (d.lookup "out").or (d.lookup "outputs")
  else if f = "in" ∨ f = "out" then none
  else d.lookup f

theorem lookup_cons' (k f : String) (v : V) (d : Dict V) : ((k, v) :: d).lookup f = if f = k then some v else d.lookup f := by
  rw [List.lookup_cons]
  by_cases h : f = k
  · simp [h]
  · have : (f == k) = false := by simpa using h
    simp [this, h]

theorem lookup_snoc (d : Dict V) (k f : String) (v : V) : (d ++ [(k, v)]).lookup f = (d.lookup f).or (if f = k then some v else none) := by
  induction d with
  | nil => simp [lookup_cons']
  | cons p d ih =>
    obtain ⟨k', v'⟩ := p
    rw [List.cons_append, lookup_cons', lookup_cons', ih]
    split <;> simp

theorem lookup_put (d : Dict V) (k f : String) (v : V) : (put d k v).lookup f = if f = k then some v else d.lookup f := by
  unfold put
  split
  · rename_i h
    induction d with
    | nil => simp at h
    | cons p d ih =>
      obtain ⟨k', v'⟩ := p
      rw [lookup_cons'] at h
      rw [List.map_cons]
      by_cases hk : k' = k
      · subst hk
        simp only [beq_self_eq_true, if_true]
        rw [lookup_cons', lookup_cons']
        by_cases hf : f = k'
        · simp [hf]
        · simp only [if_neg hf]
          clear ih h
          induction d with
          | nil => rfl
          | cons q d ih =>
            obtain ⟨k2, v2⟩ := q
            rw [List.map_cons]
            by_cases h2 : k2 = k'
            · subst h2
              simp only [beq_self_eq_true, if_true]
              rw [lookup_cons', lookup_cons', if_neg hf, if_neg hf, ih]
            · have : (k2 == k') = false := by simpa using h2
              simp only [this]
              rw [if_neg (by simp), lookup_cons', lookup_cons', ih]
      · have e : (k' == k) = false := by simpa using hk
        rw [if_neg (Ne.symm hk)] at h
        simp only [e]
        rw [if_neg (by simp), lookup_cons', lookup_cons', ih h]
        by_cases hf : f = k'
        · subst hf
          simp [hk]
        · simp [hf]
  · rename_i h
    rw [lookup_snoc]
    by_cases hf : f = k
    · subst hf
      have : d.lookup f = none := by
        cases hd : d.lookup f with
        | none => rfl
        | some x => rw [hd] at h; simp at h
      simp [this]
    · simp [hf]

theorem lookup_none_of_nodup {d : Dict V} {k : String} (h : k ∉ d.map (·.1)) : d.lookup k = none := by
  induction d with
  | nil => rfl
  | cons p d ih =>
    obtain ⟨k', v'⟩ := p
    simp only [List.map_cons, List.mem_cons, not_or] at h
    rw [lookup_cons', if_neg h.1, ih h.2]

theorem lookup_update (l : Dict V) (hl : (l.map (·.1)).Nodup) (f : String) : ∀ d : Dict V, (update d l).lookup f = (l.lookup f).or (d.lookup f) := by
  unfold update
  induction l with
  | nil => simp
  | cons p l ih =>
    obtain ⟨k, v⟩ := p
    intro d
    rw [List.map_cons, List.nodup_cons] at hl
    rw [List.foldl_cons, ih hl.2, lookup_put, lookup_cons']
    by_cases hf : f = k
    · subst hf
      rw [lookup_none_of_nodup hl.1]
      simp
    · simp [hf]

theorem lookup_del (d : Dict V) (k f : String) : (del d k).lookup f = if f = k then none else d.lookup f := by
  unfold del
  induction d with
  | nil => simp
  | cons p d ih =>
    obtain ⟨k', v'⟩ := p
    by_cases hk : k' = k
    · subst hk
      rw [List.filter_cons_of_neg (by simp), ih, lookup_cons']
      by_cases hf : f = k' <;> simp [hf]
    · rw [List.filter_cons_of_pos (by simpa using hk), lookup_cons', lookup_cons', ih]
      by_cases hf : f = k'
      · subst hf; simp [hk]
      · simp [hf]

theorem parse_spec {conv : String → V → Option V} : ∀ {l l' : Dict V}, parse conv l = some l' → l'.map (·.1) = l.map (·.1) ∧ ∀ f, l'.lookup f = (l.lookup f).bind (conv f)
  | [], l', h => by cases h; exact ⟨rfl, fun f => rfl⟩
  | (k, v) :: rest, l', h => by
    rw [parse] at h
    cases hc : conv k v with
    | none => rw [hc] at h; cases h
    | some w =>
      cases hr : parse conv rest with
      | none => rw [hc, hr] at h; cases h
      | some r =>
        rw [hc, hr] at h
        simp only [Option.some.injEq] at h
        subst h
        obtain ⟨h1, h2⟩ := parse_spec hr
        refine ⟨by simp [h1], fun f => ?_⟩
        rw [lookup_cons', lookup_cons', h2 f]
        by_cases hf : f = k
        · subst hf; simp [hc]
        · simp [hf]

theorem lookup_field (d : Dict V) (hi : d.lookup "in" = none ∨ d.lookup "inputs" = none) (ho : d.lookup "out" = none ∨ d.lookup "outputs" = none) (f : String) :
    (d.map fun p => (field p.1, p.2)).lookup f = given d f := by
  induction d with
  | nil => simp [given]
  | cons p d ih =>
    obtain ⟨k, v⟩ := p
    have hi' : d.lookup "in" = none ∨ d.lookup "inputs" = none := by
      rcases hi with h | h <;> rw [lookup_cons'] at h <;> split at h <;> first | cases h | exact Or.inl h | exact Or.inr h
    have ho' : d.lookup "out" = none ∨ d.lookup "outputs" = none := by
      rcases ho with h | h <;> rw [lookup_cons'] at h <;> split at h <;> first | cases h | exact Or.inl h | exact Or.inr h
    rw [List.map_cons, lookup_cons', ih hi' ho']
    unfold given
    simp only [lookup_cons']
    unfold field
    by_cases h1 : k = "in"
    · subst h1
      by_cases hf : f = "inputs"
      · subst hf; simp
      · by_cases hf2 : f = "outputs"
        · subst hf2; simp
        · by_cases hf3 : f = "in"
          · subst hf3; simp
          · simp [hf, hf2, hf3]
    · by_cases h2 : k = "out"
      · subst h2
        by_cases hf : f = "inputs"
        · subst hf; simp
        · by_cases hf2 : f = "outputs"
          · subst hf2; simp
          · by_cases hf3 : f = "out"
            · subst hf3; simp
            · simp [hf, hf2, hf3]
      · simp only [if_neg h1, if_neg h2]
        by_cases h3 : k = "inputs"
        · subst h3
          have hin : d.lookup "in" = none := by
            rcases hi with h | h
            · rwa [lookup_cons', if_neg (by decide)] at h
            · simp [lookup_cons'] at h
          by_cases hf : f = "inputs"
          · subst hf; simp [hin]
          · simp [hf]
        · by_cases h4 : k = "outputs"
          · subst h4
            have hout : d.lookup "out" = none := by
              rcases ho with h | h
              · rwa [lookup_cons', if_neg (by decide)] at h
              · simp [lookup_cons'] at h
            by_cases hf : f = "outputs"
            · subst hf; simp [hout]
            · simp [hf]
          · by_cases hf : f = k
            · subst hf
              simp [h1, h2, h3, h4]
            · simp only [if_neg hf]
              simp [Ne.symm h1, Ne.symm h2, Ne.symm h3, Ne.symm h4]

theorem build_spec {known : List String} {d o : Dict V} (h : build known d = some o) :
    (d.lookup "in" = none ∨ d.lookup "inputs" = none) ∧ (d.lookup "out" = none ∨ d.lookup "outputs" = none) ∧ (∀ p ∈ d, field p.1 ∈ known) ∧ ∀ f, o.lookup f = given d f := by
  unfold build at h
  split at h
  · rename_i hc
    simp only [Option.some.injEq] at h
    subst h
    simp only [Bool.and_eq_true, Bool.not_eq_true', Bool.and_eq_false_iff, List.all_eq_true, decide_eq_true_eq, Option.isSome_eq_false_iff, Option.isNone_iff_eq_none] at hc
    obtain ⟨⟨h1, h2⟩, h3⟩ := hc
    exact ⟨h2, h3, h1, lookup_field d h2 h3⟩
  · cases h

/-- No field is given by name in one place and by alias in the other. -/
def Apart (d l : Dict V) : Prop :=
  ((d.lookup "in" = none ∧ l.lookup "in" = none) ∨ (d.lookup "inputs" = none ∧ l.lookup "inputs" = none)) ∧
  ((d.lookup "out" = none ∧ l.lookup "out" = none) ∨ (d.lookup "outputs" = none ∧ l.lookup "outputs" = none))

/-- What the file says about a field, converted. -/
def says (c : Ctx V) (file : Dict V) (f : String) : Option V :=
  if f = "inputs" then ((file.lookup "in").bind (c.conv "in")).or ((file.lookup "inputs").bind (c.conv "inputs"))
  else if f = "outputs" then ((file.lookup "out").bind (c.conv "out")).or ((file.lookup "outputs").bind (c.conv "outputs"))
  else if f = "in" ∨ f = "out" then none
  else (file.lookup f).bind (c.conv f)

theorem given_parsed {c : Ctx V} {file l : Dict V} (h : parse c.conv file = some l) (f : String) : given l f = says c file f := by
  have := (parse_spec h).2
  unfold given says
  simp only [this]

/-- An attribute that is a dictionary: afterwards a field has the value of the file if the file gives it, otherwise the old one.  Under the condition that name and alias are not mixed. -/
theorem C91_added_partial (c : Ctx V) (heap : List (Dict V)) (name : String) (r : Nat) (d : Dict V) (hr : heap[r]? = some d) (file : Dict V) (hf : (file.map (·.1)).Nodup)
    (ha : Apart d file) (s : Slot V) (h : (load1 c heap name (.dict r) file).2 = some s) :
    ∃ o, s = .obj o ∧ ∀ f, o.lookup f = (says c file f).or (given d f) := by
  unfold load1 at h
  cases hp : parse c.conv file with
  | none => rw [hp] at h; cases h
  | some l =>
    rw [hp] at h
    simp only [hr, Option.getD_some] at h
    obtain ⟨hk, hlk⟩ := parse_spec hp
    have hnd : (l.map (·.1)).Nodup := by rw [hk]; exact hf
    have hu : ∀ f, (update d l).lookup f = (l.lookup f).or (d.lookup f) := fun f => lookup_update l hnd f d
    have hnone : ∀ f, file.lookup f = none → l.lookup f = none := by
      intro f hff; rw [hlk, hff]; rfl
    have hun : unclash c.truthy (update d l) = update d l := by
      unfold unclash
      have e1 : (truth c.truthy (update d l) "in" && truth c.truthy (update d l) "inputs") = false := by
        rcases ha.1 with ⟨h1, h2⟩ | ⟨h1, h2⟩
        · simp [truth, hu, h1, hnone _ h2]
        · simp [truth, hu, h1, hnone _ h2]
      have e2 : (truth c.truthy (update d l) "out" && truth c.truthy (update d l) "outputs") = false := by
        rcases ha.2 with ⟨h1, h2⟩ | ⟨h1, h2⟩
        · simp [truth, hu, h1, hnone _ h2]
        · simp [truth, hu, h1, hnone _ h2]
      rw [e1, e2]
      simp
    rw [hun] at h
    cases hb : build (c.known name) (update d l) with
    | none => rw [hb] at h; cases h
    | some o =>
      rw [hb] at h
      simp only [Option.map_some, Option.some.injEq] at h
      refine ⟨o, h.symm, fun f => ?_⟩
      rw [(build_spec hb).2.2.2 f, ← given_parsed hp f]
      unfold given
      simp only [hu]
      split
      · rcases ha.1 with ⟨h1, h2⟩ | ⟨h1, h2⟩
        · simp [h1, hnone _ h2]
        · simp [h1, hnone _ h2]
      · split
        · rcases ha.2 with ⟨h1, h2⟩ | ⟨h1, h2⟩
          · simp [h1, hnone _ h2]
          · simp [h1, hnone _ h2]
        · split
          · simp
          · rfl

/-- An attribute that is an object, or was not set: afterwards it has what the file says and nothing else, whatever it had before. -/
theorem C91_replaced (c : Ctx V) (heap : List (Dict V)) (name : String) (old : Slot V) (hold : ∀ r, old ≠ .dict r) (file : Dict V) (s : Slot V)
    (h : (load1 c heap name old file).2 = some s) : ∃ o, s = .obj o ∧ ∀ f, o.lookup f = says c file f := by
  unfold load1 at h
  cases hp : parse c.conv file with
  | none => rw [hp] at h; cases h
  | some l =>
    rw [hp] at h
    have key : (build (c.known name) l).map Slot.obj = some s := by
      cases old with
      | dict r => exact absurd rfl (hold r)
      | nothing => exact h
      | obj o => exact h
    cases hb : build (c.known name) l with
    | none => rw [hb] at key; cases key
    | some o =>
      rw [hb] at key
      simp only [Option.map_some, Option.some.injEq] at key
      exact ⟨o, key.symm, fun f => by rw [(build_spec hb).2.2.2 f, given_parsed hp f]⟩

/-- A dictionary with "in" and a file with "inputs", both with something in them: the value of the file is dropped. -/
theorem C91_dropped (c : Ctx V) (heap : List (Dict V)) (name : String) (r : Nat) (d : Dict V) (hr : heap[r]? = some d) (file : Dict V) (hf : (file.map (·.1)).Nodup) (v w w' : V)
    (hv : d.lookup "in" = some v) (hfi : file.lookup "in" = none) (hw : file.lookup "inputs" = some w) (hcw : c.conv "inputs" w = some w') (ht : c.truthy v = true)
    (htw : c.truthy w' = true) (s : Slot V) (h : (load1 c heap name (.dict r) file).2 = some s) : ∃ o, s = .obj o ∧ o.lookup "inputs" = some v := by
  unfold load1 at h
  cases hp : parse c.conv file with
  | none => rw [hp] at h; cases h
  | some l =>
    rw [hp] at h
    simp only [hr, Option.getD_some] at h
    obtain ⟨hk, hlk⟩ := parse_spec hp
    have hnd : (l.map (·.1)).Nodup := by rw [hk]; exact hf
    have hu : ∀ f, (update d l).lookup f = (l.lookup f).or (d.lookup f) := fun f => lookup_update l hnd f d
    have h1 : (update d l).lookup "in" = some v := by rw [hu, hlk, hfi]; simpa using hv
    have h2 : (update d l).lookup "inputs" = some w' := by rw [hu, hlk, hw]; simp [hcw]
    have hun : unclash c.truthy (update d l) = del (update d l) "inputs" := by
      unfold unclash
      rw [if_pos (by simp [truth, h1, h2, ht, htw])]
    rw [hun] at h
    cases hb : build (c.known name) (del (update d l) "inputs") with
    | none => rw [hb] at h; cases h
    | some o =>
      rw [hb] at h
      simp only [Option.map_some, Option.some.injEq] at h
      refine ⟨o, h.symm, ?_⟩
      rw [(build_spec hb).2.2.2]
      simp [given, lookup_del, h1]

/-- Only the attributes that the file names change, in this ensemble; and in memory only dictionaries of such attributes. -/
theorem C91_only_named (c : Ctx V) : ∀ (file : List (String × Dict V)) (heap : List (Dict V)) (e : Ens V) (name : String), name ∉ file.map (·.1) →
    (load c heap e file).2.1.lookup name = e.lookup name
  | [], _, _, _, _ => rfl
  | (n, d) :: rest, heap, e, name, hn => by
    simp only [List.map_cons, List.mem_cons, not_or] at hn
    rw [load]
    cases e.lookup n with
    | none => rfl
    | some old =>
      cases hl : load1 c heap n old d with
      | mk heap' s =>
        cases s with
        | none => simp [hl]
        | some s =>
          simp only [hl]
          rw [C91_only_named c rest heap' (put e n s) name hn.2, lookup_put, if_neg hn.1]

/-- Two ensembles made by `Ensemble()`, each with exit criteria from a file: the second has those of the first as well. -/
theorem C91_leak (c : Ctx V) (d1 d2 : Dict V) (h1 : (d1.map (·.1)).Nodup) (h2 : (d2.map (·.1)).Nodup) (heap : List (Dict V)) (hh : heap[0]? = some [])
    (hd1 : Apart ([] : Dict V) d1) (l1 : Dict V) (hl1 : parse c.conv d1 = some l1) (hd2 : Apart l1 d2) (s : Slot V)
    (hs : (load1 c (load1 c heap "exit_criteria" (.dict 0) d1).1 "exit_criteria" (.dict 0) d2).2 = some s) :
    ∃ o, s = .obj o ∧ ∀ f, o.lookup f = (says c d2 f).or (says c d1 f) := by
  have hlt : 0 < heap.length := by
    rcases Nat.lt_or_ge 0 heap.length with h | h
    · exact h
    · rw [List.getElem?_eq_none h] at hh; cases hh
  obtain ⟨hk, hlk⟩ := parse_spec hl1
  have hnd : (l1.map (·.1)).Nodup := by rw [hk]; exact h1
  have hu : ∀ f, (update [] l1).lookup f = l1.lookup f := fun f => by rw [lookup_update l1 hnd f []]; simp
  have hnone : ∀ f, d1.lookup f = none → l1.lookup f = none := by intro f hf; rw [hlk, hf]; rfl
  have hun : unclash c.truthy (update [] l1) = update [] l1 := by
    unfold unclash
    have e1 : (truth c.truthy (update [] l1) "in" && truth c.truthy (update [] l1) "inputs") = false := by
      rcases hd1.1 with ⟨_, h⟩ | ⟨_, h⟩ <;> simp [truth, hu, hnone _ h]
    have e2 : (truth c.truthy (update [] l1) "out" && truth c.truthy (update [] l1) "outputs") = false := by
      rcases hd1.2 with ⟨_, h⟩ | ⟨_, h⟩ <;> simp [truth, hu, hnone _ h]
    rw [e1, e2]
    simp
  have hheap : (load1 c heap "exit_criteria" (.dict 0) d1).1[0]? = some (update [] l1) := by
    unfold load1
    rw [hl1]
    simp only [hh, Option.getD_some]
    rw [List.getElem?_set_self hlt, hun]
  have hap : Apart (update [] l1) d2 := by
    unfold Apart
    simp only [hu]
    exact hd2
  obtain ⟨o, ho, hof⟩ := C91_added_partial c _ "exit_criteria" 0 (update [] l1) hheap d2 h2 hap s hs
  refine ⟨o, ho, fun f => ?_⟩
  rw [hof f, ← given_parsed hl1 f]
  congr 1
  unfold given
  simp only [hu]

/-- Output fields: names in the order of the file, Python's types by name, a size exactly where the file has one, and 1 as `(1,)`. -/
theorem C91_outputs (b : List String) : ∀ (l : List (String × Entry)) (o : List (String × Ty × Option (Option Nat))), outputs b l = some o →
    o.map (·.1) = l.map (·.1) ∧ ∀ (i : Nat) k e, l[i]? = some (k, e) → ∃ t, e.type = some t ∧
      o[i]? = some (k, (if t ∈ b then .builtin t else .text t), match e.size with | none => none | some 1 => some none | some n => some (some n))
  | [], o, h => by cases h; exact ⟨rfl, by simp⟩
  | (k, e) :: rest, o, h => by
    rw [outputs] at h
    cases ht : e.type with
    | none => rw [ht] at h; cases h
    | some t =>
      cases hr : outputs b rest with
      | none => rw [ht, hr] at h; cases h
      | some l =>
        rw [ht, hr] at h
        simp only [Option.some.injEq] at h
        subst h
        obtain ⟨h1, h2⟩ := C91_outputs b rest l hr
        refine ⟨by simp [h1], fun i k' e' hi => ?_⟩
        cases i with
        | zero =>
          simp only [List.getElem?_cons_zero, Option.some.injEq, Prod.mk.injEq] at hi
          obtain ⟨rfl, rfl⟩ := hi
          refine ⟨t, ht, ?_⟩
          rw [List.getElem?_cons_zero]
          cases e.size with
          | none => rfl
          | some n =>
            rcases n with _ | _ | n
            · rfl
            · rfl
            · simp
        | succ i =>
          rw [List.getElem?_cons_succ] at hi ⊢
          exact h2 i k' e' hi

/-! ### Cases -/

/-- Values are numbers; 0 counts as false. -/
def exCtx : Ctx Nat where
  truthy := fun v => v != 0
  known := fun n => if n = "exit_criteria" then ["sim_max", "gen_max"] else ["sim_f", "inputs", "outputs", "user"]
  conv := fun _ v => some v

example : ((load exCtx [[], [("sim_f", 1), ("in", 2), ("user", 3)]] [("sim_specs", .dict 1)] [("sim_specs", [("user", 4), ("outputs", 5)])]).2.1.lookup "sim_specs") =
    some (.obj [("sim_f", 1), ("inputs", 2), ("user", 4), ("outputs", 5)]) := by rfl

/-- Settings given as an object, and a file with one more field: the object is lost. -/
theorem C91_lost_witness : (load exCtx [[]] [("sim_specs", .obj [("sim_f", 1), ("inputs", 2)])] [("sim_specs", [("user", 4)])]).2.1.lookup "sim_specs" = some (.obj [("user", 4)]) := by rfl

/-- Two files one after the other: what the first says about an attribute of the second is lost. -/
theorem C91_two_files_witness : let a := load exCtx [[]] fresh [("sim_specs", [("sim_f", 1)])]; (load exCtx a.1 a.2.1 [("sim_specs", [("inputs", 2)])]).2.1.lookup "sim_specs" =
    some (.obj [("inputs", 2)]) := by rfl

/-- `sim_max` of the first ensemble ends the second, which asks for `gen_max` only. -/
theorem C91_leak_witness : let a := load exCtx [[]] fresh [("exit_criteria", [("sim_max", 10)])]; (load exCtx a.1 fresh [("exit_criteria", [("gen_max", 5)])]).2.1.lookup "exit_criteria" =
    some (.obj [("sim_max", 10), ("gen_max", 5)]) := by rfl

/-- The dictionary has "in" and "out", the file "inputs" and "outputs": only one clash is removed, and the class refuses. -/
theorem C91_refused_witness : (load exCtx [[], [("in", 1), ("out", 2)]] [("sim_specs", .dict 1)] [("sim_specs", [("inputs", 3), ("outputs", 4)])]).2.2 = false := by rfl

/-- A file whose second part is refused: the first part stays. -/
theorem C91_half_witness : let a := load exCtx [[]] fresh [("sim_specs", [("sim_f", 1)]), ("gen_specs", [("gen_g", 1)])];
    a.2.2 = false ∧ a.2.1.lookup "sim_specs" = some (.obj [("sim_f", 1)]) := ⟨rfl, rfl⟩

example : outputs ["float", "int"] [("x", ⟨some "float", some 1⟩), ("y", ⟨some "U10", none⟩), ("z", ⟨some "int", some 3⟩)] =
    some [("x", .builtin "float", some none), ("y", .text "U10", none), ("z", .builtin "int", some (some 3))] := by decide

end Verif.FromFile
