import Verif.Arrays.Lemmas
/-!
C45 and C46: conversions between points and arrays.
-/
namespace Verif.Arrays

variable {F : Type} [DecidableEq F] {C : Conv F}

/-! ### Specification -/

/-- Two dictionaries are equal: the same names with the same values. -/
def Same (d d' : Dict F) : Prop := ∀ n, d.lookup n = d'.lookup n

/-- Values of the same type as that of the first point; a text may be one character longer. -/
def SameType : Cell F → Cell F → Prop
  | .one (.int _), .one (.int _) => True
  | .one (.flt _), .one (.flt _) => True
  | .one (.str s), .one (.str t) => t.length ≤ s.length + 1
  | .one (.obj _), _ => True
  | .many _, _ => True
  | _, _ => False

/-- Type of the variables of a mapped field: numbers, and integers for the identifier. -/
def NumberFor (key : String) : Cell F → Prop
  | .one (.flt _) => key ≠ "sim_id"
  | .one (.int _) => key = "sim_id"
  | _ => False

/-- The mapping is meaningful: no field and no variable twice, no empty list. -/
structure Proper (m : Mapping) : Prop where
  keys : m.keys.Nodup
  sources : m.sources.Nodup
  nonempty : ∀ p ∈ m, p.2 ≠ []

/-- The points are over the same variables and agree with the mapping. -/
structure Uniform (C : Conv F) (m : Mapping) (first : Dict F) (pts : List (Dict F)) : Prop where
  vars : ∀ d ∈ pts, ∀ n, n ∈ d.map (·.1) ↔ n ∈ first.map (·.1)
  nodup : (first.map (·.1)).Nodup
  types : ∀ n c, first.lookup n = some c → n ∉ m.sources → ∀ d ∈ pts, ∀ c', d.lookup n = some c' → SameType c c'
  simId : "sim_id" ∉ m.sources → ∀ d ∈ pts, ∀ c, d.lookup "sim_id" = some c → ∃ z, c = .one (.int z)
  numbers : ∀ p ∈ m, ∀ s ∈ p.2, ∀ d ∈ pts, ∀ c, d.lookup s = some c → NumberFor p.1 c
  whole : ∀ p ∈ m, (∀ s ∈ p.2, s ∈ first.map (·.1)) ∨ (∀ s ∈ p.2, s ∉ first.map (·.1))
  separate : ∀ k ∈ m.keys, k ∈ first.map (·.1) → k ∈ m.sources
  set : ∀ d ∈ pts, d.lookup "_id" ≠ some (.one (.int (-1))) ∧ d.lookup "_id" ≠ some (.one (.flt (C.ofInt (-1))))

/-! ### Helper lemmas -/

/-- The value of a variable. -/
def at' (d : Dict F) (n : String) : Cell F := (d.lookup n).getD (.many [])

theorem at_of_mem {d : Dict F} {n : String} (h : n ∈ d.map (·.1)) : d.lookup n = some (at' d n) := by
  obtain ⟨c, hc⟩ := lookup_some h
  unfold at'
  rw [hc]
  rfl

theorem store_kindOf {n : String} {c c' : Cell F} (h : SameType c c') (hs : n = "sim_id" → ∃ z, c' = .one (.int z)) :
    store C ⟨n, kindOf n c, none⟩ c' = some c' := by
  unfold kindOf
  by_cases e : n = "sim_id"
  · obtain ⟨z, rfl⟩ := hs e
    simp [e, store, cast]
  · simp only [e, if_false]
    rcases c with (v | vs)
    · cases v <;> rcases c' with (v' | vs') <;> try cases v'
      all_goals simp_all [SameType, store, cast, List.take_of_length_le]
    · rcases c' with (v' | vs')
      · simp [store, cast]
      · simp [store]

/-- The scalars of some variables. -/
def vals (d : Dict F) (ns : List String) : List (Val F) := ns.filterMap (fun n => match at' d n with
  | .one v => some v
  | .many _ => none)

theorem gather_vals {d : Dict F} : ∀ {ns : List String}, (∀ n ∈ ns, n ∈ d.map (·.1) ∧ ∃ v, at' d n = .one v) →
    gather d ns = some (vals d ns) ∧ (vals d ns).map Cell.one = ns.map (at' d) := by
  intro ns
  induction ns with
  | nil => intro _; exact ⟨rfl, rfl⟩
  | cons n ns ih =>
    intro h
    obtain ⟨h1, v, hv⟩ := h n List.mem_cons_self
    obtain ⟨i1, i2⟩ := ih (fun x hx => h x (List.mem_cons_of_mem _ hx))
    have e : vals d (n :: ns) = v :: vals d ns := by
      unfold vals
      rw [List.filterMap_cons, hv]
    have e2 : gather d (n :: ns) = some (v :: vals d ns) := by
      rw [gather, at_of_mem h1, hv, i1]
    exact ⟨by rw [e2, e], by rw [e, List.map_cons, List.map_cons, i2, hv]⟩

/-- What is stored for a mapped field. -/
def mapped (d : Dict F) (p : String × List String) : Cell F :=
  match p.2 with
  | [s] => at' d s
  | ns => .many (vals d ns)

theorem number_cast {key : String} {v : Val F} (h : NumberFor key (.one v)) :
    cast C (if key = "sim_id" then Kind.int else Kind.float) v = some v := by
  cases v <;> simp_all [NumberFor, cast]

theorem mapped_ok {m : Mapping} (hm : Proper m) {d : Dict F} {p : String × List String} (hp : p ∈ m)
    (hin : ∀ s ∈ p.2, s ∈ d.map (·.1)) (hnum : ∀ s ∈ p.2, NumberFor p.1 (at' d s)) :
    (∃ c, packField d ((m.lookup p.1).getD [p.1]) = some c ∧ store C (mappedField p) c = some (mapped d p)) ∧
    spread m (mappedField p) (mapped d p) = some (p.2.map (fun n => (n, at' d n))) := by
  have hl : m.lookup p.1 = some p.2 := lookup_of_mem hm.keys hp
  have hne := hm.nonempty p hp
  have hone : ∀ s ∈ p.2, ∃ v, at' d s = .one v := by
    intro s hs
    have := hnum s hs
    cases e : at' d s with
    | one v => exact ⟨v, rfl⟩
    | many vs => rw [e] at this; exact this.elim
  obtain ⟨key, srcs⟩ := p
  simp only at hl hne hone hin hnum
  match srcs with
  | [] => exact absurd rfl hne
  | [s] =>
    obtain ⟨v, hv⟩ := hone s (by simp)
    have hc := number_cast (C := C) (by have := hnum s (by simp); rwa [hv] at this)
    refine ⟨⟨.one v, ?_, ?_⟩, ?_⟩
    · rw [hl]
      simp only [Option.getD_some, packField]
      rw [at_of_mem (hin s (by simp)), hv]
    · simp [store, mappedField, sizeOf', mapped, hv, hc]
    · have hk : (mappedField (key, [s])).kind ≠ .obj := by unfold mappedField; simp only; split <;> simp
      unfold spread
      have e1 : (mappedField (key, [s])).name = key := rfl
      rw [e1, hl]
      have : ¬ ((mappedField (key, [s])).kind = .obj ∨ (mappedField (key, [s])).size.getD 1 ≠ [s].length) := by
        simp [hk, mappedField, sizeOf']
        split <;> simp
      simp only [this, if_false, mapped, hv]
      simp [hv]
  | s :: t :: ss =>
    obtain ⟨g1, g2⟩ := gather_vals (ns := s :: t :: ss) (fun n hn => ⟨hin n hn, hone n hn⟩)
    have hlen : (vals d (s :: t :: ss)).length = ss.length + 2 := by
      have := congrArg List.length g2
      simpa using this
    have hcast : (vals d (s :: t :: ss)).mapM (cast C (if key = "sim_id" then Kind.int else Kind.float)) = some (vals d (s :: t :: ss)) := by
      have := mapM_all (f := cast C (if key = "sim_id" then Kind.int else Kind.float)) (g := id) (l := vals d (s :: t :: ss)) (by
        intro v hv
        have : Cell.one v ∈ (vals d (s :: t :: ss)).map Cell.one := List.mem_map.mpr ⟨v, hv, rfl⟩
        rw [g2] at this
        obtain ⟨n, hn, e⟩ := List.mem_map.mp this
        have := hnum n hn
        rw [e] at this
        exact number_cast this)
      simpa using this
    refine ⟨⟨.many (vals d (s :: t :: ss)), ?_, ?_⟩, ?_⟩
    · rw [hl]
      simp only [Option.getD_some, packField, g1, Option.map_some]
    · have hsz : sizeOf' (ss.length + 1 + 1) = some (ss.length + 2) := by unfold sizeOf'; rw [if_neg (by omega)]
      simp only [store, mappedField, List.length_cons, hsz, hlen, if_true, hcast, Option.map_some, mapped]
    · have hsz : sizeOf' (ss.length + 1 + 1) = some (ss.length + 2) := by unfold sizeOf'; rw [if_neg (by omega)]
      unfold spread
      have e1 : (mappedField (key, s :: t :: ss)).name = key := rfl
      rw [e1, hl]
      have : ¬ ((mappedField (key, s :: t :: ss)).kind = .obj ∨ (mappedField (key, s :: t :: ss)).size.getD 1 ≠ (s :: t :: ss).length) := by
        simp only [mappedField, List.length_cons, hsz, Option.getD_some]
        split <;> simp
      simp only [this, if_false, mapped, hlen]
      rw [if_pos (by omega), g2]
      congr 1
      generalize s :: t :: ss = l
      induction l with
      | nil => rfl
      | cons x xs ih => simp only [List.map_cons, List.zip_cons_cons, ih]

theorem plain_fields_names {m : Mapping} {first : Dict F} (hsep : ∀ k ∈ m.keys, k ∈ first.map (·.1) → k ∈ m.sources) :
    plainFields m first = (plainNames m first).map (fun n => ⟨n, kindOf n (at' first n), none⟩) := by
  unfold plainFields
  have e : (plainNames m first).filter (fun n => decide (n ∉ m.keys)) = plainNames m first := by
    rw [List.filter_eq_self]
    intro n hn
    unfold plainNames at hn
    simp only [List.mem_filter, decide_eq_true_eq] at hn
    simp only [decide_eq_true_eq]
    exact fun hk => hn.2 (hsep n hk hn.1)
  rw [e]
  have : ∀ l : List String, (∀ n ∈ l, n ∈ first.map (·.1)) →
      l.filterMap (fun n => (first.lookup n).map (fun c => (⟨n, kindOf n c, none⟩ : Field))) = l.map (fun n => ⟨n, kindOf n (at' first n), none⟩) := by
    intro l
    induction l with
    | nil => intro _; rfl
    | cons n ns ih =>
      intro h
      rw [List.filterMap_cons, at_of_mem (h n List.mem_cons_self), ih (fun x hx => h x (List.mem_cons_of_mem _ hx))]
      rfl
  exact this _ (fun n hn => by unfold plainNames at hn; exact (List.mem_filter.mp hn).1)

/-! ## C45 -/

/-- Full statement: converting a list of points to an array and back gives the same points.  Proved for points over the same
variables whose values have the type they have in the first point (`Uniform`), every meaningful mapping, without a given
dtype.  Missing: other types (converted or cut, see the witnesses), mapped fields with only some of their variables present,
the identifier -1 (which stands for none), and a given dtype that already names a mapped field (`C45_given_witness`). -/
theorem C45_round_trip_partial {m : Mapping} {first : Dict F} {rest : List (Dict F)} (hm : Proper m)
    (hu : Uniform C m first (first :: rest)) :
    ∃ a back, toNp C (first :: rest) [] m = some a ∧ toDicts C a m = some back ∧
      back.length = (first :: rest).length ∧ ∀ j : Nat, ∀ d d', (first :: rest)[j]? = some d → back[j]? = some d' → Same d d' := by
  let ks := first.map (·.1)
  let names := plainNames m first
  let pf : String → Field := fun n => ⟨n, kindOf n (at' first n), none⟩
  let add := m.filter (fun p => decide (∀ s ∈ p.2, s ∈ first.map (·.1)))
  have hstart : plainFields m first = names.map pf := plain_fields_names hu.separate
  have hnames : ∀ n, n ∈ names ↔ n ∈ ks ∧ n ∉ m.sources := by
    intro n; simp [names, plainNames, ks]
  have hpk : ∀ n ∈ names, n ∉ m.keys := fun n hn hk => ((hnames n).mp hn).2 (hu.separate n hk ((hnames n).mp hn).1)
  have hpn : (names.map pf).map (·.name) = names := by simp [pf, Function.comp_def]
  have hadd : added m first ((names.map pf).map (·.name)) = add := by
    unfold added
    rw [hpn]
    apply List.filter_congr
    intro p hp
    have : p.1 ∉ names := fun h => hpk _ h (List.mem_map.mpr ⟨p, hp, rfl⟩)
    simp [this]
  have hmn : (add.map mappedField).map (·.name) = add.map (·.1) := by
    rw [List.map_map]; rfl
  have hfn : ((names.map pf ++ add.map mappedField).map (·.name)) = names ++ add.map (·.1) := by
    rw [List.map_append, hpn, hmn]
  have hsub : (add.map (·.1)).Sublist m.keys := List.filter_sublist.map _
  have hnd : (names ++ add.map (·.1)).Nodup := by
    rw [List.nodup_append]
    refine ⟨hu.nodup.sublist (List.filter_sublist), hm.keys.sublist hsub, ?_⟩
    intro x hx y hy e
    subst e
    exact hpk x hx (hsub.subset hy)
  let g : Dict F → Field → Cell F := fun d f => match m.lookup f.name with
    | some srcs => mapped d (f.name, srcs)
    | none => at' d f.name
  -- each point
  have hpt : ∀ d ∈ first :: rest,
      packRow C m (names.map pf ++ add.map mappedField) d (names ++ add.map (·.1)) ((names.map pf ++ add.map mappedField).map (Field.zero C)) =
        some ((names.map pf ++ add.map mappedField).map (g d)) ∧
      ∃ l, spreadRow m (names.map pf ++ add.map mappedField) ((names.map pf ++ add.map mappedField).map (g d)) = some l ∧
        Same d (dropUnset C (makeDict l)) := by
    intro d hd
    have hvars := hu.vars d hd
    have hplain : ∀ n ∈ names, m.lookup n = none := fun n hn => lookup_none (hpk n hn)
    have hmem : ∀ p ∈ add, p ∈ m ∧ ∀ s ∈ p.2, s ∈ d.map (·.1) := by
      intro p hp
      simp only [add, List.mem_filter, decide_eq_true_eq] at hp
      exact ⟨hp.1, fun s hs => (hvars s).mpr (hp.2 s hs)⟩
    have hgm : ∀ p ∈ add, g d (mappedField p) = mapped d p := by
      intro p hp
      have : m.lookup p.1 = some p.2 := lookup_of_mem hm.keys (hmem p hp).1
      show (match m.lookup p.1 with | some srcs => mapped d (p.1, srcs) | none => at' d p.1) = _
      rw [this]
    have hmo := fun p hp => mapped_ok (C := C) hm (hmem p hp).1 (hmem p hp).2 (fun s hs =>
      hu.numbers p (hmem p hp).1 s hs d hd _ (at_of_mem ((hmem p hp).2 s hs)))
    have hgp : ∀ n ∈ names, g d (pf n) = at' d n := by
      intro n hn
      show (match m.lookup n with | some srcs => mapped d (n, srcs) | none => at' d n) = _
      rw [hplain n hn]
    constructor
    · have := packRow_all (C := C) (m := m) (d := d) (g d) (Field.zero C) (names.map pf ++ add.map mappedField) [] [] rfl
        (by rw [List.nil_append, hfn]; exact hnd) (by
          intro f hf
          rcases List.mem_append.mp hf with hf | hf
          · obtain ⟨n, hn, rfl⟩ := List.mem_map.mp hf
            have hnk := (hnames n).mp hn
            have hnd' : n ∈ d.map (·.1) := (hvars n).mpr hnk.1
            refine ⟨at' d n, ?_, ?_⟩
            · show packField d ((m.lookup n).getD [n]) = _
              rw [hplain n hn]
              exact at_of_mem hnd'
            · rw [hgp n hn]
              apply store_kindOf
              · exact hu.types n _ (at_of_mem hnk.1) hnk.2 d hd _ (at_of_mem hnd')
              · rintro rfl
                exact hu.simId hnk.2 d hd _ (at_of_mem hnd')
          · obtain ⟨p, hp, rfl⟩ := List.mem_map.mp hf
            rw [hgm p hp]
            exact (hmo p hp).1)
      rw [List.nil_append, hfn] at this
      simpa using this
    · refine ⟨(names ++ add.flatMap (·.2)).map (fun n => (n, at' d n)), ?_, ?_⟩
      · have := spreadRow_all (m := m) (g d) (fun f => match m.lookup f.name with
            | some srcs => srcs.map (fun n => (n, at' d n))
            | none => [(f.name, at' d f.name)]) (names.map pf ++ add.map mappedField) (by
          intro f hf
          rcases List.mem_append.mp hf with hf | hf
          · obtain ⟨n, hn, rfl⟩ := List.mem_map.mp hf
            rw [hgp n hn]
            show spread m (pf n) (at' d n) = some (match m.lookup n with
              | some srcs => srcs.map (fun n => (n, at' d n))
              | none => [(n, at' d n)])
            unfold spread
            show (match m.lookup n with
              | none => some [(n, at' d n)]
              | some names => _) = _
            rw [hplain n hn]
          · obtain ⟨p, hp, rfl⟩ := List.mem_map.mp hf
            rw [hgm p hp, (hmo p hp).2]
            show _ = some (match m.lookup p.1 with
              | some srcs => srcs.map (fun n => (n, at' d n))
              | none => [(p.1, at' d p.1)])
            rw [lookup_of_mem hm.keys (hmem p hp).1])
        rw [this]
        congr 1
        rw [List.flatMap_append, List.map_append]
        congr 1
        · have : ∀ l : List String, (∀ n ∈ l, m.lookup n = none) → (l.map pf).flatMap (fun f => match m.lookup f.name with
              | some srcs => srcs.map (fun n => (n, at' d n))
              | none => [(f.name, at' d f.name)]) = l.map (fun n => (n, at' d n)) := by
            intro l
            induction l with
            | nil => intro _; rfl
            | cons n ns ih =>
              intro h
              rw [List.map_cons, List.flatMap_cons, ih (fun x hx => h x (List.mem_cons_of_mem _ hx))]
              show (match m.lookup n with
                | some srcs => srcs.map (fun n => (n, at' d n))
                | none => [(n, at' d n)]) ++ _ = _
              rw [h n List.mem_cons_self]
              rfl
          exact this names hplain
        · have : ∀ l : Mapping, (∀ p ∈ l, m.lookup p.1 = some p.2) → (l.map mappedField).flatMap (fun f => match m.lookup f.name with
              | some srcs => srcs.map (fun n => (n, at' d n))
              | none => [(f.name, at' d f.name)]) = (l.flatMap (·.2)).map (fun n => (n, at' d n)) := by
            intro l
            induction l with
            | nil => intro _; rfl
            | cons p ps ih =>
              intro h
              rw [List.map_cons, List.flatMap_cons, ih (fun x hx => h x (List.mem_cons_of_mem _ hx)), List.flatMap_cons, List.map_append]
              show (match m.lookup p.1 with
                | some srcs => srcs.map (fun n => (n, at' d n))
                | none => [(p.1, at' d p.1)]) ++ _ = _
              rw [h p List.mem_cons_self]
          exact this add (fun p hp => lookup_of_mem hm.keys (hmem p hp).1)
      · have hL : ∀ k, k ∈ names ++ add.flatMap (·.2) ↔ k ∈ d.map (·.1) := by
          intro k
          rw [List.mem_append, hnames, hvars]
          constructor
          · rintro (h | h)
            · exact h.1
            · obtain ⟨p, hp, hk⟩ := List.mem_flatMap.mp h
              exact (hvars k).mp ((hmem p hp).2 k hk)
          · intro h
            by_cases hs : k ∈ m.sources
            · right
              obtain ⟨p, hp, hk⟩ := List.mem_flatMap.mp hs
              refine List.mem_flatMap.mpr ⟨p, ?_, hk⟩
              simp only [add, List.mem_filter, decide_eq_true_eq]
              refine ⟨hp, ?_⟩
              rcases hu.whole p hp with h' | h'
              · exact h'
              · exact absurd h (h' k hk)
            · exact .inl ⟨h, hs⟩
        have hlook : ∀ k, (makeDict ((names ++ add.flatMap (·.2)).map (fun n => (n, at' d n)))).lookup k = d.lookup k := by
          intro k
          rw [lookup_makeDict]
          by_cases hk : k ∈ names ++ add.flatMap (·.2)
          · rw [if_pos hk, at_of_mem ((hL k).mp hk)]
          · rw [if_neg hk, lookup_none (fun h => hk ((hL k).mpr h))]
        rw [dropUnset_id]
        · intro k; exact (hlook k).symm
        · rw [hlook]
          have := hu.set d hd
          simp [isUnset, this.1, this.2]
  have ha : toNp C (first :: rest) [] m = some ⟨names.map pf ++ add.map mappedField,
      (first :: rest).map (fun d => (names.map pf ++ add.map mappedField).map (g d))⟩ := by
    unfold toNp
    simp only [if_true, hstart, hadd, hfn]
    rw [if_pos hnd]
    show (List.mapM (fun d => packRow C m _ d (names ++ add.map (·.1)) _) _).map _ = _
    rw [mapM_all (fun d hd => (hpt d hd).1)]
    rfl
  let un : List (Cell F) → Dict F := fun row =>
    dropUnset C (makeDict ((spreadRow m (names.map pf ++ add.map mappedField) row).getD []))
  refine ⟨_, ((first :: rest).map (fun d => (names.map pf ++ add.map mappedField).map (g d))).map un, ha, ?_, by simp, ?_⟩
  · unfold toDicts
    apply mapM_all
    intro row hrow
    obtain ⟨d, hd, rfl⟩ := List.mem_map.mp hrow
    obtain ⟨l, hl, _⟩ := (hpt d hd).2
    simp only [hl, un, Option.map_some, Option.getD_some]
  · intro j d d' hd hd'
    rw [List.getElem?_map, List.getElem?_map, hd] at hd'
    simp only [Option.map_some, Option.some.injEq] at hd'
    obtain ⟨l, hl, hsame⟩ := (hpt d (List.mem_of_getElem? hd)).2
    subst hd'
    simp only [un, hl, Option.getD_some]
    exact hsame

/-! ### Concrete cases: floating-point numbers as tenths -/

def tenths : Conv Int := { ofInt := fun z => 10 * z, trunc := fun q => some (q.tdiv 10), text := fun _ => [] }

def pt (x0 x1 : Int) (z : Int) (s : String) : Dict Int :=
  [("x0", .one (.flt x0)), ("z", .one (.int z)), ("x1", .one (.flt x1)), ("name", .one (.str s.toList)), ("v", .many [.int 1, .int 2])]

def demoMap : Mapping := [("x", ["x0", "x1"]), ("f", ["obj"])]

/-- Two points over two vector components, an integer, a text and an array. -/
example : Proper demoMap ∧ Uniform tenths demoMap (pt 15 20 3 "abc") [pt 15 20 3 "abc", pt (-5) 7 4 "a"] := by
  refine ⟨⟨by decide, by decide, by decide⟩, ⟨?_, by decide, ?_, ?_, ?_, by decide, by decide, by decide⟩⟩
  · intro d hd
    simp only [List.mem_cons, List.not_mem_nil, or_false] at hd
    rcases hd with rfl | rfl <;> intro n <;> rfl
  · intro n c hc _ d hd c' hc'
    have h1 := lookup_mem hc
    have hn : (d.map (·.1)).Nodup := by
      simp only [List.mem_cons, List.not_mem_nil, or_false] at hd
      rcases hd with rfl | rfl <;> decide
    simp only [pt, List.mem_cons, Prod.mk.injEq, List.not_mem_nil, or_false] at h1
    simp only [List.mem_cons, List.not_mem_nil, or_false] at hd
    rcases hd with rfl | rfl <;> rcases h1 with ⟨rfl, rfl⟩ | ⟨rfl, rfl⟩ | ⟨rfl, rfl⟩ | ⟨rfl, rfl⟩ | ⟨rfl, rfl⟩ <;>
      (revert hc'; simp only [pt, List.lookup_cons]; simp; rintro rfl; simp [SameType])
  · intro _ d hd c hc
    simp only [List.mem_cons, List.not_mem_nil, or_false] at hd
    rcases hd with rfl | rfl <;> (revert hc; simp [pt, List.lookup_cons])
  · intro p hp s hs d hd c hc
    simp only [demoMap, List.mem_cons, List.not_mem_nil, or_false] at hp
    simp only [List.mem_cons, List.not_mem_nil, or_false] at hd
    rcases hp with rfl | rfl
    · simp only [List.mem_cons, List.not_mem_nil, or_false] at hs
      rcases hs with rfl | rfl <;> rcases hd with rfl | rfl <;>
        (revert hc; simp [pt, List.lookup_cons]; rintro rfl; simp [NumberFor])
    · simp only [List.mem_cons, List.not_mem_nil, or_false] at hs
      subst hs
      rcases hd with rfl | rfl <;> (revert hc; simp [pt, List.lookup_cons])

/-- There and back. -/
def back (C : Conv F) (pts : List (Dict F)) (given : List Field) (m : Mapping) : Option (List (Dict F)) :=
  (toNp C pts given m).bind (fun a => toDicts C a m)

example : back tenths [pt 15 20 3 "abc"] [] demoMap = some [[("z", .one (.int 3)), ("name", .one (.str "abc".toList)),
    ("v", .many [.int 1, .int 2]), ("x0", .one (.flt 15)), ("x1", .one (.flt 20))]] := by decide +kernel

/-- An integer in the first point: later numbers are cut to integers.  A text longer than in the first point is cut. -/
theorem C45_types_witness :
    back tenths [[("x", .one (.int 1))], [("x", .one (.flt 15))]] [] [] = some [[("x", .one (.int 1))], [("x", .one (.int 1))]] ∧
    back tenths [[("s", .one (.str "a".toList))], [("s", .one (.str "abcd".toList))]] [] [] =
      some [[("s", .one (.str "a".toList))], [("s", .one (.str "ab".toList))]] := by decide +kernel

/-- If only some variables of a mapped field are present, they are lost without an error. -/
theorem C45_missing_source_witness :
    back tenths [[("x0", .one (.flt 15)), ("y", .one (.flt 5))]] [] [("x", ["x0", "x1"])] = some [[("y", .one (.flt 5))]] := by decide +kernel

/-- A variable named like a mapped field is lost. -/
theorem C45_key_witness :
    back tenths [[("x0", .one (.flt 15)), ("x", .one (.flt 5))]] [] [("x", ["x0"])] = some [[("x0", .one (.flt 15))]] := by decide +kernel

/-- With a given dtype that names the mapped field, as after a first call that appended it to the list of the caller, the
variables are lost: zeros come back. -/
theorem C45_given_witness :
    back tenths [[("x0", .one (.flt 15)), ("x1", .one (.flt 5))]] [⟨"x", .float, some 2⟩] [("x", ["x0", "x1"])] =
      some [[("x0", .one (.flt 0)), ("x1", .one (.flt 0))]] := by decide +kernel

/-- An empty list of variables, which the generators make when all variables are mapped elsewhere, is an error. -/
theorem C45_empty_list_witness : toNp tenths [[("x0", .one (.flt 15))]] [] [("y", ["x0"]), ("x", [])] = none := by decide +kernel

/-! ## C46 -/

/-- A cell of the type of its field. -/
def Typed (C : Conv F) (f : Field) (c : Cell F) : Prop :=
  match f.size with
  | none => ∃ v, c = .one v ∧ cast C f.kind v = some v
  | some n => ∃ vs, c = .many vs ∧ vs.length = n ∧ ∀ v ∈ vs, cast C f.kind v = some v

/-- An array: no field twice, every row has a cell of the right type for each field. -/
structure Valid (C : Conv F) (a : Arr F) : Prop where
  names : (a.fields.map (·.name)).Nodup
  length : ∀ row ∈ a.rows, row.length = a.fields.length
  cells : ∀ row ∈ a.rows, ∀ f c, (f, c) ∈ a.fields.zip row → Typed C f c

def block (m : Mapping) (f : Field) : List String := (m.lookup f.name).getD [f.name]

def scalars : Cell F → List (Cell F)
  | .one v => [.one v]
  | .many vs => vs.map .one

theorem unmapFields_names (m : Mapping) (fs : List Field) : (unmapFields m fs).map (·.name) = fs.flatMap (block m) := by
  unfold unmapFields
  induction fs with
  | nil => rfl
  | cons f fs ih =>
    rw [List.flatMap_cons, List.flatMap_cons, List.map_append, ih]
    congr 1
    unfold block
    cases m.lookup f.name <;> simp [Function.comp_def]

theorem cellOf_eq : ∀ (fs : List Field) (cs : List (Cell F)) (n : String), cellOf fs cs n = ((fs.map (·.name)).zip cs).lookup n
  | [], _, _ => by simp [cellOf]
  | _ :: _, [], _ => by simp [cellOf]
  | f :: fs, c :: cs, n => by
    simp only [cellOf, List.map_cons, List.zip_cons_cons, List.lookup_cons]
    by_cases e : f.name = n
    · subst e; simp
    · simp only [e, if_false]
      simp only [beq_eq_false_iff_ne.mpr (fun h => e h.symm)]
      exact cellOf_eq fs cs n

theorem unmapRow_all {m : Mapping} : ∀ (fs : List Field) (cs : List (Cell F)), fs.length = cs.length →
    (∀ f c, (f, c) ∈ fs.zip cs → unmapCell C m f c = some (scalars c) ∧ (scalars c).length = (block m f).length) →
    ∃ us, unmapRow C m fs cs = some us ∧ us.length = (fs.flatMap (block m)).length ∧
      (fs.flatMap (block m)).zip us = (fs.zip cs).flatMap (fun p => (block m p.1).zip (scalars p.2))
  | [], [], _, _ => ⟨[], rfl, rfl, rfl⟩
  | [], _ :: _, h, _ => by simp at h
  | _ :: _, [], h, _ => by simp at h
  | f :: fs, c :: cs, hl, h => by
    obtain ⟨us, h1, h2, h3⟩ := unmapRow_all fs cs (by simpa using hl) (fun g d hg => h g d (by simp [hg]))
    obtain ⟨k1, k2⟩ := h f c (by simp)
    refine ⟨scalars c ++ us, ?_, ?_, ?_⟩
    · rw [unmapRow, k1, h1]
    · rw [List.flatMap_cons, List.length_append, List.length_append, h2, k2]
    · rw [List.flatMap_cons, List.zip_append k2.symm, h3, List.zip_cons_cons, List.flatMap_cons]

theorem scalarsOf_all {fs : List Field} {row : List (Cell F)} : ∀ (ns : List String) (vs : List (Val F)), ns.length = vs.length →
    (∀ n v, (n, v) ∈ ns.zip vs → cellOf fs row n = some (.one v)) → scalarsOf fs row ns = some vs
  | [], [], _, _ => rfl
  | [], _ :: _, h, _ => by simp at h
  | _ :: _, [], h, _ => by simp at h
  | n :: ns, v :: vs, hl, h => by
    rw [scalarsOf, h n v (by simp), scalarsOf_all ns vs (by simpa using hl) (fun m w hm => h m w (by simp [hm]))]

theorem store_typed {f : Field} {c : Cell F} (h : Typed C f c) : store C f c = some c := by
  unfold Typed at h
  unfold store
  cases hs : f.size with
  | none =>
    rw [hs] at h
    obtain ⟨v, rfl, hv⟩ := h
    simp [hv]
  | some n =>
    rw [hs] at h
    obtain ⟨vs, rfl, hl, hv⟩ := h
    simp only [hl, if_true]
    rw [mapM_all (g := id) hv]
    simp

theorem mem_uniq {l : List Field} {f : Field} : f ∈ uniq l ↔ f ∈ l := by
  induction l with
  | nil => rfl
  | cons g gs ih =>
    unfold uniq
    rw [List.mem_cons, List.mem_cons, List.mem_filter, ih]
    by_cases h : f = g <;> simp [h]

theorem uniq_id {l : List Field} (h : (l.map (·.name)).Nodup) : uniq l = l := by
  induction l with
  | nil => rfl
  | cons g gs ih =>
    rw [List.map_cons, List.nodup_cons] at h
    unfold uniq
    rw [ih h.2]
    congr 1
    rw [List.filter_eq_self]
    intro f hf
    simp only [decide_eq_true_eq]
    rintro rfl
    exact h.1 (List.mem_map.mpr ⟨f, hf, rfl⟩)

theorem fieldOf_of_mem {fs : List Field} (hn : (fs.map (·.name)).Nodup) {f : Field} (h : f ∈ fs) : fieldOf fs f.name = some f := by
  unfold fieldOf
  induction fs with
  | nil => cases h
  | cons g gs ih =>
    rw [List.map_cons, List.nodup_cons] at hn
    rw [List.find?_cons]
    rcases List.mem_cons.mp h with rfl | h
    · simp
    · have : g.name ≠ f.name := fun e => hn.1 (by rw [e]; exact List.mem_map.mpr ⟨f, h, rfl⟩)
      simp only [this, decide_false]
      exact ih hn.2 h

theorem mem_of_names {fs : List Field} {k : String} (h : k ∈ fs.map (·.name)) : ∃ f ∈ fs, f.name = k := by
  obtain ⟨f, hf, e⟩ := List.mem_map.mp h
  exact ⟨f, hf, e⟩

/-- Full statement: for every mapping and array, unmapping and mapping back gives the original array, other fields being
carried through.  Proved when the fields of the array are exactly those of the mapping, each as long as its list of variables
(scalars for one variable): then every field comes back with the same type and the same values in every row; the fields come
in the order of the mapping.  Missing: other fields, for which `map_numpy_array` always raises (`C46_other_fields`), fields of
length one and fields of another length (witnesses). -/
theorem C46_round_trip_partial {m : Mapping} {a : Arr F} (hm : Proper m) (hne : m ≠ []) (ha : Valid C a)
    (hk : ∀ k, k ∈ a.fields.map (·.name) ↔ k ∈ m.keys)
    (hsize : ∀ f ∈ a.fields, ∀ names, m.lookup f.name = some names → f.size = if names.length = 1 then none else some names.length) :
    ∃ u b, unmap C a m = some u ∧ mapNp C u m = some b ∧ b.fields.Perm a.fields ∧ b.rows.length = a.rows.length ∧
      ∀ j : Nat, ∀ row row', a.rows[j]? = some row → b.rows[j]? = some row' → ∀ n, cellOf b.fields row' n = cellOf a.fields row n := by
  -- the variables of a field
  have hblock : ∀ f ∈ a.fields, (f.name, block m f) ∈ m := by
    intro f hf
    obtain ⟨ns, hns⟩ := lookup_some ((hk f.name).mp (List.mem_map.mpr ⟨f, hf, rfl⟩))
    have : block m f = ns := by unfold block; rw [hns]; rfl
    rw [this]
    exact lookup_mem hns
  have hlook : ∀ f ∈ a.fields, m.lookup f.name = some (block m f) := fun f hf => lookup_of_mem hm.keys (hblock f hf)
  have hbne : ∀ f ∈ a.fields, block m f ≠ [] := fun f hf => hm.nonempty _ (hblock f hf)
  -- the pairs of the mapping are those of the fields
  let field : String × List String → Field := fun p => (fieldOf a.fields p.1).getD ⟨p.1, .obj, none⟩
  have hfield : ∀ p ∈ m, ∃ f ∈ a.fields, f.name = p.1 ∧ field p = f ∧ block m f = p.2 := by
    intro p hp
    obtain ⟨f, hf, e⟩ := mem_of_names ((hk p.1).mpr (List.mem_map.mpr ⟨p, hp, rfl⟩))
    refine ⟨f, hf, e, ?_, ?_⟩
    · show (fieldOf a.fields p.1).getD _ = f
      rw [← e, fieldOf_of_mem ha.names hf]; rfl
    · unfold block; rw [e, lookup_of_mem hm.keys hp]; rfl
  -- distinct variables
  have hperm : (a.fields.map (fun f => (f.name, block m f))).Perm m := by
    have n1 : (a.fields.map (fun f => (f.name, block m f))).Nodup := by
      have := ha.names
      unfold List.Nodup at this ⊢
      rw [List.pairwise_map] at this ⊢
      exact this.imp (fun h e => h (Prod.mk.inj e).1)
    have n2 : m.Nodup := by
      have := hm.keys
      unfold Mapping.keys List.Nodup at this
      rw [List.pairwise_map] at this
      exact this.imp (fun h e => h (congrArg _ e))
    rw [List.perm_ext_iff_of_nodup n1 n2]
    intro p
    constructor
    · intro hp
      obtain ⟨f, hf, rfl⟩ := List.mem_map.mp hp
      exact hblock f hf
    · intro hp
      obtain ⟨f, hf, e1, _, e2⟩ := hfield p hp
      exact List.mem_map.mpr ⟨f, hf, by rw [e1, e2]⟩
  have hflat : (a.fields.flatMap (block m)).Perm m.sources := by
    have := hperm.flatMap_right (·.2)
    rw [List.flatMap_map] at this
    exact this
  have hnd : (a.fields.flatMap (block m)).Nodup := hflat.nodup_iff.mpr hm.sources
  -- unmapping
  have hcell : ∀ row ∈ a.rows, ∀ f c, (f, c) ∈ a.fields.zip row → unmapCell C m f c = some (scalars c) ∧ (scalars c).length = (block m f).length := by
    intro row hrow f c hfc
    have hf : f ∈ a.fields := (List.of_mem_zip hfc).1
    have ht := ha.cells row hrow f c hfc
    have hs := hsize f hf _ (hlook f hf)
    unfold Typed at ht
    unfold unmapCell
    rw [hlook f hf]
    by_cases h1 : (block m f).length = 1
    · rw [hs, if_pos h1] at ht
      obtain ⟨v, rfl, _⟩ := ht
      obtain ⟨x, hx⟩ := List.length_eq_one_iff.mp h1
      simp only [hx, scalars]
      simp
    · rw [hs, if_neg h1] at ht
      obtain ⟨vs, rfl, hl, _⟩ := ht
      simp only [hl, scalars, List.length_map]
      rw [if_pos (Nat.le_refl _), ← hl, List.take_length]
      simp
  have hok : a.fields.all (unmapOk m) = true := by
    rw [List.all_eq_true]
    intro f hf
    unfold unmapOk
    rw [hlook f hf, hsize f hf _ (hlook f hf)]
    simp only
    by_cases h1 : (block m f).length = 1
    · simp [h1, hbne f hf]
    · simp [h1]
  let ur : List (Cell F) → List (Cell F) := fun row => (unmapRow C m a.fields row).getD []
  have hur : ∀ row ∈ a.rows, unmapRow C m a.fields row = some (ur row) ∧
      (a.fields.flatMap (block m)).zip (ur row) = (a.fields.zip row).flatMap (fun p => (block m p.1).zip (scalars p.2)) := by
    intro row hrow
    obtain ⟨us, h1, _, h3⟩ := unmapRow_all a.fields row (ha.length row hrow).symm (hcell row hrow)
    refine ⟨by simp only [ur, h1, Option.getD_some], by simp only [ur, h1, Option.getD_some]; exact h3⟩
  have hu : unmap C a m = some ⟨unmapFields m a.fields, a.rows.map ur⟩ := by
    unfold unmap
    rw [if_neg hne, unmapFields_names, if_pos ⟨hnd, hok⟩, mapM_all (fun row hrow => (hur row hrow).1)]
    rfl
  -- cells of the unmapped array
  have hcells : ∀ row ∈ a.rows, ∀ f c, (f, c) ∈ a.fields.zip row → ∀ n x, (n, x) ∈ (block m f).zip (scalars c) →
      cellOf (unmapFields m a.fields) (ur row) n = some x := by
    intro row hrow f c hfc n x hnx
    rw [cellOf_eq, unmapFields_names, (hur row hrow).2]
    have hkeys : (((a.fields.zip row).flatMap (fun p => (block m p.1).zip (scalars p.2))).map (·.1)).Nodup := by
      rw [← (hur row hrow).2]
      exact hnd.sublist (fst_zip_sublist _ _)
    exact lookup_of_mem hkeys (List.mem_flatMap.mpr ⟨(f, c), hfc, hnx⟩)
  -- mapping back
  have hmf : ∀ p ∈ m, mapField (unmapFields m a.fields) p = some (field p) := by
    intro p hp
    obtain ⟨f, hf, e1, e2, e3⟩ := hfield p hp
    have hpn := hm.nonempty p hp
    unfold mapField
    cases hv : p.2 with
    | nil => exact absurd hv hpn
    | cons v vs =>
      have hmem : (⟨v, f.kind, none⟩ : Field) ∈ unmapFields m a.fields := by
        unfold unmapFields
        refine List.mem_flatMap.mpr ⟨f, hf, ?_⟩
        rw [hlook f hf, e3, hv]
        simp
      have := fieldOf_of_mem (by rw [unmapFields_names]; exact hnd) hmem
      simp only at this ⊢
      rw [this, e2]
      have hs := hsize f hf _ (hlook f hf)
      rw [e3, hv] at hs
      simp only [Option.map_some, Option.some.injEq]
      cases f with
      | mk nm kd sz =>
        simp only at hs e1
        subst e1
        rw [hs]
        cases vs <;> simp
  have hnone : (unmapFields m a.fields).filter (fun f => decide (f.name ∉ m.sources)) = [] := by
    rw [List.filter_eq_nil_iff]
    intro f hf
    have : f.name ∈ m.sources := by
      apply hflat.subset
      rw [← unmapFields_names]
      exact List.mem_map.mpr ⟨f, hf, rfl⟩
    simp [this]
  have hnames : (m.map field).map (·.name) = m.keys := by
    rw [List.map_map]
    apply List.map_congr_left
    intro p hp
    obtain ⟨f, _, e1, e2, _⟩ := hfield p hp
    show (field p).name = p.1
    rw [e2, e1]
  have hcellOf : ∀ row ∈ a.rows, ∀ f ∈ a.fields, ∃ c, (f, c) ∈ a.fields.zip row ∧ cellOf a.fields row f.name = some c := by
    intro row hrow f hf
    obtain ⟨i, hi, rfl⟩ := List.getElem_of_mem hf
    have hi' : i < row.length := by rw [ha.length row hrow]; exact hi
    have hz : (a.fields[i], row[i]) ∈ a.fields.zip row := by
      rw [List.mem_iff_getElem]
      exact ⟨i, by simp; omega, by simp⟩
    refine ⟨row[i], hz, ?_⟩
    rw [cellOf_eq]
    have hkeys : ((((a.fields.map (·.name)).zip row)).map (·.1)).Nodup := ha.names.sublist (fst_zip_sublist _ _)
    apply lookup_of_mem hkeys (p := (a.fields[i].name, row[i]))
    rw [List.mem_iff_getElem]
    exact ⟨i, by simp; omega, by simp⟩
  let gr : List (Cell F) → String × List String → Cell F := fun row p => (cellOf a.fields row p.1).getD (.many [])
  have hmc : ∀ row ∈ a.rows, ∀ p ∈ m, mapCell C m (unmapFields m a.fields) (ur row) (field p) = some (gr row p) := by
    intro row hrow p hp
    obtain ⟨f, hf, e1, e2, e3⟩ := hfield p hp
    obtain ⟨c, hz, hc⟩ := hcellOf row hrow f hf
    have hg : gr row p = c := by
      show (cellOf a.fields row p.1).getD _ = c
      rw [← e1, hc]; rfl
    have ht := ha.cells row hrow f c hz
    have hst := store_typed ht
    have hs := hsize f hf _ (hlook f hf)
    have hx := hcells row hrow f c hz
    rw [hg, e2]
    unfold mapCell
    rw [hlook f hf]
    unfold Typed at ht
    match hb : block m f with
    | [] => exact absurd hb (hbne f hf)
    | [v] =>
      rw [hs, hb] at ht
      simp only [List.length_singleton, if_true] at ht
      obtain ⟨w, rfl, _⟩ := ht
      rw [hb] at hx
      simp only
      rw [hx v (.one w) (by simp [scalars])]
      exact hst
    | v :: v' :: vs =>
      rw [hs, hb] at ht
      simp only [List.length_cons] at ht
      rw [if_neg (by omega)] at ht
      obtain ⟨ws, rfl, hl, _⟩ := ht
      rw [hb] at hx
      simp only
      rw [scalarsOf_all (v :: v' :: vs) ws (by simp [hl]) (by
        intro n w hnw
        apply hx n (.one w)
        simp only [scalars]
        rw [List.zip_map_right]
        exact List.mem_map.mpr ⟨(n, w), hnw, rfl⟩)]
      exact hst
  have hb : mapNp C ⟨unmapFields m a.fields, a.rows.map ur⟩ m = some ⟨m.map field, a.rows.map (fun row => m.map (gr row))⟩ := by
    unfold mapNp
    rw [if_neg hne]
    simp only
    rw [mapM_all hmf]
    simp only [hnone, List.append_nil]
    rw [uniq_id (by rw [hnames]; exact hm.keys), hnames, if_pos hm.keys, if_pos (by
      rw [List.all_eq_true]
      intro f hf
      obtain ⟨p, hp, rfl⟩ := List.mem_map.mp hf
      obtain ⟨g, hg, e1, e2, _⟩ := hfield p hp
      rw [e2, hlook g hg]
      rfl)]
    have : (a.rows.map ur).mapM (fun row => (m.map field).mapM (mapCell C m (unmapFields m a.fields) row)) =
        some (a.rows.map (fun row => m.map (gr row))) := by
      rw [List.mapM_map]
      apply mapM_all
      intro row hrow
      show (m.map field).mapM (mapCell C m (unmapFields m a.fields) (ur row)) = _
      rw [List.mapM_map]
      exact mapM_all (fun p hp => hmc row hrow p hp)
    rw [this]
    rfl
  refine ⟨_, _, hu, hb, ?_, by simp, ?_⟩
  · have h1 := hperm.map field
    rw [List.map_map] at h1
    have : a.fields.map (field ∘ fun f => (f.name, block m f)) = a.fields := by
      conv => rhs; rw [← List.map_id a.fields]
      apply List.map_congr_left
      intro f hf
      show (fieldOf a.fields f.name).getD _ = f
      rw [fieldOf_of_mem ha.names hf]; rfl
    rw [this] at h1
    exact h1.symm
  · intro j row row' hrow hrow' n
    have hr := List.mem_of_getElem? hrow
    simp only [List.getElem?_map, hrow, Option.map_some, Option.some.injEq] at hrow'
    subst hrow'
    rw [cellOf_eq]
    simp only
    rw [hnames]
    have hz : m.keys.zip (m.map (gr row)) = m.map (fun p => (p.1, gr row p)) := by
      unfold Mapping.keys
      rw [List.zip_map']
    rw [hz]
    by_cases hn : n ∈ m.keys
    · obtain ⟨p, hp, rfl⟩ := List.mem_map.mp hn
      have hkeys : ((m.map (fun p => (p.1, gr row p))).map (·.1)).Nodup := by
        rw [List.map_map]; exact hm.keys
      have := lookup_of_mem hkeys (p := (p.1, gr row p)) (List.mem_map.mpr ⟨p, hp, rfl⟩)
      simp only at this
      rw [this]
      obtain ⟨f, hf, e1, _, _⟩ := hfield p hp
      obtain ⟨c, _, hc⟩ := hcellOf row hr f hf
      show some ((cellOf a.fields row p.1).getD _) = _
      rw [← e1, hc]; rfl
    · rw [lookup_none (by rw [List.map_map]; exact hn)]
      rw [cellOf_eq, lookup_none]
      intro h
      have := (fst_zip_sublist _ _).subset h
      exact hn ((hk n).mp this)

/-- A field outside the mapping is never carried through: mapping back raises, for every array and every non-empty mapping. -/
theorem C46_other_fields {m : Mapping} {a u : Arr F} {f : Field} (hne : m ≠ []) (hf : f ∈ a.fields) (hk : f.name ∉ m.keys)
    (hs : f.name ∉ m.sources) (hu : unmap C a m = some u) : mapNp C u m = none := by
  have hmem : f ∈ u.fields := by
    unfold unmap at hu
    rw [if_neg hne] at hu
    split at hu
    · cases hr : a.rows.mapM (unmapRow C m a.fields) with
      | none => rw [hr] at hu; cases hu
      | some rows =>
        rw [hr] at hu
        cases hu
        unfold unmapFields
        refine List.mem_flatMap.mpr ⟨f, hf, ?_⟩
        rw [lookup_none hk]
        simp
    · cases hu
  unfold mapNp
  rw [if_neg hne]
  split
  · rfl
  · rename_i new _
    simp only
    have : (uniq (new ++ u.fields.filter (fun f => decide (f.name ∉ m.sources)))).all (fun f => (m.lookup f.name).isSome) = false := by
      rw [List.all_eq_false]
      refine ⟨f, mem_uniq.mpr (List.mem_append_right _ (List.mem_filter.mpr ⟨hmem, by simp [hs]⟩)), ?_⟩
      rw [lookup_none hk]
      simp
    rw [this]
    split <;> simp

def sampleArr : Arr Int := ⟨[⟨"f", .float, none⟩, ⟨"x", .float, some 2⟩], [[.one (.flt 5), .many [.flt 1, .flt 2]], [.one (.flt 6), .many [.flt 3, .flt 4]]]⟩

example : Proper [("x", ["x0", "x1"]), ("f", ["obj"])] ∧ Valid tenths sampleArr ∧
    (unmap tenths sampleArr [("x", ["x0", "x1"]), ("f", ["obj"])]).bind (fun u => mapNp tenths u [("x", ["x0", "x1"]), ("f", ["obj"])]) =
      some ⟨[⟨"x", .float, some 2⟩, ⟨"f", .float, none⟩], [[.many [.flt 1, .flt 2], .one (.flt 5)], [.many [.flt 3, .flt 4], .one (.flt 6)]]⟩ := by
  refine ⟨⟨by decide, by decide, by decide⟩, ⟨by decide, by decide, ?_⟩, by decide +kernel⟩
  intro row hrow f c hfc
  simp only [sampleArr, List.mem_cons, List.not_mem_nil, or_false] at hrow
  rcases hrow with rfl | rfl <;> simp only [sampleArr, List.zip_cons_cons, List.zip_nil_right, List.mem_cons, Prod.mk.injEq, List.not_mem_nil, or_false] at hfc <;>
    rcases hfc with ⟨rfl, rfl⟩ | ⟨rfl, rfl⟩
  · exact ⟨_, rfl, rfl⟩
  · exact ⟨_, rfl, rfl, by decide⟩
  · exact ⟨_, rfl, rfl⟩
  · exact ⟨_, rfl, rfl, by decide⟩

theorem unmapRow_carried {m : Mapping} {n : String} (hk : m.lookup n = none) : ∀ (fs : List Field) (cs us : List (Cell F)),
    unmapRow C m fs cs = some us → (∀ f ∈ fs, f.name ≠ n → n ∉ block m f) → fs.length = cs.length →
    (∀ f c, (f, c) ∈ fs.zip cs → ∀ x, unmapCell C m f c = some x → x.length = (block m f).length) →
    ((fs.flatMap (block m)).zip us).lookup n = ((fs.map (·.name)).zip cs).lookup n
  | [], cs, us, h, _, _, _ => by simp
  | _ :: _, [], _, _, _, hl, _ => by simp at hl
  | f :: fs, c :: cs, us, h, hb, hl, hw => by
    rw [unmapRow] at h
    cases hc : unmapCell C m f c with
    | none => rw [hc] at h; cases h
    | some x =>
      cases hr : unmapRow C m fs cs with
      | none => rw [hc, hr] at h; cases h
      | some y =>
        rw [hc, hr] at h
        cases h
        have hlen := hw f c (by simp) x hc
        have ih := unmapRow_carried hk fs cs y hr (fun g hg => hb g (List.mem_cons_of_mem _ hg)) (by simpa using hl)
          (fun g d hg => hw g d (by simp [hg]))
        rw [List.flatMap_cons, List.zip_append hlen.symm, List.map_cons, List.zip_cons_cons, List.lookup_append, ih]
        by_cases e : f.name = n
        · subst e
          unfold unmapCell at hc
          rw [hk] at hc
          cases hc
          unfold block
          rw [hk]
          simp
        · rw [List.lookup_cons, beq_eq_false_iff_ne.mpr (fun h => e h.symm)]
          rw [lookup_none (l := (block m f).zip x) (fun h => hb f List.mem_cons_self e ((fst_zip_sublist _ _).subset h))]
          simp

theorem mapM_get {α β} {g : α → Option β} : ∀ {l : List α} {r : List β}, l.mapM g = some r →
    r.length = l.length ∧ ∀ (j : Nat) (x : α), l[j]? = some x → ∃ y, r[j]? = some y ∧ g x = some y
  | [], r, h => by
    simp at h
    subst h
    simp
  | a :: l, r, h => by
    rw [List.mapM_cons] at h
    cases hg : g a with
    | none => rw [hg] at h; cases h
    | some b =>
      cases hr : l.mapM g with
      | none => rw [hg, hr] at h; cases h
      | some rs =>
        rw [hg, hr] at h
        cases h
        obtain ⟨h1, h2⟩ := mapM_get hr
        refine ⟨by simp [h1], ?_⟩
        intro j x hj
        cases j with
        | zero => simp at hj; subst hj; exact ⟨b, rfl, hg⟩
        | succ j => simpa using h2 j x (by simpa using hj)

theorem unmapCell_length {m : Mapping} {f : Field} {c : Cell F} {x : List (Cell F)} (h : unmapCell C m f c = some x) :
    x.length = (block m f).length := by
  unfold unmapCell at h
  unfold block
  cases hm : m.lookup f.name with
  | none => rw [hm] at h; cases h; rfl
  | some names =>
    rw [hm] at h
    cases c with
    | one v => cases names with
      | nil => cases h
      | cons a rest => cases h; simp
    | many vs =>
      simp only at h
      split at h
      · rename_i hl
        cases h
        simp [hl]
      · cases h

/-- Unmapping carries a field outside the mapping: the field is there with its type, there are as many rows as before, and
every row has the value it had. -/
theorem C46_carried {m : Mapping} {a u : Arr F} {f : Field} (ha : Valid C a) (hf : f ∈ a.fields) (hk : f.name ∉ m.keys)
    (hu : unmap C a m = some u) :
    f ∈ u.fields ∧ u.rows.length = a.rows.length ∧
      ∀ (j : Nat) (row row' : List (Cell F)), a.rows[j]? = some row → u.rows[j]? = some row' →
        cellOf u.fields row' f.name = cellOf a.fields row f.name := by
  unfold unmap at hu
  split at hu
  · cases hu
    refine ⟨hf, rfl, ?_⟩
    intro j row row' h1 h2
    rw [h1] at h2
    cases h2
    rfl
  · split at hu
    · rename_i hnd
      cases hr : a.rows.mapM (unmapRow C m a.fields) with
      | none => rw [hr] at hu; cases hu
      | some rows =>
        rw [hr] at hu
        cases hu
        obtain ⟨h1, h2⟩ := mapM_get hr
        have hmem : f ∈ unmapFields m a.fields := by
          unfold unmapFields
          refine List.mem_flatMap.mpr ⟨f, hf, ?_⟩
          rw [lookup_none hk]
          simp
        refine ⟨hmem, h1, ?_⟩
        intro j row row' hj hj'
        obtain ⟨y, hy, hg⟩ := h2 j row hj
        simp only at hj'
        rw [hj'] at hy
        cases hy
        rw [cellOf_eq, cellOf_eq]
        simp only
        rw [unmapFields_names]
        refine unmapRow_carried (lookup_none hk) _ _ _ hg ?_ (ha.length row (List.mem_of_getElem? hj)).symm
          (fun g c _ x hx => unmapCell_length hx)
        intro g hg' hne hin
        have hn := hnd.1
        rw [unmapFields_names] at hn
        obtain ⟨s, t, e⟩ := List.append_of_mem hg'
        rw [e] at hf hn
        rw [List.flatMap_append, List.flatMap_cons] at hn
        have hfb : f.name ∈ block m f := by
          unfold block
          rw [lookup_none hk]
          simp
        rcases List.mem_append.mp hf with hs | hs
        · exact (List.nodup_append.mp hn).2.2 f.name (List.mem_flatMap.mpr ⟨f, hs, hfb⟩) f.name
            (List.mem_append_left _ hin) rfl
        · rcases List.mem_cons.mp hs with rfl | ht
          · exact hne rfl
          · exact (List.nodup_append.mp (List.nodup_append.mp hn).2.1).2.2 f.name hin f.name
              (List.mem_flatMap.mpr ⟨f, ht, hfb⟩) rfl
    · cases hu

example : (unmap tenths sampleArr [("x", ["x0", "x1"])]).map (fun u => (u.fields, u.rows)) =
    some ([⟨"f", .float, none⟩, ⟨"x0", .float, none⟩, ⟨"x1", .float, none⟩],
      [[.one (.flt 5), .one (.flt 1), .one (.flt 2)], [.one (.flt 6), .one (.flt 3), .one (.flt 4)]]) ∧
    "f" ∉ Mapping.keys [("x", ["x0", "x1"])] := by decide +kernel

/-- There and back for arrays. -/
def backArr (a : Arr Int) (m : Mapping) : Option (Arr Int) := (unmap tenths a m).bind (fun u => mapNp tenths u m)

/-- The usual history has more fields than the mapping: an exception. -/
theorem C46_history_witness : backArr ⟨[⟨"x", .float, some 2⟩, ⟨"sim_id", .int, none⟩], [[.many [.flt 1, .flt 2], .one (.int 0)]]⟩ [("x", ["x0", "x1"])] = none := by decide +kernel

/-- A field of length one comes back as a scalar; a field longer than its list of variables is cut; of a scalar field with two
variables only the first gets the value. -/
theorem C46_sizes_witness :
    backArr ⟨[⟨"x", .float, some 1⟩], [[.many [.flt 1]]]⟩ [("x", ["x0"])] = some ⟨[⟨"x", .float, none⟩], [[.one (.flt 1)]]⟩ ∧
    backArr ⟨[⟨"x", .float, some 3⟩], [[.many [.flt 1, .flt 2, .flt 3]]]⟩ [("x", ["x0", "x1"])] =
      some ⟨[⟨"x", .float, some 2⟩], [[.many [.flt 1, .flt 2]]]⟩ ∧
    backArr ⟨[⟨"x", .float, none⟩], [[.one (.flt 1)]]⟩ [("x", ["x0", "x1"])] = some ⟨[⟨"x", .float, some 2⟩], [[.many [.flt 1, .flt 0]]]⟩ := by
  decide +kernel

/-- A variable used by two fields is an error. -/
theorem C46_shared_witness : backArr ⟨[⟨"x", .float, none⟩, ⟨"y", .float, none⟩], [[.one (.flt 1), .one (.flt 2)]]⟩ [("x", ["v"]), ("y", ["v"])] = none := by decide +kernel

end Verif.Arrays
