import Verif.Alloc.Funcs
/-! Helper lemmas: resource requests of a work order. -/
namespace Verif.Alloc
open Verif.History Verif.Res Verif.Sched

theorem le_maxNat : ∀ {l : List Nat} {x : Nat}, x ∈ l → x ≤ maxNat l := by
  intro l
  induction l with
  | nil => intro x h; cases h
  | cons a l ih =>
    intro x h
    unfold maxNat
    rcases List.mem_cons.mp h with e | h
    · subst e; omega
    · have := ih h; omega

theorem maxNat_le : ∀ {l : List Nat} {m : Nat}, (∀ x ∈ l, x ≤ m) → maxNat l ≤ m := by
  intro l
  induction l with
  | nil => intro m _; exact Nat.zero_le _
  | cons a l ih =>
    intro m h
    unfold maxNat
    have := ih (m := m) (fun x hx => h x (List.mem_cons_of_mem _ hx))
    have := h a List.mem_cons_self
    omega

/-- The number in column `f` of row `i` (0 if there is no such row). -/
def asks (H : List Row) (f : Field) (i : Nat) : Nat :=
  match H[i]? with
  | some r => match r f with | .s x => x.toNat | .v _ => 0
  | none => 0

theorem column_spec {H : List Row} {f : Field} : ∀ {rows l : List Nat}, column H f rows = some l →
    l = rows.map (asks H f) ∧ ∀ i ∈ rows, i < H.length := by
  intro rows
  induction rows with
  | nil => intro l h; simp [column] at h; subst h; exact ⟨rfl, by simp⟩
  | cons i is ih =>
    intro l h
    unfold column at h
    rw [List.mapM_cons] at h
    cases hi : H[i]? with
    | none => rw [hi] at h; simp at h
    | some r =>
      rw [hi] at h
      cases ht : column H f is with
      | none => unfold column at ht; rw [ht] at h; simp at h
      | some l' =>
        have := ih ht
        unfold column at ht
        rw [ht] at h
        simp at h
        subst h
        refine ⟨?_, ?_⟩
        · rw [List.map_cons, ← this.1]
          congr 1
          unfold asks Val.nat
          rw [hi]
          rfl
        · intro j hj
          rcases List.mem_cons.mp hj with e | hj
          · subst e; exact (List.getElem?_eq_some_iff.mp hi).1
          · exact this.2 j hj

theorem colMax_spec {H : List Row} {f : Field} {rows : List Nat} {u : Nat} (h : colMax H f rows = .ok u) :
    rows ≠ [] ∧ (∀ i ∈ rows, i < H.length) ∧ ∀ m, u ≤ m ↔ ∀ i ∈ rows, asks H f i ≤ m := by
  unfold colMax at h
  split at h
  · cases h
  · cases h
  · rename_i x xs hc
    injection h with h
    obtain ⟨h1, h2⟩ := column_spec hc
    refine ⟨?_, h2, ?_⟩
    · intro e; subst e; simp at h1
    · intro m
      rw [← h, h1]
      constructor
      · intro hm i hi
        exact Nat.le_trans (le_maxNat (List.mem_map.mpr ⟨i, hi, rfl⟩)) hm
      · intro hm
        apply maxNat_le
        intro y hy
        obtain ⟨i, hi, e⟩ := List.mem_map.mp hy
        subst e
        exact hm i hi

theorem ceil_least {u per n : Nat} (h : convertToRsets u per = .ok n) (m : Nat) : n ≤ m ↔ u ≤ m * per := by
  unfold convertToRsets at h
  by_cases hu : u > 0
  · rw [if_pos hu] at h
    by_cases hp : per = 0
    · rw [if_pos hp] at h; cases h
    · rw [if_neg hp] at h
      injection h with h
      subst h
      have hp' : 0 < per := Nat.pos_of_ne_zero hp
      have hdm := Nat.div_add_mod u per
      have hml := Nat.mod_lt u hp'
      constructor
      · intro hle
        have h1 : (u / per + (if u % per > 0 then 1 else 0)) * per ≤ m * per := Nat.mul_le_mul_right per hle
        refine Nat.le_trans ?_ h1
        rw [Nat.add_mul, Nat.mul_comm]
        split
        · omega
        · omega
      · intro hle
        have h2 : u / per ≤ m := by
          have := Nat.div_le_div_right (c := per) hle
          rwa [Nat.mul_div_cancel m hp'] at this
        split
        · rename_i hr
          rcases Nat.lt_or_ge (u / per) m with h3 | h3
          · omega
          · have he : u / per = m := by omega
            rw [he, Nat.mul_comm] at hdm
            omega
        · omega
  · rw [if_neg hu] at h
    injection h with h
    have : u = 0 := by omega
    subst this
    subst h
    simp

theorem convertRows_spec {H : List Row} {f : Field} {rows : List Nat} {per n u : Nat} (h : convertRows H f rows per = .ok (n, u)) :
    rows ≠ [] ∧ (∀ i ∈ rows, i < H.length) ∧ (∀ m, n ≤ m ↔ ∀ i ∈ rows, asks H f i ≤ m * per) ∧
    (∀ m, u ≤ m ↔ ∀ i ∈ rows, asks H f i ≤ m) := by
  unfold convertRows at h
  split at h
  · cases h
  · rename_i v hv
    split at h
    · cases h
    · rename_i n' hc
      injection h with h
      injection h with h1 h2
      subst h1; subst h2
      obtain ⟨a1, a2, a3⟩ := colMax_spec hv
      exact ⟨a1, a2, fun m => by rw [ceil_least hc, a3], a3⟩

/-- `m` sets are enough for row `i`: for the explicit number of sets or else for the processes, and for the GPUs. -/
def EnoughSim (c : Ctx) (i m : Nat) : Prop :=
  (if .resourceSets ∈ c.fields then asks c.H .resourceSets i ≤ m
   else if .numProcs ∈ c.fields then asks c.H .numProcs i ≤ m * c.ppr else 1 ≤ m) ∧
  (.numGpus ∈ c.fields → asks c.H .numGpus i ≤ m * c.gpr)

theorem reqFirst_spec {c : Ctx} {rows : List Nat} {n : Nat} {ps : List Nat} (h : reqFirst c rows = .ok (n, ps)) (hne : rows ≠ []) (m : Nat) :
    n ≤ m ↔ ∀ i ∈ rows, (if .resourceSets ∈ c.fields then asks c.H .resourceSets i ≤ m
      else if .numProcs ∈ c.fields then asks c.H .numProcs i ≤ m * c.ppr else 1 ≤ m) := by
  unfold reqFirst at h
  by_cases h1 : Field.resourceSets ∈ c.fields
  · rw [if_pos h1] at h
    simp only [if_pos h1]
    split at h
    · cases h
    · rename_i v hv
      injection h with h
      injection h with h2 h3
      subst h2
      exact (colMax_spec hv).2.2 m
  · rw [if_neg h1] at h
    simp only [if_neg h1]
    by_cases h2 : Field.numProcs ∈ c.fields
    · rw [if_pos h2] at h
      simp only [if_pos h2]
      split at h
      · cases h
      · split at h
        · cases h
        · rename_i n' u hc
          injection h with h
          injection h with h3 h4
          subst h3
          exact (convertRows_spec hc).2.2.1 m
    · rw [if_neg h2] at h
      simp only [if_neg h2]
      injection h with h
      injection h with h3 h4
      subst h3
      constructor
      · intro hm _ _; exact hm
      · intro hm
        cases rows with
        | nil => exact absurd rfl hne
        | cons i is => exact hm i List.mem_cons_self

theorem reqSim_spec {c : Ctx} {rows : List Nat} {n : Nat} {ug : Option Bool} {ps : List Nat}
    (h : reqSim c rows = .ok (n, ug, ps)) (hne : rows ≠ []) (m : Nat) : n ≤ m ↔ ∀ i ∈ rows, EnoughSim c i m := by
  unfold reqSim at h
  split at h
  · cases h
  · rename_i n1 ps1 hf
    have hfirst := reqFirst_spec hf hne m
    split at h
    · cases h
    · rename_i ug1 hug
      by_cases hg : Field.numGpus ∈ c.fields
      · rw [if_pos hg] at h
        split at h
        · cases h
        · split at h
          · cases h
          · rename_i g u hc
            injection h with h
            injection h with h3 h4
            subst h3
            have h5 := (convertRows_spec hc).2.2.1 m
            rw [Nat.max_le, hfirst, h5]
            unfold EnoughSim
            constructor
            · rintro ⟨a, b⟩ i hi; exact ⟨a i hi, fun _ => b i hi⟩
            · intro a; exact ⟨fun i hi => (a i hi).1, fun i hi => (a i hi).2 hg⟩
      · rw [if_neg hg] at h
        injection h with h
        injection h with h3 h4
        subst h3
        rw [hfirst]
        unfold EnoughSim
        constructor
        · intro a i hi; exact ⟨a i hi, fun h => absurd h hg⟩
        · intro a i hi; exact (a i hi).1

/-- The type of set wanted: GPU sets as soon as one GPU is requested. -/
theorem reqSim_gpu {c : Ctx} {rows : List Nat} {n : Nat} {ug : Option Bool} {ps : List Nat}
    (h : reqSim c rows = .ok (n, ug, ps)) (hg : .numGpus ∈ c.fields) {i : Nat} (hi : i ∈ rows) (hpos : 0 < asks c.H .numGpus i) :
    ug = some true := by
  unfold reqSim at h
  split at h
  · cases h
  · split at h
    · cases h
    · rw [if_pos hg] at h
      split at h
      · cases h
      · split at h
        · cases h
        · rename_i g u hc
          injection h with h
          injection h with h3 h4
          injection h4 with h4 h5
          rw [← h4]
          have h6 := (convertRows_spec hc).2.2.1 0
          rw [if_pos]
          rcases Nat.eq_zero_or_pos g with h0 | h0
          · have := h6.mp (by omega) i hi
            omega
          · exact h0

theorem reqGen_spec {c : Ctx} {p : PInfo} {n : Nat} {ug : Option Bool} {ps : List Nat} (h : reqGen c p = .ok (n, ug, ps)) :
    (p.genResources > 0 → n = p.genResources) ∧
    (p.genResources = 0 → ∀ m, n ≤ m ↔ p.genNumProcs.getD c.genDefProcs ≤ m * c.ppr ∧ p.genNumGpus.getD c.genDefGpus ≤ m * c.gpr) := by
  unfold reqGen at h
  by_cases hr : p.genResources > 0
  · rw [if_pos hr] at h
    injection h with h
    injection h with h1 h2
    exact ⟨fun _ => h1.symm, fun h0 => by omega⟩
  · rw [if_neg hr] at h
    refine ⟨fun h0 => absurd h0 hr, fun _ m => ?_⟩
    generalize hnp : p.genNumProcs.getD c.genDefProcs = np at h ⊢
    generalize hng : p.genNumGpus.getD c.genDefGpus = ng at h ⊢
    simp only at h
    split at h
    · cases h
    · rename_i n1 ps1 hfirst
      have hf : n1 ≤ m ↔ np ≤ m * c.ppr := by
        by_cases hp : np > 0
        · rw [if_pos hp] at hfirst
          split at hfirst
          · cases hfirst
          · split at hfirst
            · cases hfirst
            · rename_i hc
              injection hfirst with hfirst
              injection hfirst with h1 h2
              subst h1
              exact ceil_least hc m
        · rw [if_neg hp] at hfirst
          injection hfirst with hfirst
          injection hfirst with h1 h2
          subst h1
          have : np = 0 := by omega
          subst this
          simp
      by_cases hg : ng > 0
      · rw [if_pos hg] at h
        split at h
        · cases h
        · split at h
          · cases h
          · rename_i g hc
            injection h with h
            injection h with h1 h2
            subst h1
            rw [Nat.max_le, hf, ceil_least hc m]
      · rw [if_neg hg] at h
        injection h with h
        injection h with h1 h2
        subst h1
        have : ng = 0 := by omega
        subst this
        rw [hf]
        simp

/-- Under managed resources, the team of an order to a worker that is not persistent has at least as many sets as requested
and only GPU sets if GPUs are wanted. -/
theorem updateTeam_size {c : Ctx} {rm : RM} (hrm : c.rm = some rm) (hw : LWF rm) (hord : ∀ l, (c.ord l).Perm l)
    {sf ms : Bool} {P : List Nat} {s s' : Sched} (hs : SInv rm sf ms P s) {p : PInfo} {w : Nat} {rows : Option (List Nat)} {t : Option (List Nat)}
    (hm : c.manage = true) {k : Nat} {q : Wrk} (hk : wPos c.gom c.W.length w = some k) (hq : c.W[k]? = some q) (hp : q.persis = 0)
    (h : updateTeam c p s w rows none = (s', .ok t)) :
    ∃ n ug ps team, (match rows with | some rs => reqSim c rs | none => reqGen c p) = .ok (n, ug, ps) ∧ t = some team ∧ n ≤ team.length ∧
      (∀ b, ug = some b → ∀ i ∈ team, ∃ x, rm.rsets[i]? = some x ∧ x.gpu = b) := by
  unfold updateTeam at h
  rw [if_pos ⟨hm, Or.inl rfl⟩, hk] at h
  simp only [hq, Option.map_some, Option.getD_some, hp, ne_eq, not_true_eq_false, if_false] at h
  split at h
  · injection h with _ h; cases h
  · rename_i n ug ps hreq
    refine ⟨n, ug, ps, ?_⟩
    have fin : ∀ {s : Sched}, SInv rm sf ms P s → ∀ (ty : Option Bool), (∀ b, ug = some b → ty = some b) → ∀ {s' team},
        Sched.assign rm c.ord s n ty ps = (s', .ok team) →
        n ≤ team.length ∧ (∀ b, ug = some b → ∀ i ∈ team, ∃ x, rm.rsets[i]? = some x ∧ x.gpu = b) := by
      intro s hs ty hty s' team he
      obtain ⟨_, h2⟩ := assign_spec hw hord hs n ty ps
      rw [he] at h2
      rcases h2 with ⟨team', e, ht⟩ | e | e
      · injection e with e
        subst e
        refine ⟨ht.enough, ?_⟩
        intro b hb i hi
        obtain ⟨x, hx⟩ := get_of_lt (team_mem ht hi).1
        refine ⟨x, hx, ?_⟩
        have := (team_mem ht hi).2.2.2
        rw [typeOk_get hx, hty b hb] at this
        cases b <;> simp [rsOk] at this <;> exact this
      · cases e
      · cases e
    unfold assignResources at h
    rw [hrm] at h
    simp only at h
    have second : ∀ {s : Sched}, SInv rm sf ms P s → (match Sched.assign rm c.ord s n ug ps with
      | (s', .ok team) => (s', Except.ok (some team))
      | (s', .error e) => (s', .error (AErr.ofS e))) = (s', .ok t) → ∃ team, t = some team ∧ n ≤ team.length ∧
      (∀ b, ug = some b → ∀ i ∈ team, ∃ x, rm.rsets[i]? = some x ∧ x.gpu = b) := by
      intro s hs h
      split at h
      · rename_i s1 team he
        injection h with h1 h2
        injection h2 with h2
        obtain ⟨f1, f2⟩ := fin hs ug (fun b h => h) he
        exact ⟨team, h2.symm, f1, f2⟩
      · injection h with _ h2; cases h2
    split at h
    · rename_i hug
      split at h
      · rename_i s1 team he
        injection h with h1 h2
        injection h2 with h2
        obtain ⟨f1, f2⟩ := fin hs (some false) (fun b h => by rw [hug] at h; cases h) he
        exact ⟨team, hreq, h2.symm, f1, f2⟩
      · rename_i s1 he
        have hs1 : SInv rm sf ms P s1 := by
          have := (assign_spec hw hord hs n (some false) ps).1
          rw [he] at this
          simpa [granted] using this
        obtain ⟨team, a, b⟩ := second hs1 h
        exact ⟨team, hreq, a, b⟩
      · rename_i s1 he
        have hs1 : SInv rm sf ms P s1 := by
          have := (assign_spec hw hord hs n (some false) ps).1
          rw [he] at this
          simpa [granted] using this
        obtain ⟨team, a, b⟩ := second hs1 h
        exact ⟨team, hreq, a, b⟩
      · injection h with _ h2; cases h2
    · obtain ⟨team, a, b⟩ := second hs h
      exact ⟨team, hreq, a, b⟩

end Verif.Alloc
