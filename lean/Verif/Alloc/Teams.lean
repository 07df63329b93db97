import Verif.Alloc.Lemmas
/-! Helper lemmas: the teams handed out by an allocation function. -/
namespace Verif.Alloc
open Verif.History Verif.Res Verif.Sched

/-- Team of a work order. -/
def tm (wk : Work) : List Nat := wk.team.getD []

def grantA : Except AErr (Option (List Nat)) → List Nat
  | .ok (some t) => t
  | _ => []

/-- New sets: existing, free, not promised before, each once. -/
structure NewSets (rm : RM) (P T : List Nat) : Prop where
  nodup : T.Nodup
  ex : ∀ i ∈ T, i < rm.rsets.length
  free : ∀ i ∈ T, rm.assigned[i]? = some none
  new : ∀ i ∈ T, i ∉ P

theorem NewSets.nil (rm : RM) (P : List Nat) : NewSets rm P [] := ⟨List.nodup_nil, by simp, by simp, by simp⟩

theorem assign_new {rm : RM} (hw : LWF rm) {ord : List Nat → List Nat} (hord : ∀ l, (ord l).Perm l)
    {sf ms : Bool} {P : List Nat} {s : Sched} (hs : SInv rm sf ms P s) (req : Nat) (t : Option Bool) (params : List Nat) :
    SInv rm sf ms (P ++ granted (Sched.assign rm ord s req t params).2) (Sched.assign rm ord s req t params).1 ∧
    NewSets rm P (granted (Sched.assign rm ord s req t params).2) := by
  obtain ⟨h1, h2⟩ := assign_spec hw hord hs req t params
  refine ⟨h1, ?_⟩
  rcases h2 with ⟨team, e, ht⟩ | e | e
  · rw [e]
    exact ⟨ht.sorted.imp (fun h => Nat.ne_of_lt h), fun i hi => (team_mem ht hi).1, fun i hi => (team_mem ht hi).2.1,
      fun i hi => (team_mem ht hi).2.2.1⟩
  · rw [e]; exact NewSets.nil rm P
  · rw [e]; exact NewSets.nil rm P

theorem assignResources_new {c : Ctx} {rm : RM} (hrm : c.rm = some rm) (hw : LWF rm) (hord : ∀ l, (c.ord l).Perm l)
    {sf ms : Bool} {P : List Nat} {s : Sched} (hs : SInv rm sf ms P s) (req : Nat) (t : Option Bool) (params : List Nat) :
    SInv rm sf ms (P ++ grantA (assignResources c s req t params).2) (assignResources c s req t params).1 ∧
    NewSets rm P (grantA (assignResources c s req t params).2) := by
  have second : ∀ s, SInv rm sf ms P s → ∀ r, r = (match Sched.assign rm c.ord s req t params with
      | (s', .ok team) => (s', Except.ok (some team))
      | (s', .error e) => (s', .error (AErr.ofS e))) → SInv rm sf ms (P ++ grantA r.2) r.1 ∧ NewSets rm P (grantA r.2) := by
    intro s hs r hr
    have h := assign_new hw hord hs req t params
    generalize Sched.assign rm c.ord s req t params = a at *
    obtain ⟨s', x⟩ := a
    cases x with
    | ok team => subst hr; exact h
    | error e => subst hr; exact h
  unfold assignResources
  rw [hrm]
  simp only
  by_cases ht : t = none
  · rw [if_pos ht]
    have h := assign_new hw hord hs req (some false) params
    generalize Sched.assign rm c.ord s req (some false) params = a at *
    obtain ⟨s', x⟩ := a
    cases x with
    | ok team => exact h
    | error e =>
      have hs' : SInv rm sf ms P s' := by simpa [granted] using h.1
      cases e with
      | insufficientFree => exact second s' hs' _ rfl
      | insufficientResources => exact second s' hs' _ rfl
      | indexError => exact h
      | zeroDivision => exact h
      | noGroups => exact h
  · rw [if_neg ht]; exact second s hs _ rfl

theorem updateTeam_new {c : Ctx} {rm : RM} (hrm : c.rm = some rm) (hw : LWF rm) (hord : ∀ l, (c.ord l).Perm l)
    {sf ms : Bool} {P : List Nat} {s : Sched} (hs : SInv rm sf ms P s) (p : PInfo) (w : Nat) (rows : Option (List Nat)) :
    SInv rm sf ms (P ++ grantA (updateTeam c p s w rows none).2) (updateTeam c p s w rows none).1 ∧
    NewSets rm P (grantA (updateTeam c p s w rows none).2) := by
  have triv : SInv rm sf ms (P ++ []) s ∧ NewSets rm P [] := ⟨by simpa using hs, NewSets.nil rm P⟩
  unfold updateTeam
  split
  · split
    · exact triv
    · split
      · exact triv
      · split
        · exact triv
        · exact assignResources_new hrm hw hord hs _ _ _
  · exact triv

/-- All teams of a sequence of work orders consist of free sets, all different. -/
theorem steps_new {c : Ctx} {rm : RM} (hrm : c.rm = some rm) (hw : LWF rm) (hord : ∀ l, (c.ord l).Perm l)
    {sf ms : Bool} {s s' : Sched} {es : WorkD} (h : Steps c s es s') :
    ∀ {P : List Nat}, SInv rm sf ms P s →
      SInv rm sf ms (P ++ es.flatMap (fun e => tm e.2)) s' ∧ NewSets rm P (es.flatMap (fun e => tm e.2)) := by
  induction h with
  | nil => intro P hs; exact ⟨by simpa using hs, NewSets.nil rm P⟩
  | fail p w rows e he _ ih =>
    intro P hs
    have := (updateTeam_new hrm hw hord hs p w rows).1
    rw [he] at this
    exact ih (by simpa [grantA] using this)
  | cons p w rows wk he _ ih =>
    intro P hs
    have h1 := updateTeam_new hrm hw hord hs p w rows
    rw [he] at h1
    have e : grantA (.ok wk.team) = tm wk := by unfold grantA tm; cases wk.team <;> rfl
    simp only [e] at h1
    have h2 := ih h1.1
    rw [List.flatMap_cons]
    refine ⟨by rw [← List.append_assoc]; exact h2.1, ?_⟩
    constructor
    · rw [List.nodup_append]
      refine ⟨h1.2.nodup, h2.2.nodup, ?_⟩
      intro a ha b hb hab
      subst hab
      exact h2.2.new a hb (List.mem_append_right _ ha)
    · intro i hi; rcases List.mem_append.mp hi with hi | hi
      · exact h1.2.ex i hi
      · exact h2.2.ex i hi
    · intro i hi; rcases List.mem_append.mp hi with hi | hi
      · exact h1.2.free i hi
      · exact h2.2.free i hi
    · intro i hi; rcases List.mem_append.mp hi with hi | hi
      · exact h1.2.new i hi
      · exact fun hp => h2.2.new i hi (List.mem_append_left _ hp)
  | free w wk hm ht _ ih =>
    intro P hs
    have e : tm wk = [] := by unfold tm; rw [ht]; rfl
    rw [List.flatMap_cons, e, List.nil_append]
    exact ih hs

end Verif.Alloc
