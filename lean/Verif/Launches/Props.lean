import Verif.Launches.Model
import Verif.Labels.Props

/-!
# C85 — what a task is launched with
-/

namespace Verif.Launches
open Verif.Labels (Str str str_digits str_inj)

/-! ### Specification -/

/-- Worker `w` was constructed. -/
def started (w : Nat) (ss : List Step) : Bool := ss.any fun x => match x with
  | .start v => v == w
  | _ => false

/-- Worker `w` was constructed and has not ended since. -/
def alive (w : Nat) (ss : List Step) : Bool := ss.foldl (fun b x => match x with
  | .start v => if v = w then true else b
  | .stop v => if v = w then false else b
  | _ => b) false

/-- The numbers in the last order of worker `w` that had any. -/
def numbers (w : Nat) (ss : List Step) : Option Nat × Option Nat := ss.foldl (fun b x => match x with
  | .order v np ng => if v = w ∧ ¬ (np = none ∧ ng = none) then (np, ng) else b
  | _ => b) (none, none)

/-- Every worker has its own process. -/
def Apart (home : Nat → Nat) : Prop := ∀ v w, home v = home w → v = w

/-! ### Names of tasks -/

theorem split_digits {x y : Str} {c d : Char} (hc : c.isDigit = false) (hd : d.isDigit = false) : ∀ {a b : Str}, (∀ e ∈ a, e.isDigit = true) →
    (∀ e ∈ b, e.isDigit = true) → a ++ c :: x = b ++ d :: y → a = b ∧ c = d ∧ x = y := by
  intro a
  induction a with
  | nil =>
    intro b _ hb he
    cases b with
    | nil => injection he with h1 h2; exact ⟨rfl, h1, h2⟩
    | cons e b =>
      injection he with h1 _
      have := hb e (by simp)
      rw [← h1, hc] at this; cases this
  | cons e a ih =>
    intro b ha hb he
    cases b with
    | nil =>
      injection he with h1 _
      have := ha e (by simp)
      rw [h1, hd] at this; cases this
    | cons f b =>
      injection he with h1 h2
      obtain ⟨i1, i2⟩ := ih (fun e h => ha e (by simp [h])) (fun e h => hb e (by simp [h])) h2
      exact ⟨by rw [h1, i1], i2⟩

/-- What stands before a number at the end of a text, and the number, are determined. -/
theorem split_end {x y : Str} {c d : Char} (hc : c.isDigit = false) (hd : d.isDigit = false) {m n : Nat} (h : x ++ c :: str m = y ++ d :: str n) :
    m = n ∧ c = d ∧ x = y := by
  have h' := congrArg List.reverse h
  rw [List.reverse_append, List.reverse_append, List.reverse_cons, List.reverse_cons, List.append_assoc, List.append_assoc] at h'
  obtain ⟨h1, h2, h3⟩ := split_digits hc hd (fun e he => str_digits (List.mem_reverse.1 he)) (fun e he => str_digits (List.mem_reverse.1 he)) h'
  exact ⟨str_inj (List.reverse_inj.1 h1), h2, List.reverse_inj.1 h3⟩

theorem name_id {s t : Task} (h : s.name = t.name) : s.id = t.id := by
  unfold Task.name at h
  exact (split_end (by decide) (by decide) h).1

theorem name_wid {s t : Task} {v w : Nat} (hs : s.wid = some (v + 1)) (ht : t.wid = some (w + 1)) (h : s.name = t.name) : v = w := by
  unfold Task.name at h
  rw [hs, ht] at h
  have h2 := (split_end (by decide) (by decide) h).2.2
  have e : ∀ (a : Str) (n : Nat), "libe_task".toList ++ '_' :: a ++ ("_worker".toList ++ str (n + 1)) =
      ("libe_task".toList ++ '_' :: a ++ "_worke".toList) ++ 'r' :: str (n + 1) := by
    intro a n
    have : "_worker".toList = "_worke".toList ++ ['r'] := by decide
    rw [this]
    simp only [List.append_assoc, List.cons_append, List.nil_append]
  dsimp only at h2
  rw [e, e] at h2
  have := (split_end (by decide) (by decide) h2).1
  omega

/-! ### Identity of tasks -/

def key (home : Nat → Nat) (t : Task) : Nat × Nat := (home t.owner, t.id)

structure Ids (home : Nat → Nat) (s : World) : Prop where
  outId : ∀ l ∈ s.out, l.task.id < (s.proc (home l.task.owner)).next
  pend : ∀ w t r, s.pend w = some (t, r) → t.owner = w ∧ t.id < (s.proc (home w)).next
  out : s.out.Pairwise fun a b => key home a.task ≠ key home b.task
  cross : ∀ l ∈ s.out, ∀ w t r, s.pend w = some (t, r) → key home l.task ≠ key home t
  two : ∀ v w t u r q, v ≠ w → s.pend v = some (t, r) → s.pend w = some (u, q) → key home t ≠ key home u
  wid : ∀ i v, (s.proc i).wid = some v → home v = i
  outWid : ∀ l ∈ s.out, ∀ v, l.task.wid = some v → home v = home l.task.owner
  pendWid : ∀ w t r v, s.pend w = some (t, r) → t.wid = some v → home v = home w

/-- Steps that change neither tasks nor the counter nor the number of the worker. -/
theorem ids_proc {home : Nat → Nat} {s : World} (h : Ids home s) (i : Nat) (p : Proc) (hn : p.next = (s.proc i).next) (hw : ∀ v, p.wid = some v → home v = i) :
    Ids home (setProc s i p) := by
  have e : ∀ j, ((setProc s i p).proc j).next = (s.proc j).next := by
    intro j
    show (if j = i then p else s.proc j).next = _
    split
    · next hj => rw [hj, hn]
    · rfl
  refine ⟨fun l hl => ?_, fun w t r ht => ?_, h.out, h.cross, h.two, fun j v hv => ?_, h.outWid, h.pendWid⟩
  · rw [e]; exact h.outId l hl
  · rw [e]; exact h.pend w t r ht
  · change (if j = i then p else s.proc j).wid = some v at hv
    split at hv
    · next hj => rw [hj]; exact hw v hv
    · exact h.wid j v hv

theorem ids_pend {home : Nat → Nat} {s : World} (h : Ids home s) (w : Nat) (x : Option (Task × List (Str × Str)))
    (hx : ∀ t r, x = some (t, r) → ∃ q, s.pend w = some (t, q)) : Ids home (setPend s w x) := by
  have e : ∀ v t r, (setPend s w x).pend v = some (t, r) → ∃ q, s.pend v = some (t, q) := by
    intro v t r hv
    change (if v = w then x else s.pend v) = some (t, r) at hv
    split at hv
    · next hj => rw [hj]; exact hx t r hv
    · exact ⟨r, hv⟩
  refine ⟨h.outId, fun v t r hv => ?_, h.out, fun l hl v t r hv => ?_, fun v u t t' r r' hne hv hu => ?_, h.wid, h.outWid, fun v t r n hv hn => ?_⟩
  · obtain ⟨q, hq⟩ := e v t r hv; exact h.pend v t q hq
  · obtain ⟨q, hq⟩ := e v t r hv; exact h.cross l hl v t q hq
  · obtain ⟨q, hq⟩ := e v t r hv
    obtain ⟨q', hq'⟩ := e u t' r' hu
    exact h.two v u t t' q q' hne hq hq'
  · obtain ⟨q, hq⟩ := e v t r hv; exact h.pendWid v t q n hq hn

theorem ids_step {home : Nat → Nat} {s : World} (h : Ids home s) (x : Step) : Ids home (step home s x) := by
  cases x with
  | start w => exact ids_proc h _ _ rfl (fun v hv => by injection hv with hv; rw [hv])
  | order w np ng =>
    simp only [step]
    split
    · exact h
    · exact ids_proc h _ _ rfl (h.wid _)
  | set w =>
    simp only [step]
    cases hp : s.pend w with
    | none => exact h
    | some y =>
      obtain ⟨t, r⟩ := y
      cases r with
      | nil => exact h
      | cons kv r =>
        obtain ⟨k, v⟩ := kv
        refine ids_pend (ids_proc h (home w) { s.proc (home w) with environ := fun x => if x = k then some v else (s.proc (home w)).environ x } rfl (h.wid _)) w
          (some (t, r)) ?_
        intro t' r' he
        injection he with he
        injection he with h1 h2
        subst h1
        exact ⟨_, hp⟩
  | poll w => exact ⟨h.outId, h.pend, h.out, h.cross, h.two, h.wid, h.outWid, h.pendWid⟩
  | drop w => exact ids_pend h w none (fun t r he => by cases he)
  | stop w => exact ids_proc h _ _ rfl (h.wid _)
  | launch w =>
    simp only [step]
    cases hp : s.pend w with
    | none => exact h
    | some y =>
      obtain ⟨t, r⟩ := y
      cases r with
      | cons kv r => exact h
      | nil =>
        obtain ⟨ho, hid⟩ := h.pend w t [] hp
        have e : ∀ v u q, (if v = w then none else s.pend v) = some (u, q) → v ≠ w ∧ s.pend v = some (u, q) := by
          intro v u q hv
          split at hv
          · cases hv
          · next hne => exact ⟨hne, hv⟩
        refine ⟨fun l hl => ?_, fun v u q hv => ?_, ?_, fun l hl v u q hv => ?_, fun v u t1 t2 r1 r2 hne hv hu => ?_, h.wid, fun l hl v hv => ?_, fun v u q n hv hn => ?_⟩
        · rcases List.mem_append.1 hl with hl | hl
          · exact h.outId l hl
          · rw [List.mem_singleton.1 hl]
            show t.id < (s.proc (home t.owner)).next
            rw [ho]; exact hid
        · exact h.pend v u q (e v u q hv).2
        · refine List.pairwise_append.2 ⟨h.out, List.pairwise_singleton _ _, fun a ha b hb => ?_⟩
          rw [List.mem_singleton.1 hb]
          exact h.cross a ha w t [] hp
        · obtain ⟨hne, hv⟩ := e v u q hv
          rcases List.mem_append.1 hl with hl | hl
          · exact h.cross l hl v u q hv
          · rw [List.mem_singleton.1 hl]
            exact h.two w v t u [] q (Ne.symm hne) hp hv
        · exact h.two v u t1 t2 r1 r2 hne (e v t1 r1 hv).2 (e u t2 r2 hu).2
        · rcases List.mem_append.1 hl with hl | hl
          · exact h.outWid l hl v hv
          · rw [List.mem_singleton.1 hl] at hv ⊢
            show home v = home t.owner
            rw [ho]
            exact h.pendWid w t [] v hp hv
        · exact h.pendWid v u q n (e v u q hv).2 hn
  | create w a np ng env =>
    simp only [step]
    split
    · next hg =>
      have nx : ∀ j, (s.proc j).next ≤ (if j = home w then { s.proc (home w) with next := (s.proc (home w)).next + 1 } else s.proc j).next := by
        intro j
        split
        · next hj => rw [hj]; exact Nat.le_succ _
        · exact Nat.le_refl _
      have e : ∀ (T : Task × List (Str × Str)) v u q, (if v = w then some T else s.pend v) = some (u, q) → (v = w ∧ T = (u, q)) ∨ (v ≠ w ∧ s.pend v = some (u, q)) := by
        intro T v u q hv
        split at hv
        · next hv' => injection hv with hv; exact Or.inl ⟨hv', hv⟩
        · next hne => exact Or.inr ⟨hne, hv⟩
      have fresh : ∀ t : Task, t.id < (s.proc (home t.owner)).next → key home t ≠ (home w, (s.proc (home w)).next) := by
        intro t ht he
        injection he with h1 h2
        rw [h1, h2] at ht
        exact Nat.lt_irrefl _ ht
      refine ⟨fun l hl => Nat.lt_of_lt_of_le (h.outId l hl) (nx _), fun v u q hv => ?_, h.out, fun l hl v u q hv => ?_, fun v u t1 t2 r1 r2 hne hv hu => ?_,
        fun j v hv => ?_, h.outWid, fun v u q n hv hn => ?_⟩
      · rcases e _ v u q hv with ⟨rfl, he⟩ | ⟨_, hv⟩
        · injection he with he _
          subst he
          refine ⟨rfl, ?_⟩
          show (s.proc (home v)).next < (if home v = home v then _ else _ : Proc).next
          rw [if_pos rfl]
          exact Nat.lt_succ_self _
        · exact ⟨(h.pend v u q hv).1, Nat.lt_of_lt_of_le (h.pend v u q hv).2 (nx _)⟩
      · rcases e _ v u q hv with ⟨rfl, he⟩ | ⟨_, hv⟩
        · injection he with he _
          subst he
          exact fresh l.task (h.outId l hl)
        · exact h.cross l hl v u q hv
      · rcases e _ v t1 r1 hv with ⟨rfl, he⟩ | ⟨hv1, hv⟩
        · injection he with he _
          subst he
          rcases e _ u t2 r2 hu with ⟨rfl, _⟩ | ⟨_, hu⟩
          · exact absurd rfl hne
          · have := h.pend u t2 r2 hu
            exact Ne.symm (fresh t2 (by rw [this.1]; exact this.2))
        · have h1 := h.pend v t1 r1 hv
          rcases e _ u t2 r2 hu with ⟨rfl, he⟩ | ⟨_, hu⟩
          · injection he with he _
            subst he
            exact fresh t1 (by rw [h1.1]; exact h1.2)
          · exact h.two v u t1 t2 r1 r2 hne hv hu
      · change (if j = home w then { s.proc (home w) with next := (s.proc (home w)).next + 1 } else s.proc j).wid = some v at hv
        split at hv
        · next hj => rw [hj]; exact h.wid _ v hv
        · exact h.wid j v hv
      · rcases e _ v u q hv with ⟨rfl, he⟩ | ⟨_, hv⟩
        · injection he with he _
          subst he
          exact h.wid _ n hn
        · exact h.pendWid v u q n hv hn
    · exact h

theorem run_snoc (home : Nat → Nat) (env0 : Str → Option Str) (n0 : Nat) (ss : List Step) (x : Step) :
    run home env0 n0 (ss ++ [x]) = step home (run home env0 n0 ss) x := by simp [run, List.foldl_append]

/-- Induction over runs. -/
theorem run_ind {home : Nat → Nat} {env0 : Str → Option Str} {n0 : Nat} {P : List Step → World → Prop} (h0 : P [] (run home env0 n0 []))
    (hs : ∀ ss x, P ss (run home env0 n0 ss) → P (ss ++ [x]) (step home (run home env0 n0 ss) x)) (ss : List Step) : P ss (run home env0 n0 ss) := by
  have : ∀ rev : List Step, P rev.reverse (run home env0 n0 rev.reverse) := by
    intro rev
    induction rev with
    | nil => exact h0
    | cons x rev ih => rw [List.reverse_cons, run_snoc]; exact hs _ x ih
  have := this ss.reverse
  rwa [List.reverse_reverse] at this

theorem ids_run (home : Nat → Nat) (env0 : Str → Option Str) (n0 : Nat) (ss : List Step) : Ids home (run home env0 n0 ss) :=
  run_ind (P := fun _ s => Ids home s)
    ⟨fun l hl => (by cases hl), fun w t r hp => (by cases hp), List.Pairwise.nil, fun l hl => (by cases hl), fun v w t u r q _ hv => (by cases hv),
      fun i v hv => (by cases hv), fun l hl => (by cases hl), fun w t r v hp => (by cases hp)⟩
    (fun _ x h => ids_step h x) ss

/-- **C85**: the names of any two launched tasks differ, if they are of the same process or of workers with numbers from 1 on.  So do the names of their output files. -/
theorem C85_names (home : Nat → Nat) (env0 : Str → Option Str) (n0 : Nat) (ss : List Step) :
    (run home env0 n0 ss).out.Pairwise fun a b =>
      (home a.task.owner = home b.task.owner ∨ ((∃ v, a.task.wid = some (v + 1)) ∧ ∃ w, b.task.wid = some (w + 1))) → a.task.name ≠ b.task.name := by
  have h := ids_run home env0 n0 ss
  have : ∀ a ∈ (run home env0 n0 ss).out, ∀ b ∈ (run home env0 n0 ss).out, key home a.task ≠ key home b.task →
      (home a.task.owner = home b.task.owner ∨ ((∃ v, a.task.wid = some (v + 1)) ∧ ∃ w, b.task.wid = some (w + 1))) → a.task.name ≠ b.task.name := by
    intro a ha b hb hk hor hn
    have hid := name_id hn
    rcases hor with he | ⟨⟨v, hv⟩, w, hw⟩
    · exact hk (by unfold key; rw [he, hid])
    · have := name_wid hv hw hn
      subst this
      have h1 := h.outWid a ha _ hv
      have h2 := h.outWid b hb _ hw
      exact hk (by unfold key; rw [← h1, ← h2, hid])
  exact List.Pairwise.imp_of_mem (fun {a b} ha hb hk => this a ha b hb hk) h.out

/-- A task of a generator on the manager (worker 0) may have the name of a task of a worker. -/
theorem C85_names_witness :
    let s := run id (fun _ => none) 0 [.start 0, .start 1, .create 0 ⟨"a_worker1".toList, []⟩ none none [], .create 1 ⟨"a".toList, []⟩ none none [], .launch 0, .launch 1]
    s.out.map (·.task.name) = ["libe_task_a_worker1_0".toList, "libe_task_a_worker1_0".toList] := by decide +kernel

/-! ### Variables -/

theorem mem_unique {l : List (Str × Str)} (h : (l.map (·.1)).Nodup) {k v v' : Str} (h1 : (k, v) ∈ l) (h2 : (k, v') ∈ l) : v = v' := by
  induction l with
  | nil => cases h1
  | cons x l ih =>
    rw [List.map_cons, List.nodup_cons] at h
    rcases List.mem_cons.1 h1 with e1 | m1
    · rcases List.mem_cons.1 h2 with e2 | m2
      · rw [← e1] at e2; injection e2 with _ e2; exact e2.symm
      · subst e1; exact absurd (List.mem_map_of_mem (f := (·.1)) m2) h.1
    · rcases List.mem_cons.1 h2 with e2 | m2
      · subst e2; exact absurd (List.mem_map_of_mem (f := (·.1)) m1) h.1
      · exact ih h.2 m1 m2

structure Env (home : Nat → Nat) (s : World) : Prop where
  nodup : ∀ w t r, s.pend w = some (t, r) → (t.env.map (·.1)).Nodup ∧ (∀ x ∈ r, x ∈ t.env)
  pend : ∀ w t r, s.pend w = some (t, r) → ∀ k v, (k, v) ∈ t.env → (k, v) ∈ r ∨ (s.proc (home w)).environ k = some v
  out : ∀ l ∈ s.out, ∀ k v, (k, v) ∈ l.task.env → l.environ k = some v

theorem env_proc {home : Nat → Nat} {s : World} (h : Env home s) (i : Nat) (p : Proc) (he : p.environ = (s.proc i).environ) : Env home (setProc s i p) := by
  refine ⟨h.nodup, fun w t r ht k v hm => ?_, h.out⟩
  rcases h.pend w t r ht k v hm with h1 | h1
  · exact Or.inl h1
  · right
    show (if home w = i then p else s.proc (home w)).environ k = some v
    split
    · next hj => rw [he, ← hj]; exact h1
    · exact h1

theorem env_step {home : Nat → Nat} (ha : Apart home) {s : World} (h : Env home s) (x : Step) : Env home (step home s x) := by
  cases x with
  | start w => exact env_proc h _ _ rfl
  | order w np ng =>
    simp only [step]
    split
    · exact h
    · exact env_proc h _ _ rfl
  | poll w => exact ⟨h.nodup, h.pend, h.out⟩
  | stop w => exact env_proc h _ _ rfl
  | drop w =>
    have e : ∀ v u q, (if v = w then none else s.pend v) = some (u, q) → s.pend v = some (u, q) := by
      intro v u q hv
      split at hv
      · cases hv
      · exact hv
    exact ⟨fun v u q hv => h.nodup v u q (e v u q hv), fun v u q hv => h.pend v u q (e v u q hv), h.out⟩
  | create w a np ng env =>
    simp only [step]
    split
    · next hg =>
      have h' := env_proc h (home w) { s.proc (home w) with next := (s.proc (home w)).next + 1 } rfl
      have e : ∀ (T : Task × List (Str × Str)) v u q, (if v = w then some T else s.pend v) = some (u, q) → T = (u, q) ∨ s.pend v = some (u, q) := by
        intro T v u q hv
        split at hv
        · injection hv with hv; exact Or.inl hv
        · exact Or.inr hv
      refine ⟨fun v u q hv => ?_, fun v u q hv => ?_, h.out⟩
      · rcases e _ v u q hv with he | hv
        · injection he with h1 h2
          subst h1; subst h2
          exact ⟨hg.2, fun x hx => hx⟩
        · exact h.nodup v u q hv
      · rcases e _ v u q hv with he | hv
        · injection he with h1 h2
          subst h1; subst h2
          exact fun k v hm => Or.inl hm
        · exact h'.pend v u q hv
    · exact h
  | launch w =>
    simp only [step]
    cases hp : s.pend w with
    | none => exact h
    | some y =>
      obtain ⟨t, r⟩ := y
      cases r with
      | cons kv r => exact h
      | nil =>
        have e : ∀ v u q, (if v = w then none else s.pend v) = some (u, q) → s.pend v = some (u, q) := by
          intro v u q hv
          split at hv
          · cases hv
          · exact hv
        refine ⟨fun v u q hv => h.nodup v u q (e v u q hv), fun v u q hv => h.pend v u q (e v u q hv), fun l hl k v hm => ?_⟩
        rcases List.mem_append.1 hl with hl | hl
        · exact h.out l hl k v hm
        · rw [List.mem_singleton.1 hl] at hm ⊢
          rcases h.pend w t [] hp k v hm with h1 | h1
          · cases h1
          · exact h1
  | set w =>
    simp only [step]
    cases hp : s.pend w with
    | none => exact h
    | some y =>
      obtain ⟨t, r⟩ := y
      cases r with
      | nil => exact h
      | cons kv r =>
        obtain ⟨k0, v0⟩ := kv
        obtain ⟨hn, hsub⟩ := h.nodup w t _ hp
        have e : ∀ v u q, (if v = w then some (t, r) else s.pend v) = some (u, q) → (v = w ∧ u = t ∧ q = r) ∨ (v ≠ w ∧ s.pend v = some (u, q)) := by
          intro v u q hv
          split at hv
          · next hv' => injection hv with hv; injection hv with h1 h2; exact Or.inl ⟨hv', h1.symm, h2.symm⟩
          · next hne => exact Or.inr ⟨hne, hv⟩
        refine ⟨fun v u q hv => ?_, fun v u q hv k x hm => ?_, h.out⟩
        · rcases e v u q hv with ⟨rfl, rfl, rfl⟩ | ⟨_, hv⟩
          · exact ⟨hn, fun x hx => hsub x (by simp [hx])⟩
          · exact h.nodup v u q hv
        · rcases e v u q hv with ⟨rfl, rfl, rfl⟩ | ⟨hne, hv⟩
          · rcases h.pend v u _ hp k x hm with h1 | h1
            · rcases List.mem_cons.1 h1 with h1 | h1
              · right
                injection h1 with h1 h2
                show (if home v = home v then _ else _ : Proc).environ k = some x
                rw [if_pos rfl, h1, h2]
                show (if k0 = k0 then _ else _) = _
                rw [if_pos rfl]
              · exact Or.inl h1
            · right
              show (if home v = home v then _ else _ : Proc).environ k = some x
              rw [if_pos rfl]
              show (if k = k0 then some v0 else (s.proc (home v)).environ k) = some x
              split
              · next hk => subst hk; rw [mem_unique hn hm (hsub (k, v0) (by simp))]
              · exact h1
          · rcases h.pend v u q hv k x hm with h1 | h1
            · exact Or.inl h1
            · right
              show (if home v = home w then _ else s.proc (home v) : Proc).environ k = some x
              rw [if_neg fun he => hne (ha v w he)]
              exact h1

/-- **C85**: if every worker has its own process, the process of a launched task has every variable that was decided for the task, with its value. -/
theorem C85_env (home : Nat → Nat) (ha : Apart home) (env0 : Str → Option Str) (n0 : Nat) (ss : List Step) (l : Launch) (hl : l ∈ (run home env0 n0 ss).out)
    (k v : Str) (h : (k, v) ∈ l.task.env) : l.environ k = some v :=
  (run_ind (P := fun _ s => Env home s)
    ⟨fun w t r hp => (by cases hp), fun w t r hp => (by cases hp), fun l hl => (by cases hl)⟩ (fun _ x h => env_step ha h x) ss).out l hl k v h

/-- With threads a task may get the variables of another worker's task: here the GPU. -/
theorem C85_env_threads_witness :
    let g := "CUDA_VISIBLE_DEVICES".toList
    let s := run (fun _ => 0) (fun _ => none) 0 [.start 1, .start 2, .create 1 ⟨[], []⟩ none none [(g, ['0'])], .create 2 ⟨[], []⟩ none none [(g, ['1'])],
      .set 1, .set 2, .launch 1, .launch 2]
    s.out.map (fun l => (l.task.owner, l.task.env, l.environ g)) = [(1, [(g, ['0'])], some ['1']), (2, [(g, ['1'])], some ['1'])] := by decide +kernel

/-- Where a variable of a process comes from. -/
def Source (home : Nat → Nat) (env0 : Str → Option Str) (ss : List Step) (i : Nat) (k : Str) (x : Option Str) : Prop :=
  x = env0 k ∨ ∃ w a np ng env v, home w = i ∧ Step.create w a np ng env ∈ ss ∧ (k, v) ∈ env ∧ x = some v

theorem source_mono {home : Nat → Nat} {env0 : Str → Option Str} {ss : List Step} {i : Nat} {k : Str} {x : Option Str} (y : Step) (h : Source home env0 ss i k x) :
    Source home env0 (ss ++ [y]) i k x := by
  rcases h with h | ⟨w, a, np, ng, env, v, h1, h2, h3⟩
  · exact Or.inl h
  · exact Or.inr ⟨w, a, np, ng, env, v, h1, by simp [h2], h3⟩

structure Sources (home : Nat → Nat) (env0 : Str → Option Str) (ss : List Step) (s : World) : Prop where
  proc : ∀ i k, Source home env0 ss i k ((s.proc i).environ k)
  pend : ∀ w t r, s.pend w = some (t, r) → ∃ a np ng env, Step.create w a np ng env ∈ ss ∧ ∀ x ∈ r, x ∈ env
  out : ∀ l ∈ s.out, ∀ k, Source home env0 ss (home l.task.owner) k (l.environ k)

theorem sources_run (home : Nat → Nat) (env0 : Str → Option Str) (n0 : Nat) (ss : List Step) : Sources home env0 ss (run home env0 n0 ss) := by
  refine run_ind (P := fun ss s => Sources home env0 ss s ∧ Ids home s) ⟨⟨fun i k => Or.inl rfl, fun w t r hp => (by cases hp), fun l hl => (by cases hl)⟩, ids_run home env0 n0 []⟩ ?_ ss |>.1
  rintro ss x ⟨h, hi⟩
  refine ⟨?_, ids_step hi x⟩
  generalize run home env0 n0 ss = s at h hi
  have hp0 : ∀ w t r, s.pend w = some (t, r) → ∃ a np ng env, Step.create w a np ng env ∈ ss ++ [x] ∧ ∀ x ∈ r, x ∈ env := by
    intro w t r hw
    obtain ⟨a, np, ng, env, h1, h2⟩ := h.pend w t r hw
    exact ⟨a, np, ng, env, by simp [h1], h2⟩
  have ho0 : ∀ l ∈ s.out, ∀ k, Source home env0 (ss ++ [x]) (home l.task.owner) k (l.environ k) := fun l hl k => source_mono x (h.out l hl k)
  have hs0 : ∀ i k, Source home env0 (ss ++ [x]) i k ((s.proc i).environ k) := fun i k => source_mono x (h.proc i k)
  have hs1 : ∀ i (p : Proc), p.environ = (s.proc i).environ → ∀ j k, Source home env0 (ss ++ [x]) j k (((setProc s i p).proc j).environ k) := by
    intro i p he j k
    show Source _ _ _ _ _ ((if j = i then p else s.proc j).environ k)
    split
    · next hj => rw [he, ← hj]; exact hs0 j k
    · exact hs0 j k
  have hd : ∀ w v u q, (if v = w then none else s.pend v) = some (u, q) → s.pend v = some (u, q) := by
    intro w v u q hv
    split at hv
    · cases hv
    · exact hv
  cases x with
  | start w => exact ⟨hs1 _ _ rfl, hp0, ho0⟩
  | order w np ng =>
    simp only [step]
    split
    · exact ⟨hs0, hp0, ho0⟩
    · exact ⟨hs1 _ _ rfl, hp0, ho0⟩
  | poll w => exact ⟨hs0, hp0, ho0⟩
  | stop w => exact ⟨hs1 _ _ rfl, hp0, ho0⟩
  | drop w => exact ⟨hs0, fun v u q hv => hp0 v u q (hd w v u q hv), ho0⟩
  | create w a np ng env =>
    simp only [step]
    split
    · refine ⟨hs1 _ _ rfl, fun v u q hv => ?_, ho0⟩
      change (if v = w then _ else s.pend v) = some (u, q) at hv
      split at hv
      · next hv' =>
        subst hv'
        injection hv with hv
        injection hv with _ hv
        subst hv
        exact ⟨a, np, ng, env, by simp, fun x hx => hx⟩
      · exact hp0 v u q hv
    · exact ⟨hs0, hp0, ho0⟩
  | launch w =>
    simp only [step]
    cases hp : s.pend w with
    | none => exact ⟨hs0, hp0, ho0⟩
    | some y =>
      obtain ⟨t, r⟩ := y
      cases r with
      | cons kv r => exact ⟨hs0, hp0, ho0⟩
      | nil =>
        refine ⟨hs0, fun v u q hv => hp0 v u q (hd w v u q hv), fun l hl k => ?_⟩
        rcases List.mem_append.1 hl with hl | hl
        · exact ho0 l hl k
        · rw [List.mem_singleton.1 hl]
          have := (hi.pend w t [] hp).1
          show Source _ _ _ (home t.owner) _ _
          rw [this]
          exact hs0 (home w) k
  | set w =>
    simp only [step]
    cases hp : s.pend w with
    | none => exact ⟨hs0, hp0, ho0⟩
    | some y =>
      obtain ⟨t, r⟩ := y
      cases r with
      | nil => exact ⟨hs0, hp0, ho0⟩
      | cons kv r =>
        obtain ⟨k0, v0⟩ := kv
        obtain ⟨a, np, ng, env, h1, h2⟩ := hp0 w t _ hp
        refine ⟨fun i k => ?_, fun v u q hv => ?_, ho0⟩
        · show Source _ _ _ _ _ ((if i = home w then { s.proc (home w) with environ := fun x => if x = k0 then some v0 else (s.proc (home w)).environ x } else s.proc i : Proc).environ k)
          split
          · next hj =>
            dsimp only
            split
            · next hk => exact Or.inr ⟨w, a, np, ng, env, v0, hj.symm, h1, by rw [hk]; exact h2 _ (by simp), rfl⟩
            · rw [hj]; exact hs0 (home w) k
          · exact hs0 i k
        · change (if v = w then some (t, r) else s.pend v) = some (u, q) at hv
          split at hv
          · next hv' =>
            subst hv'
            injection hv with hv
            injection hv with _ hv
            subst hv
            exact ⟨a, np, ng, env, h1, fun x hx => h2 x (by simp [hx])⟩
          · exact hp0 v u q hv

/-- **C85**: a variable that was decided for no task in the same process is as it was at the start.  (For variables of other tasks see `C85_left_witness`.) -/
theorem C85_rest_partial (home : Nat → Nat) (env0 : Str → Option Str) (n0 : Nat) (ss : List Step) (l : Launch) (hl : l ∈ (run home env0 n0 ss).out) (k : Str)
    (h : ∀ w a np ng env, home w = home l.task.owner → Step.create w a np ng env ∈ ss → ∀ v, (k, v) ∉ env) : l.environ k = env0 k := by
  rcases (sources_run home env0 n0 ss).out l hl k with h1 | ⟨w, a, np, ng, env, v, h1, h2, h3, _⟩
  · exact h1
  · exact absurd h3 (h w a np ng env h1 h2 v)

/-- A task for which no GPU was decided gets the variable of the last task that had some. -/
theorem C85_left_witness :
    let g := "CUDA_VISIBLE_DEVICES".toList
    let s := run id (fun _ => none) 0 [.start 1, .create 1 ⟨[], []⟩ none none [(g, ['0'])], .set 1, .launch 1, .create 1 ⟨[], []⟩ none none [], .launch 1]
    s.out.map (fun l => (l.task.env, l.environ g)) = [([(g, ['0'])], some ['0']), ([], some ['0'])] := by decide +kernel

/-! ### Whose number, whose messages, whose processors -/

structure Own (home : Nat → Nat) (ss : List Step) (s : World) : Prop where
  wid : ∀ w, (s.proc (home w)).wid = if started w ss then some w else none
  comm : ∀ w, (s.proc (home w)).comm = if alive w ss then some w else none
  nums : ∀ w, ((s.proc (home w)).procs, (s.proc (home w)).gpus) = numbers w ss

theorem own_run (home : Nat → Nat) (ha : Apart home) (env0 : Str → Option Str) (n0 : Nat) (ss : List Step) : Own home ss (run home env0 n0 ss) := by
  refine run_ind (P := fun ss s => Own home ss s) ⟨fun w => rfl, fun w => rfl, fun w => rfl⟩ ?_ ss
  intro ss x h
  generalize run home env0 n0 ss = s at h
  have st : ∀ w, started w (ss ++ [x]) = (started w ss || started w [x]) := fun w => by simp [started, List.any_append]
  have same : ∀ (s' : World), (∀ i, (s'.proc i).wid = (s.proc i).wid ∧ (s'.proc i).comm = (s.proc i).comm ∧ (s'.proc i).procs = (s.proc i).procs ∧ (s'.proc i).gpus = (s.proc i).gpus) →
      (∀ w, started w [x] = false) → (∀ w, alive w (ss ++ [x]) = alive w ss) → (∀ w, numbers w (ss ++ [x]) = numbers w ss) → Own home (ss ++ [x]) s' := by
    intro s' hs' h1 h2 h3
    refine ⟨fun w => ?_, fun w => ?_, fun w => ?_⟩
    · rw [st, h1, Bool.or_false, (hs' _).1]; exact h.wid w
    · rw [h2, (hs' _).2.1]; exact h.comm w
    · rw [h3, (hs' _).2.2.1, (hs' _).2.2.2]; exact h.nums w
  have keepP : ∀ (i : Nat) (p : Proc), p.wid = (s.proc i).wid → p.comm = (s.proc i).comm → p.procs = (s.proc i).procs → p.gpus = (s.proc i).gpus →
      ∀ j, ((if j = i then p else s.proc j).wid = (s.proc j).wid ∧ (if j = i then p else s.proc j).comm = (s.proc j).comm ∧
        (if j = i then p else s.proc j).procs = (s.proc j).procs ∧ (if j = i then p else s.proc j).gpus = (s.proc j).gpus) := by
    intro i p h1 h2 h3 h4 j
    split
    · next hj => subst hj; exact ⟨h1, h2, h3, h4⟩
    · exact ⟨rfl, rfl, rfl, rfl⟩
  have pj : ∀ (v w : Nat) (p : Proc), ((setProc s (home w) p).proc (home v)) = if v = w then p else s.proc (home v) := by
    intro v w p
    show (if home v = home w then p else s.proc (home v)) = _
    by_cases hv : v = w
    · rw [if_pos hv, if_pos (by rw [hv])]
    · rw [if_neg hv, if_neg fun he => hv (ha v w he)]
  cases x with
  | start w =>
    refine ⟨fun v => ?_, fun v => ?_, fun v => ?_⟩
    · simp only [step]
      rw [pj, st]
      have : started v [Step.start w] = (w == v) := by simp [started]
      rw [this]
      by_cases hv : v = w
      · subst hv; simp
      · have : (w == v) = false := by rw [beq_eq_false_iff_ne]; exact Ne.symm hv
        rw [if_neg hv, this, Bool.or_false]; exact h.wid v
    · simp only [step, alive, List.foldl_append, List.foldl_cons, List.foldl_nil]
      rw [pj]
      by_cases hv : v = w
      · subst hv; simp
      · rw [if_neg hv, if_neg (Ne.symm hv)]; exact h.comm v
    · simp only [step, numbers, List.foldl_append, List.foldl_cons, List.foldl_nil]
      rw [pj]
      by_cases hv : v = w
      · subst hv; rw [if_pos rfl]; exact h.nums v
      · rw [if_neg hv]; exact h.nums v
  | order w np ng =>
    simp only [step]
    by_cases hn : np = none ∧ ng = none
    · rw [if_pos hn]
      exact same s (fun i => ⟨rfl, rfl, rfl, rfl⟩) (fun v => rfl) (fun v => by simp [alive, List.foldl_append]) (fun v => by
        simp only [numbers, List.foldl_append, List.foldl_cons, List.foldl_nil]
        rw [if_neg fun hh => hh.2 hn])
    · rw [if_neg hn]
      refine ⟨fun v => ?_, fun v => ?_, fun v => ?_⟩
      · rw [pj, st]
        have : started v [Step.order w np ng] = false := rfl
        rw [this, Bool.or_false]
        by_cases hv : v = w
        · subst hv; rw [if_pos rfl]; exact h.wid v
        · rw [if_neg hv]; exact h.wid v
      · simp only [alive, List.foldl_append, List.foldl_cons, List.foldl_nil]
        rw [pj]
        by_cases hv : v = w
        · subst hv; rw [if_pos rfl]; exact h.comm v
        · rw [if_neg hv]; exact h.comm v
      · simp only [numbers, List.foldl_append, List.foldl_cons, List.foldl_nil]
        rw [pj]
        by_cases hv : v = w
        · subst hv; rw [if_pos rfl, if_pos ⟨rfl, hn⟩]
        · rw [if_neg hv, if_neg fun hh => hv hh.1.symm]; exact h.nums v
  | stop w =>
    refine ⟨fun v => ?_, fun v => ?_, fun v => ?_⟩
    · simp only [step]
      rw [pj, st]
      have : started v [Step.stop w] = false := rfl
      rw [this, Bool.or_false]
      by_cases hv : v = w
      · subst hv; rw [if_pos rfl]; exact h.wid v
      · rw [if_neg hv]; exact h.wid v
    · simp only [step, alive, List.foldl_append, List.foldl_cons, List.foldl_nil]
      rw [pj]
      by_cases hv : v = w
      · subst hv; simp
      · rw [if_neg hv, if_neg (Ne.symm hv)]; exact h.comm v
    · simp only [step, numbers, List.foldl_append, List.foldl_cons, List.foldl_nil]
      rw [pj]
      by_cases hv : v = w
      · subst hv; rw [if_pos rfl]; exact h.nums v
      · rw [if_neg hv]; exact h.nums v
  | poll w => exact same _ (fun i => ⟨rfl, rfl, rfl, rfl⟩) (fun v => rfl) (fun v => by simp [alive, List.foldl_append]) (fun v => by simp [numbers, List.foldl_append])
  | drop w => exact same _ (fun i => ⟨rfl, rfl, rfl, rfl⟩) (fun v => rfl) (fun v => by simp [alive, List.foldl_append]) (fun v => by simp [numbers, List.foldl_append])
  | launch w =>
    refine same _ (fun i => ?_) (fun v => rfl) (fun v => by simp [alive, List.foldl_append]) (fun v => by simp [numbers, List.foldl_append])
    simp only [step]
    split <;> exact ⟨rfl, rfl, rfl, rfl⟩
  | set w =>
    refine same _ (fun i => ?_) (fun v => rfl) (fun v => by simp [alive, List.foldl_append]) (fun v => by simp [numbers, List.foldl_append])
    simp only [step]
    split
    · next k v r hp => exact keepP (home w) { s.proc (home w) with environ := fun x => if x = k then some v else (s.proc (home w)).environ x } rfl rfl rfl rfl i
    · exact ⟨rfl, rfl, rfl, rfl⟩
  | create w a np ng env =>
    refine same _ (fun i => ?_) (fun v => rfl) (fun v => by simp [alive, List.foldl_append]) (fun v => by simp [numbers, List.foldl_append])
    simp only [step]
    split
    · exact keepP (home w) { s.proc (home w) with next := (s.proc (home w)).next + 1 } rfl rfl rfl rfl i
    · exact ⟨rfl, rfl, rfl, rfl⟩

/-- **C85**: if every worker has its own process, a task carries the number of the worker that submits it, its application and variables are those given, and
numbers of processes and GPUs that are not given are those of the last order of this worker that had any. -/
theorem C85_task (home : Nat → Nat) (ha : Apart home) (env0 : Str → Option Str) (n0 : Nat) (ss : List Step) (w : Nat) (a : App) (np ng : Option Nat)
    (env : List (Str × Str)) (hn : (env.map (·.1)).Nodup) (hp : (run home env0 n0 ss).pend w = none) :
    ∃ t, (run home env0 n0 (ss ++ [.create w a np ng env])).pend w = some (t, env) ∧ t.owner = w ∧ t.app = a ∧ t.env = env ∧
      t.wid = (if started w ss then some w else none) ∧ t.procs = orElse np (numbers w ss).1 ∧ t.gpus = ng.or (numbers w ss).2 := by
  have h := own_run home ha env0 n0 ss
  rw [run_snoc]
  simp only [step]
  rw [if_pos ⟨hp, hn⟩]
  refine ⟨_, if_pos rfl, rfl, rfl, rfl, h.wid w, ?_, ?_⟩
  · rw [← h.nums w]
  · rw [← h.nums w]

/-- **C85**: if every worker has its own process, a worker that polls the manager looks at its own messages, until it ends. -/
theorem C85_poll (home : Nat → Nat) (ha : Apart home) (env0 : Str → Option Str) (n0 : Nat) (ss : List Step) (w : Nat) :
    (run home env0 n0 (ss ++ [.poll w])).polls = (run home env0 n0 ss).polls ++ [(w, if alive w ss then some w else none)] := by
  rw [run_snoc]
  simp only [step]
  rw [(own_run home ha env0 n0 ss).comm w]

/-- With threads the number of the worker, its messages and its processors are those that were set last, by any worker; when one worker has ended, none can poll. -/
theorem C85_threads_witness :
    let s := run (fun _ => 0) (fun _ => none) 0 [.start 1, .start 2, .order 1 (some 4) (some 1), .order 2 (some 8) (some 2), .create 1 ⟨"a".toList, []⟩ none none [],
      .launch 1, .poll 1, .stop 2, .poll 1]
    s.out.map (fun l => (l.task.owner, l.task.wid, l.task.procs, l.task.gpus)) = [(1, some 2, some 8, some 2)] ∧ s.polls = [(1, some 2), (1, none)] := by decide +kernel

/-- An order without numbers leaves those of the order before. -/
theorem C85_stale_witness :
    let s := run id (fun _ => none) 0 [.start 1, .order 1 (some 4) (some 2), .order 1 none none, .create 1 ⟨"a".toList, []⟩ none none [], .launch 1]
    s.out.map (fun l => (l.task.wid, l.task.procs, l.task.gpus)) = [(some 1, some 4, some 2)] := by decide +kernel

/-! ### Applications -/

/-- A registration: path, name, kind of calculation. -/
structure Entry where
  path : Str
  name : Option Str
  kind : Option Str

/-- The name under which an application is found: the one given, or the last part of the path. -/
def Entry.key (e : Entry) : Str := match e.name with
  | some (c :: s) => c :: s
  | _ => base e.path

def registered (es : List Entry) : Registry := es.foldl (fun r e => (registerApp r e.path e.name e.kind).1) {}

theorem registered_snoc (es : List Entry) (e : Entry) : registered (es ++ [e]) = (registerApp (registered es) e.path e.name e.kind).1 := by
  simp [registered, List.foldl_append]

theorem registerApp_apps (r : Registry) (e : Entry) : (registerApp r e.path e.name e.kind).1.apps = (e.key, ⟨if e.key = [] then base e.path else e.key, e.path⟩) :: r.apps := by
  unfold registerApp
  dsimp only
  cases e.kind with
  | none => rfl
  | some t =>
    dsimp only
    split
    · rfl
    · split <;> rfl

theorem registerApp_default (r : Registry) (e : Entry) :
    ((registerApp r e.path e.name e.kind).1.sim.map (·.path) = if e.kind = some "sim".toList then some e.path else r.sim.map (·.path)) ∧
    ((registerApp r e.path e.name e.kind).1.gen.map (·.path) = if e.kind = some "gen".toList then some e.path else r.gen.map (·.path)) ∧
    ((registerApp r e.path e.name e.kind).2 = true ↔ ∃ t, e.kind = some t ∧ t ≠ "sim".toList ∧ t ≠ "gen".toList) := by
  have hne : "gen".toList ≠ "sim".toList := by decide
  unfold registerApp
  dsimp only
  cases hk : e.kind with
  | none => simp
  | some t =>
    dsimp only
    by_cases h1 : t = "sim".toList
    · subst h1
      rw [if_pos rfl, if_pos rfl, if_neg (fun h => hne (Option.some.inj h).symm)]
      refine ⟨rfl, rfl, fun h => (by cases h), ?_⟩
      rintro ⟨t, ht, h, _⟩
      exact absurd (Option.some.inj ht).symm h
    · rw [if_neg h1, if_neg (fun h => h1 (Option.some.inj h))]
      by_cases h2 : t = "gen".toList
      · subst h2
        rw [if_pos rfl, if_pos rfl]
        refine ⟨rfl, rfl, fun h => (by cases h), ?_⟩
        rintro ⟨t, ht, _, h⟩
        exact absurd (Option.some.inj ht).symm h
      · rw [if_neg h2, if_neg (fun h => h2 (Option.some.inj h))]
        exact ⟨rfl, rfl, fun _ => ⟨t, rfl, h1, h2⟩, fun _ => rfl⟩

theorem entries_ind {P : List Entry → Prop} (h0 : P []) (hs : ∀ es e, P es → P (es ++ [e])) (es : List Entry) : P es := by
  have : ∀ rev : List Entry, P rev.reverse := by
    intro rev
    induction rev with
    | nil => exact h0
    | cons x rev ih => rw [List.reverse_cons]; exact hs _ x ih
  have := this es.reverse
  rwa [List.reverse_reverse] at this

/-- **C85**: a name means the application that was last registered under it, whatever else is given; an unknown name is an error. -/
theorem C85_app (es : List Entry) (n : Str) (kind : Option Str) :
    (chooseApp (registered es) (some n) kind).map (·.path) = (es.reverse.find? fun e => e.key == n).map (·.path) := by
  unfold chooseApp
  dsimp only
  induction es using entries_ind with
  | h0 => rfl
  | hs es e ih =>
    rw [registered_snoc, registerApp_apps, List.reverse_append, List.reverse_cons, List.reverse_nil, List.nil_append, List.cons_append, List.nil_append, List.find?_cons, List.find?_cons]
    dsimp only
    cases e.key == n with
    | true => rfl
    | false => exact ih

/-- **C85**: without a name the kind of calculation means the application that was last registered for it. -/
theorem C85_default (es : List Entry) (t : Str) (ht : t = "sim".toList ∨ t = "gen".toList) :
    (chooseApp (registered es) none (some t)).map (·.path) = (es.reverse.find? fun e => e.kind == some t).map (·.path) := by
  have hne : "gen".toList ≠ "sim".toList := by decide
  unfold chooseApp
  dsimp only
  induction es using entries_ind with
  | h0 => rcases ht with rfl | rfl <;> rfl
  | hs es e ih =>
    rw [registered_snoc, List.reverse_append, List.reverse_cons, List.reverse_nil, List.nil_append, List.cons_append, List.nil_append, List.find?_cons]
    obtain ⟨h1, h2, _⟩ := registerApp_default (registered es) e
    rcases ht with rfl | rfl
    · rw [if_pos rfl] at ih ⊢
      rw [h1]
      by_cases hk : e.kind = some "sim".toList
      · rw [if_pos hk, hk]; rfl
      · rw [if_neg hk, ih]
        have : (e.kind == some "sim".toList) = false := by rw [beq_eq_false_iff_ne]; exact hk
        rw [this]
    · rw [if_neg hne, if_pos rfl] at ih ⊢
      rw [h2]
      by_cases hk : e.kind = some "gen".toList
      · rw [if_pos hk, hk]; rfl
      · rw [if_neg hk, ih]
        have : (e.kind == some "gen".toList) = false := by rw [beq_eq_false_iff_ne]; exact hk
        rw [this]

/-- Two applications, one registered again, one by its path, one of them the default. -/
example : let r := registered [⟨"/a/x".toList, none, none⟩, ⟨"/b/y".toList, some "x".toList, some "sim".toList⟩, ⟨"/c/z".toList, none, none⟩]
    (chooseApp r (some "x".toList) none).map (·.path) = some "/b/y".toList ∧ (chooseApp r (some "z".toList) none).map (·.path) = some "/c/z".toList ∧
      (chooseApp r none (some "sim".toList)).map (·.name) = some "x".toList ∧ (chooseApp r (some "y".toList) none).isNone = true := by decide +kernel

/-- Two workers, each with its own process and GPU. -/
example : let g := "CUDA_VISIBLE_DEVICES".toList
    let s := run id (fun _ => none) 0 [.start 1, .start 2, .create 1 ⟨"a".toList, []⟩ none none [(g, ['0'])], .create 2 ⟨"a".toList, []⟩ none none [(g, ['1'])],
      .set 1, .set 2, .launch 1, .launch 2]
    s.out.map (fun l => (l.task.name, l.environ g)) = [("libe_task_a_worker1_0".toList, some ['0']), ("libe_task_a_worker2_0".toList, some ['1'])] := by decide +kernel

end Verif.Launches
