import Verif.Persis.Model

/-!
# C78: the persistent information of the workers
-/

namespace Verif.Persis

/-! ### Dictionaries -/

theorem lookup_append (k : String) (a b : Dict) : (a ++ b).lookup k = (a.lookup k).orElse fun _ => b.lookup k := by
  induction a with
  | nil => simp
  | cons p a ih =>
    rw [List.cons_append, List.lookup_cons, List.lookup_cons, ih]
    cases k == p.1 <;> simp

theorem lookup_filter (k : String) (q : String → Bool) (a : Dict) : (a.filter fun p => q p.1).lookup k = if q k then a.lookup k else none := by
  induction a with
  | nil => simp
  | cons p a ih =>
    by_cases hq : q p.1 = true
    · rw [List.filter_cons_of_pos (p := fun p : String × Val => q p.1) hq, List.lookup_cons, List.lookup_cons, ih]
      by_cases hk : k = p.1
      · simp [hk, hq]
      · have : (k == p.1) = false := by simpa using hk
        simp [this]
    · rw [List.filter_cons_of_neg (p := fun p : String × Val => q p.1) hq, ih, List.lookup_cons]
      by_cases hk : k = p.1
      · simp [hk, hq]
      · have : (k == p.1) = false := by simpa using hk
        simp [this]

/-- What an updated dictionary has under a name. -/
theorem lookup_update (k : String) (a b : Dict) : (a.update b).lookup k = match b.lookup k with | some v => some v | none => a.lookup k := by
  unfold Dict.update
  rw [lookup_append, lookup_filter (q := fun n => (b.lookup n).isNone)]
  cases b.lookup k <;> simp

theorem lookup_isSome {k : String} {v : Val} {a : Dict} (h : (k, v) ∈ a) : (a.lookup k).isSome = true := by
  induction a with
  | nil => cases h
  | cons p a ih =>
    rw [List.lookup_cons]
    cases hk : k == p.1 with
    | true => rfl
    | false =>
      rcases List.mem_cons.mp h with h | h
      · subst h; simp at hk
      · exact ih h

/-- A dictionary that is updated by one with all its names becomes that one. -/
theorem update_all {a b : Dict} (h : ∀ k, (a.lookup k).isSome = true → (b.lookup k).isSome = true) : a.update b = b := by
  unfold Dict.update
  have : (a.filter fun p => (b.lookup p.1).isNone) = [] := by
    rw [List.filter_eq_nil_iff]
    intro p hp
    have := h p.1 (lookup_isSome (v := p.2) hp)
    cases hb : b.lookup p.1 <;> simp_all
  rw [this, List.append_nil]

@[simp] theorem set_same {α : Type} (f : Nat → α) (i : Nat) (x : α) : set f i x i = x := by simp [set]

theorem set_other {α : Type} {f : Nat → α} {i j : Nat} {x : α} (h : j ≠ i) : set f i x j = f j := by simp [set, h]

theorem set_set {α : Type} (f : Nat → α) (i : Nat) (x y : α) : set (set f i x) i y = set f i y := by
  funext j; unfold set; split <;> rfl

theorem lookup_receive (k : String) (e : Option Dict) (b : Dict) :
    ((receive e b).getD []).lookup k = match b.lookup k with | some v => some v | none => (e.getD []).lookup k := by
  unfold receive
  cases b with
  | nil => simp
  | cons p b => simp only [List.isEmpty_cons, Bool.false_eq_true, if_false, Option.getD_some, lookup_update]

/-! ### Random streams -/

theorem addStreams_succ (info : Nat → Option Dict) (n : Nat) (seed : Seed) :
    addStreams info (n + 1) seed
      = set (addStreams info n seed) n (some (((addStreams info n seed n).getD []).update [("rand_stream", .stream ⟨srcOf seed n, 0⟩), ("worker_num", .num n)])) := by
  unfold addStreams
  rw [List.range_succ, List.foldl_append]
  rfl

/-- C78: `add_unique_random_streams` gives every number below `n` an unused stream and its number, keeps everything else in these entries, and leaves the other
entries alone. -/
theorem C78_streams (info : Nat → Option Dict) (n : Nat) (seed : Seed) (w : Nat) :
    (n ≤ w → addStreams info n seed w = info w)
    ∧ (w < n → ∃ d, addStreams info n seed w = some d ∧ d.lookup "rand_stream" = some (.stream ⟨srcOf seed w, 0⟩) ∧ d.lookup "worker_num" = some (.num w)
        ∧ ∀ k, k ≠ "rand_stream" → k ≠ "worker_num" → d.lookup k = ((info w).getD []).lookup k) := by
  induction n with
  | zero => exact ⟨fun _ => rfl, fun h => absurd h (Nat.not_lt_zero _)⟩
  | succ n ih =>
    rw [addStreams_succ]
    refine ⟨fun h => ?_, fun h => ?_⟩
    · rw [set_other (by omega)]; exact ih.1 (by omega)
    · by_cases hw : w = n
      · subst hw
        refine ⟨_, set_same .., ?_, ?_, fun k h1 h2 => ?_⟩
        · rw [lookup_update]; simp [List.lookup]
        · rw [lookup_update]; simp [List.lookup]
        · rw [lookup_update, ih.1 (Nat.le_refl _)]
          have e1 : (k == "rand_stream") = false := by simpa using h1
          have e2 : (k == "worker_num") = false := by simpa using h2
          simp [List.lookup, e1, e2]
      · rw [set_other hw]; exact ih.2 (by omega)

/-- C78: without an integer as seed no two streams have the same source; with an integer all have the same. -/
theorem C78_sources (seed : Seed) (i j : Nat) : srcOf seed i = srcOf seed j ↔ i = j ∨ ∃ k, seed = .int k := by
  cases seed with
  | int k => simp [srcOf]
  | fresh t => simp [srcOf]
  | other => simp [srcOf]; omega

/-- Hypotheses of `C78_streams`: an entry with something in it, and one that is made. -/
example : (addStreams (set (fun _ => none) 1 (some [("x", .num 7)])) 3 .other 1).map (·.lookup "x") = some (some (.num 7))
    ∧ (addStreams (set (fun _ => none) 1 (some [("x", .num 7)])) 3 .other 2).map (·.lookup "rand_stream") = some (some (.stream ⟨.seed 2, 0⟩))
    ∧ addStreams (set (fun _ => none) 1 (some [("x", .num 7)])) 3 .other 3 = none := by decide

/-! ### What a call is given -/

/-- What worker `w` should have under name `k` after the calls in `log` (newest first): what its last call that sent something under this name sent, else what it had
at the beginning. -/
def expected (init : Nat → Option Dict) (w : Nat) (k : String) : List Call → Option Val
  | [] => ((init w).getD []).lookup k
  | c :: log => if c.worker = w then match c.back.lookup k with | some v => some v | none => expected init w k log else expected init w k log

/-- A newest-first list and the property of each element with what is older. -/
def Each (P : Call → List Call → Prop) : List Call → Prop
  | [] => True
  | c :: log => P c log ∧ Each P log

theorem Each.split {P : Call → List Call → Prop} {a b : List Call} {c : Call} (h : Each P (a ++ c :: b)) : P c b := by
  induction a with
  | nil => exact h.1
  | cons x a ih => exact ih h.2

theorem run_inv {share : Bool} {P : St → Prop} {Q : Event → Prop} (hs : ∀ s e s', P s → Q e → step share s e = some s' → P s') :
    ∀ {es : List Event} {s s' : St}, (∀ e ∈ es, Q e) → P s → run share s es = some s' → P s' := by
  intro es
  induction es with
  | nil => intro s s' _ h hr; cases hr; exact h
  | cons e es ih =>
    intro s s' hq h hr
    unfold run at hr
    split at hr
    · cases hr
    · rename_i t ht
      exact ih (fun e he => hq e (List.mem_cons_of_mem _ he)) (hs _ _ _ h (hq e List.mem_cons_self) ht) hr

/-- Messages between processes: the entries are as expected, and an order with the worker's own dictionary has the present one. -/
structure Inv (init : Nat → Option Dict) (s : St) : Prop where
  info : ∀ w k, ((s.info w).getD []).lookup k = expected init w k s.log
  held : ∀ w h, s.held w = some h → (h.src = some w → h.was = s.info w) ∧ (h.src = none → h.was = none)
  log : Each (fun c old => c.src = some c.worker → ∀ k, c.given.lookup k = expected init c.worker k old) s.log

theorem content_copy (info : Nat → Option Dict) (h : Held) (v : Nat) (hs : h.src = some v) : content false info h = h.was.getD [] := by
  unfold content
  rw [hs]
  cases h.was <;> rfl

theorem inPlace_copy (info : Nat → Option Dict) (h : Held) (a : Dict) : inPlace false info h a = info := by
  unfold inPlace
  rfl

theorem Inv.start (init : Nat → Option Dict) (last : Nat) : Inv init { info := init, last } := ⟨fun _ _ => rfl, nofun, trivial⟩

theorem Inv.step {init : Nat → Option Dict} {s s' : St} {e : Event} (hi : Inv init s) (hs : step false s e = some s') : Inv init s' := by
  cases e with
  | give v =>
    simp only [Persis.step] at hs
    split at hs
    · cases hs
    · cases hs
      refine ⟨hi.info, fun w h hw => ?_, hi.log⟩
      dsimp only at hw ⊢
      by_cases hwv : w = v
      · subst hwv
        rw [set_same] at hw; cases hw
        exact ⟨fun _ => rfl, nofun⟩
      · rw [set_other hwv] at hw
        exact hi.held w h hw
  | giveLast v =>
    simp only [Persis.step] at hs
    split at hs
    · cases hs
    · cases hs
      refine ⟨hi.info, fun w h hw => ?_, hi.log⟩
      dsimp only at hw ⊢
      by_cases hwv : w = v
      · subst hwv
        rw [set_same] at hw; cases hw
        exact ⟨fun hl => by rw [Option.some.inj hl], nofun⟩
      · rw [set_other hwv] at hw
        exact hi.held w h hw
  | giveList v =>
    simp only [Persis.step] at hs
    split at hs
    · cases hs
    · cases hs
      refine ⟨hi.info, fun w h hw => ?_, hi.log⟩
      dsimp only at hw ⊢
      by_cases hwv : w = v
      · subst hwv
        rw [set_same] at hw; cases hw
        exact ⟨nofun, fun _ => rfl⟩
      · rw [set_other hwv] at hw
        exact hi.held w h hw
  | ret v f =>
    simp only [Persis.step] at hs
    split at hs
    · cases hs
    · rename_i h hh
      cases hs
      simp only [inPlace_copy]
      refine ⟨fun w k => ?_, fun w h' hw => ?_, ⟨?_, hi.log⟩⟩
      · unfold expected
        dsimp only
        by_cases hwv : w = v
        · subst hwv
          rw [set_same, if_pos rfl, lookup_receive, hi.info]
        · rw [set_other hwv, if_neg (Ne.symm hwv)]
          exact hi.info w k
      · dsimp only at hw ⊢
        by_cases hwv : w = v
        · subst hwv; rw [set_same] at hw; cases hw
        · rw [set_other hwv] at hw
          rw [set_other hwv]
          exact hi.held w h' hw
      · intro hsrc k
        rw [content_copy _ _ _ hsrc, (hi.held v h hh).1 hsrc]
        exact hi.info v k

/-- C78: if messages are copied (all communicators except threads), then after any run the entry of each worker has under each name what the last call on this worker
that sent this name sent, and nothing comes from other workers. -/
theorem C78_entries {init : Nat → Option Dict} {last : Nat} {es : List Event} {s : St} (h : run false { info := init, last } es = some s) (w : Nat) (k : String) :
    ((s.info w).getD []).lookup k = expected init w k s.log :=
  (run_inv (Q := fun _ => True) (P := Inv init) (fun _ _ _ hp _ hs => hp.step hs) (fun _ _ => trivial) (Inv.start init last) h).info w k

/-- C78: if messages are copied, then every call that gets the dictionary of its own worker gets exactly what the earlier calls on this worker sent. -/
theorem C78_given {init : Nat → Option Dict} {last : Nat} {es : List Event} {s : St} (h : run false { info := init, last } es = some s)
    {new old : List Call} {c : Call} (hl : s.log = new ++ c :: old) (hc : c.src = some c.worker) (k : String) :
    c.given.lookup k = expected init c.worker k old := by
  have := (run_inv (Q := fun _ => True) (P := Inv init) (fun _ _ _ hp _ hs => hp.step hs) (fun _ _ => trivial) (Inv.start init last) h).log
  rw [hl] at this
  exact this.split hc k

/-- A user function that draws `n` values and returns what it was given. -/
def draw (n : Nat) : Fn := fun d =>
  (match d.lookup "rand_stream" with | some (.stream s) => d.update [("rand_stream", .stream { s with pos := s.pos + n })] | _ => d, none)

/-- Hypotheses of `C78_given` and `C78_entries`: two calls on worker 1, one on worker 2 in between. -/
example : ((run false { info := addStreams (fun _ => none) 3 .other } [.give 1, .give 2, .ret 1 (draw 4), .give 1, .ret 2 (draw 5), .ret 1 (draw 6)]).map
      fun s => s.log.map fun c => (c.worker, c.src, c.given.lookup "rand_stream"))
    = some [(1, some 1, some (.stream ⟨.seed 1, 4⟩)), (2, some 2, some (.stream ⟨.seed 2, 0⟩)), (1, some 1, some (.stream ⟨.seed 1, 0⟩))] := by decide

/-- C78 violated: a name that a user function deletes comes back, unless the workers are threads. -/
theorem C78_deleted_witness :
    let f : Fn := fun d => (d.filter fun p => p.1 ≠ "x", none)
    let go := fun share => (run share { info := set (fun _ => none) 1 (some [("x", .num 7), ("y", .num 8)]) } [.give 1, .ret 1 f, .give 1, .ret 1 f]).map
      fun s => s.log.map fun c => c.given.lookup "x"
    go false = some [some (.num 7), some (.num 7)] ∧ go true = some [none, some (.num 7)] := by decide

/-! ### Functions that return what they are given -/

/-- A user function that returns the dictionary it is given, perhaps with changes, or no dictionary, and deletes no names. -/
def Honest (f : Fn) : Prop := ∀ d, ((f d).2 = none ∨ (f d).2 = some (f d).1) ∧ ∀ k, (d.lookup k).isSome = true → ((f d).1.lookup k).isSome = true

/-- Orders with the dictionary of the worker itself, and functions with `P`. -/
def Own (P : Fn → Prop) : Event → Prop
  | .give _ => True
  | .giveLast _ => False
  | .giveList _ => False
  | .ret _ f => P f

theorem draw_honest (n : Nat) : Honest (draw n) := by
  intro d
  refine ⟨.inl rfl, fun k hk => ?_⟩
  unfold draw
  dsimp only
  split
  · rw [lookup_update]; split
    · rfl
    · exact hk
  · exact hk

/-- What the last call on a worker left, or what was there at the beginning. -/
def left (init : Nat → Option Dict) (w : Nat) (log : List Call) : Dict := match log.find? (fun c => c.worker = w) with
  | some c => c.after
  | none => (init w).getD []

structure Own.Inv (init : Nat → Option Dict) (s : St) : Prop where
  info : ∀ w, (s.info w).getD [] = left init w s.log
  held : ∀ w h, s.held w = some h → h.src = some w ∧ h.was = s.info w
  log : Each (fun c old => c.given = left init c.worker old) s.log

theorem content_own {share : Bool} {info : Nat → Option Dict} {h : Held} {w : Nat} (hs : h.src = some w) (hw : h.was = info w) : content share info h = (info w).getD [] := by
  unfold content
  rw [hs, hw]
  cases hd : info w with
  | none => rfl
  | some d => cases share <;> simp [hd]

/-- Both transports leave the same entry behind. -/
theorem after_own {share : Bool} {info : Nat → Option Dict} {h : Held} {w : Nat} {f : Fn} (hf : Honest f) (hs : h.src = some w) (hw : h.was = info w) :
    set (inPlace share info h (f ((info w).getD [])).1) w (receive (inPlace share info h (f ((info w).getD [])).1 w) (sent h (f ((info w).getD []))))
      = set info w (if (f ((info w).getD [])).1.isEmpty then info w else some (f ((info w).getD [])).1) := by
  have hsent : sent h (f ((info w).getD [])) = (f ((info w).getD [])).1 := by
    unfold sent
    rw [hs]
    rcases (hf ((info w).getD [])).1 with h1 | h1 <;> rw [h1] <;> rfl
  rw [hsent]
  have hk := (hf ((info w).getD [])).2
  generalize hg : f ((info w).getD []) = r at hk ⊢
  have hcopy : receive (info w) r.1 = if r.1.isEmpty then info w else some r.1 := by
    unfold receive
    rw [update_all hk]
  unfold inPlace
  rw [hs, hw]
  cases hd : info w with
  | none =>
    rw [hd] at hcopy
    cases share <;> simp only [] <;> rw [hd, hcopy]
  | some d =>
    rw [hd] at hcopy hk
    cases share with
    | false => simp only []; rw [hd, hcopy]
    | true =>
      simp only [set_same, set_set]
      congr 1
      unfold receive
      simp only [Option.getD_some]
      rw [update_all (fun _ h => h)]
      by_cases he : r.1.isEmpty = true
      · rw [if_pos he, if_pos he]
        have h1 : r.1 = [] := by simpa using he
        have : d = [] := by
          cases d with
          | nil => rfl
          | cons p d =>
            have := hk p.1 (lookup_isSome (v := p.2) List.mem_cons_self)
            rw [h1] at this
            cases this
        rw [h1, this]
      · rw [if_neg he, if_neg he]

theorem Own.Inv.start (init : Nat → Option Dict) (last : Nat) : Own.Inv init { info := init, last } := ⟨fun _ => rfl, nofun, trivial⟩

theorem Own.Inv.step {share : Bool} {init : Nat → Option Dict} {s s' : St} {e : Event} (hi : Own.Inv init s) (he : Own Honest e)
    (hs : step share s e = some s') : Own.Inv init s' := by
  cases e with
  | give v =>
    simp only [Persis.step] at hs
    split at hs
    · cases hs
    · cases hs
      refine ⟨hi.info, fun w h hw => ?_, hi.log⟩
      dsimp only at hw ⊢
      by_cases hwv : w = v
      · subst hwv
        rw [set_same] at hw; cases hw
        exact ⟨rfl, rfl⟩
      · rw [set_other hwv] at hw
        exact hi.held w h hw
  | giveLast v => exact he.elim
  | giveList v => exact he.elim
  | ret v f =>
    simp only [Persis.step] at hs
    split at hs
    · cases hs
    · rename_i h hh
      obtain ⟨h1, h2⟩ := hi.held v h hh
      simp only [content_own h1 h2, after_own he h1 h2] at hs
      cases hs
      refine ⟨fun w => ?_, fun w h' hw => ?_, ⟨hi.info v, hi.log⟩⟩
      · dsimp only
        by_cases hwv : w = v
        · subst hwv
          rw [set_same]
          unfold left
          simp only [List.find?_cons, decide_true]
          split
          · rename_i hemp
            have h0 : (f ((s.info w).getD [])).1 = [] := by simpa using hemp
            rw [h0]
            have hk := (he ((s.info w).getD [])).2
            rw [h0] at hk
            cases hd : (s.info w).getD [] with
            | nil => rfl
            | cons p d =>
              have := hk p.1 (by rw [hd]; exact lookup_isSome (v := p.2) List.mem_cons_self)
              cases this
          · rfl
        · rw [set_other hwv, hi.info w]
          unfold left
          simp only [List.find?_cons, decide_eq_false (Ne.symm hwv)]
      · dsimp only at hw ⊢
        by_cases hwv : w = v
        · subst hwv; rw [set_same] at hw; cases hw
        · rw [set_other hwv] at hw
          rw [set_other hwv]
          exact hi.held w h' hw

/-- C78: with user functions that return what they are given, on threads as well as on processes, every call is given exactly what the last call on its worker left. -/
theorem C78_passed {share : Bool} {init : Nat → Option Dict} {last : Nat} {es : List Event} {s : St} (he : ∀ e ∈ es, Own Honest e)
    (h : run share { info := init, last } es = some s) {new old : List Call} {c : Call} (hl : s.log = new ++ c :: old) :
    c.given = left init c.worker old := by
  have := (run_inv (P := Own.Inv init) (fun _ _ _ hp he hs => hp.step he hs) he (Own.Inv.start init last) h).log
  rw [hl] at this
  exact this.split

theorem run_same {init : Nat → Option Dict} : ∀ {es : List Event} {s : St}, (∀ e ∈ es, Own Honest e) → Own.Inv init s → run true s es = run false s es := by
  intro es
  induction es with
  | nil => intro s _ _; rfl
  | cons e es ih =>
    intro s he hi
    have hstep : step true s e = step false s e := by
      cases e with
      | give v => rfl
      | giveLast v => rfl
      | giveList v => rfl
      | ret v f =>
        simp only [step]
        cases hh : s.held v with
        | none => rfl
        | some h =>
          obtain ⟨h1, h2⟩ := hi.held v h hh
          have hf : Honest f := he _ List.mem_cons_self
          simp only [content_own h1 h2, after_own hf h1 h2]
    unfold run
    rw [hstep]
    cases hs : step false s e with
    | none => rfl
    | some s' => exact ih (fun e h => he e (List.mem_cons_of_mem _ h)) (hi.step (he e List.mem_cons_self) hs)

/-- C78: with user functions that return what they are given, a run on threads and a run on processes go through the same calls and end with the same `persis_info`. -/
theorem C78_transports {init : Nat → Option Dict} {last : Nat} {es : List Event} (he : ∀ e ∈ es, Own Honest e) :
    run true { info := init, last } es = run false { info := init, last } es :=
  run_same he (Own.Inv.start init last)

/-- Hypotheses of `C78_passed` and `C78_transports`. -/
example : (∀ e ∈ [Event.give 1, .ret 1 (draw 4), .give 1, .ret 1 (draw 6)], Own Honest e)
    ∧ ((run true { info := addStreams (fun _ => none) 2 .other } [.give 1, .ret 1 (draw 4), .give 1, .ret 1 (draw 6)]).map
      fun s => s.log.map fun c => c.given.lookup "rand_stream") = some [some (.stream ⟨.seed 1, 4⟩), some (.stream ⟨.seed 1, 0⟩)] := by
  refine ⟨?_, by decide⟩
  intro e he
  simp only [List.mem_cons, List.not_mem_nil, or_false] at he
  rcases he with rfl | rfl | rfl | rfl
  · trivial
  · exact draw_honest 4
  · trivial
  · exact draw_honest 6

end Verif.Persis
