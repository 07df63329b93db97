import Verif.System.PropsLive
import Verif.Manager.EndsDemo
/-!
Concrete courses of events for C70: the conditions can be met, and what happens without them.
-/
namespace Verif.System
open Verif Verif.Worker
open Verif.Manager (Start Iter Bundled endDemo endPass endPass_uses endPass_clock passes_ended)

/-! ### A course from a script -/

def Turn.apply (env : Env) (a : Conf) : Turn → Conf
  | .man e => ⟨e :: a.tr, fun w => deliver w e (a.ws w)⟩
  | .carry w => ⟨a.tr, fun v => if v = w then { a.ws v with chan := (a.ws v).chan.carry } else a.ws v⟩
  | .tick w => ⟨a.tr, fun v => if v = w then Worker.tick (env.F v) (a.ws v) else a.ws v⟩
  | .wait => a

/-- After the script the channels and the workers of `vs` take turns for ever. -/
def turnOf (script : List Turn) (vs : List Nat) (n : Nat) : Turn :=
  match script[n]? with
  | some t => t
  | none => (vs.flatMap fun w => [Turn.carry w, .tick w]).getD ((n - script.length) % (2 * vs.length)) .wait

def play (env : Env) (turn : Nat → Turn) : Nat → Conf
  | 0 => ⟨[], fun w => { chan := { kind := env.kind w } }⟩
  | n + 1 => (turn n).apply env (play env turn n)

/-- Receipts allowed in scripts: answers and, if `g`, messages of generators, whose points are not looked at here. -/
def possA (env : Env) (g : Bool) (a : Conf) : Turn → Bool
  | .man (.recv w (.data d)) =>
    match onTheWay w a.tr (a.ws w) with
    | (pre, .answer o s _) :: _ => decide (d.calcType = o.tag) && decide (d.calcStatus = s.toNat) && decide (d.rows = hRows pre) &&
        (d.persistent == o.persistent) && (d.keepState == false)
    | (pre, .data x) :: _ => g && decide (d.calcType = Alloc.EVAL_GEN) && decide (d.calcType = (env.msg x).calcType) &&
        decide (d.calcStatus = (env.msg x).calcStatus) && decide (d.rows = hRows pre) && (d.persistent == inPersis pre) && (d.keepState == (env.msg x).keepState)
    | _ => false
  | .man (.recv _ _) => false
  | _ => true

theorem possA_sound {env : Env} {g : Bool} {a : Conf} {t : Turn} (h : possA env g a t = true)
    (hout : g = true → ∀ w d, t = .man (.recv w (.data d)) → d.calcType = Alloc.EVAL_GEN → ∀ x, d.out = (env.msg x).out) : Next env a t (t.apply env a) := by
  cases t with
  | man e =>
    refine ⟨?_, rfl⟩
    cases e with
    | recv w m =>
      intro _
      cases m with
      | data d =>
        simp only [possA] at h
        split at h
        · rename_i pre o s r rest hq
          simp only [Bool.and_eq_true, decide_eq_true_eq, beq_iff_eq] at h
          obtain ⟨⟨⟨⟨h1, h2⟩, h3⟩, h4⟩, h5⟩ := h
          refine ⟨pre, _, rest, hq, d.out, ?_⟩
          rw [← h1, ← h2, ← h3, ← h4]
          cases d; simp only at h5; rw [h5]
        · rename_i pre x rest hq
          simp only [Bool.and_eq_true, decide_eq_true_eq, beq_iff_eq] at h
          obtain ⟨⟨⟨⟨⟨⟨h0, h1⟩, h2⟩, h3⟩, h4⟩, h5⟩, h6⟩ := h
          have ho := hout h0 w d rfl h1 x
          refine ⟨pre, _, rest, hq, ?_, .inr h1⟩
          cases d
          simp only at h1 h2 h3 h4 h5 h6 ho
          rw [h2, h3, h4, h5, h6, ho]
        · cases h
      | _ => cases h
    | _ => trivial
  | _ => rfl

theorem turnOf_after {script : List Turn} {vs : List Nat} {n : Nat} (h : script.length ≤ n) (e : Manager.Ev) : turnOf script vs n ≠ .man e := by
  unfold turnOf
  rw [List.getElem?_eq_none h]
  dsimp only
  intro hx
  have hm : Turn.man e ∈ Turn.wait :: vs.flatMap fun w => [Turn.carry w, .tick w] := by
    rw [List.getD_eq_getElem?_getD] at hx
    cases hg : (vs.flatMap fun w => [Turn.carry w, .tick w])[(n - script.length) % (2 * vs.length)]? with
    | none => rw [hg] at hx; cases hx
    | some t => rw [hg] at hx; simp only [Option.getD_some] at hx; subst hx; exact List.mem_cons_of_mem _ (List.mem_of_getElem? hg)
  simp at hm

theorem flat_length (vs : List Nat) : (vs.flatMap fun w => [Turn.carry w, .tick w]).length = 2 * vs.length := by
  induction vs with
  | nil => rfl
  | cons v vs ih => simp only [List.flatMap_cons, List.length_append, ih, List.length_cons, List.length_nil]; omega

/-- Everything that is listed comes again and again. -/
theorem turnOf_again {script : List Turn} {vs : List Nat} {t : Turn} (ht : t ∈ vs.flatMap fun w => [Turn.carry w, .tick w]) (n : Nat) :
    ∃ m, n ≤ m ∧ turnOf script vs m = t := by
  obtain ⟨i, hi, rfl⟩ := List.getElem_of_mem ht
  rw [flat_length] at hi
  refine ⟨script.length + (n * (2 * vs.length) + i), ?_, ?_⟩
  · have : n * 1 ≤ n * (2 * vs.length) := Nat.mul_le_mul_left n (by omega)
    omega
  · unfold turnOf
    rw [List.getElem?_eq_none (by omega)]
    dsimp only
    rw [Nat.add_sub_cancel_left, Nat.mul_comm, Nat.mul_add_mod, Nat.mod_eq_of_lt hi, List.getD_eq_getElem?_getD,
      List.getElem?_eq_getElem (by rw [flat_length]; exact hi)]
    rfl

theorem play_suffix (env : Env) (turn : Nat → Turn) {n m : Nat} (h : n ≤ m) : (play env turn n).tr <:+ (play env turn m).tr := by
  induction m with
  | zero => rw [Nat.le_zero.mp h]; exact List.suffix_refl _
  | succ m ih =>
    by_cases hm : n = m + 1
    · rw [hm]; exact List.suffix_refl _
    · refine List.IsSuffix.trans (ih (by omega)) ?_
      show _ <:+ ((turn m).apply env (play env turn m)).tr
      cases turn m with
      | man e => exact List.suffix_cons _ _
      | _ => exact List.suffix_refl _

theorem play_after (env : Env) (script : List Turn) (vs : List Nat) (d : Nat) :
    (play env (turnOf script vs) (script.length + d)).tr = (play env (turnOf script vs) script.length).tr := by
  induction d with
  | zero => rfl
  | succ d ih =>
    rw [← ih]
    show ((turnOf script vs (script.length + d)).apply env (play env (turnOf script vs) (script.length + d))).tr = _
    cases ht : turnOf script vs (script.length + d) with
    | man e => exact absurd ht (turnOf_after (by omega) e)
    | _ => rfl

/-- The event of the manager. -/
def Turn.ev : Turn → Option Manager.Ev
  | .man e => some e
  | _ => none

theorem play_record (env : Env) (script : List Turn) (vs : List Nat) (n : Nat) :
    (play env (turnOf script vs) n).tr = ((script.take n).filterMap Turn.ev).reverse := by
  induction n with
  | zero => rfl
  | succ n ih =>
    rw [List.take_add_one, List.filterMap_append, List.reverse_append, ← ih]
    show ((turnOf script vs n).apply env (play env (turnOf script vs) n)).tr = _
    cases hs : script[n]? with
    | none =>
      have hn : script.length ≤ n := by
        refine Nat.le_of_not_lt fun h => ?_
        rw [List.getElem?_eq_getElem h] at hs; cases hs
      cases ht : turnOf script vs n with
      | man e => exact absurd ht (turnOf_after hn e)
      | _ => rfl
    | some t =>
      have : turnOf script vs n = t := by unfold turnOf; rw [hs]
      rw [this]
      cases t <;> rfl

/-- The record grows by one event at a time. -/
theorem play_between (env : Env) (turn : Nat → Turn) (n : Nat) {a : List Manager.Ev} (h : a <:+ (play env turn n).tr) : ∃ m, (play env turn m).tr = a := by
  induction n with
  | zero => exact ⟨0, (List.suffix_nil.mp h).symm⟩
  | succ n ih =>
    by_cases he : (play env turn (n + 1)).tr = a
    · exact ⟨n + 1, he⟩
    · refine ih ?_
      change a <:+ ((turn n).apply env (play env turn n)).tr at h
      change ((turn n).apply env (play env turn n)).tr ≠ a at he
      cases ht : turn n with
      | man e =>
        rw [ht] at h he
        rcases List.suffix_cons_iff.mp h with h | h
        · exact absurd h.symm he
        · exact h
      | carry w => rw [ht] at h; exact h
      | tick w => rw [ht] at h; exact h
      | wait => rw [ht] at h; exact h

/-- All that has to be checked of a script for a run that ends within `K` passes. -/
def scriptOk (env : Env) (g : Bool) (vs : List Nat) (script : List Turn) : Bool :=
  (List.range script.length).all fun n => possA env g (play env (turnOf script vs) n) (turnOf script vs n)

def trackOf (env : Env) (g : Bool) (V : List Nat) (T : Nat → List Manager.Ev) (over : Prop) (K : Nat) (script : List Turn) (hover : over) (hT : ∀ k, T k <:+ T K)
    (hs : script.filterMap Turn.ev = (T K).reverse) (h : scriptOk env g V script = true)
    (hout : g = true → ∀ w d, .recv w (.data d) ∈ T K → d.calcType = Alloc.EVAL_GEN → ∀ x, d.out = (env.msg x).out) : Track env V T over where
  at_ := play env (turnOf script V)
  turn := turnOf script V
  init := rfl
  next n := by
    by_cases hn : n < script.length
    · refine possA_sound (g := g) (List.all_eq_true.mp h n (List.mem_range.mpr hn)) (fun hg w d he => ?_)
      refine hout hg w d ?_
      rw [← List.mem_reverse, ← hs, List.mem_filterMap]
      refine ⟨_, List.getElem_mem hn, ?_⟩
      have : turnOf script V n = script[n] := by unfold turnOf; rw [List.getElem?_eq_getElem hn]
      rw [← this, he]; rfl
    · change Next env _ (turnOf script V n) ((turnOf script V n).apply env _)
      cases ht : turnOf script V n with
      | man e => exact absurd ht (turnOf_after (by omega) e)
      | _ => rfl
  inside n := by
    refine ⟨K, ?_⟩
    have := play_record env script V script.length
    rw [List.take_length, hs, List.reverse_reverse] at this
    rw [← this]
    by_cases hn : n ≤ script.length
    · exact play_suffix _ _ hn
    · rw [show n = script.length + (n - script.length) by omega, play_after]
      exact List.suffix_refl _
  passes k := by
    have := play_record env script V script.length
    rw [List.take_length, hs, List.reverse_reverse] at this
    refine play_between env _ script.length ?_
    rw [this]
    exact hT k
  carries w hw n := turnOf_again (List.mem_flatMap.mpr ⟨w, hw, by simp⟩) n
  ticks w hw n := turnOf_again (List.mem_flatMap.mpr ⟨w, hw, by simp⟩) n
  mail w _ n _ := .inl hover

def courseOf (env : Env) (g : Bool) (c : Start) (f : Nat → Iter) (K : Nat) (script : List Turn) (hend : (c.loop (Manager.passes f K)).2 ≠ .running)
    (hs : script.filterMap Turn.ev = (c.loop (Manager.passes f K)).1.tr.reverse) (h : scriptOk env g c.workers script = true)
    (hout : g = true → ∀ w d, .recv w (.data d) ∈ (c.loop (Manager.passes f K)).1.tr → d.calcType = Alloc.EVAL_GEN → ∀ x, d.out = (env.msg x).out) : Course env c f :=
  trackOf env g c.workers _ _ K script ⟨K, hend⟩ (fun k => by
    by_cases hk : k ≤ K
    · exact loop_grows c f hk
    · rw [passes_ended hend k (by omega)]
      exact List.suffix_refl _) hs h hout

/-! ### The run -/

/-- Every function looks for a signal once and returns. -/
def lookF : UserF := fun _ _ _ h => if h.length = 0 then .poll else .ret (.array 1)

theorem lookF_simple : Simple lookF where
  acts n o rows h _ := by
    unfold lookF
    split
    · exact .inl rfl
    · exact .inr ⟨_, rfl, nofun, nofun⟩
  ends n o rows _ := ⟨1, fun h hl => ⟨.array 1, by unfold lookF; rw [if_neg (by omega)]⟩⟩

def lookEnv : Env := { F := fun _ => lookF, kind := fun w => if w = 2 then .mpi else .queue, msg := fun _ => { calcType := 0, calcStatus := 0, rows := [], out := .none } }

/-- Before a message is received, the channel to its sender and the sender have their turns. -/
def scriptOf (tr : List Manager.Ev) : List Turn := tr.reverse.flatMap fun e =>
  match e with
  | .recv w _ => [.tick w, .carry w, .tick w, .carry w, .tick w, .tick w, .tick w, .man e]
  | e => [.man e]

theorem scriptOf_evs (tr : List Manager.Ev) : (scriptOf tr).filterMap Turn.ev = tr.reverse := by
  unfold scriptOf
  induction tr.reverse with
  | nil => rfl
  | cons e l ih =>
    rw [List.flatMap_cons, List.filterMap_append, ih]
    cases e <;> rfl

theorem demo_proper (b : Bundled) (hr : (endDemo.loop (Manager.passes (endPass b) 5)).2 ≠ .running)
    (h : ((List.range 6).all fun k => Manager.obligingB endDemo 4 [] (endDemo.loop (Manager.passes (endPass b) k)).1.tr) = true) (k : Nat) :
    Proper endDemo [] (endDemo.loop (Manager.passes (endPass b) k)).1.tr :=
  have h := Manager.endDemo_obliging b hr h k
  ⟨h.hist, h.prot, h.productive, h.unnumbered, h.cancelled⟩

/-- All conditions are met by this run. -/
example : ∃ k, (endDemo.loop (Manager.passes (endPass (.simFirst {})) k)).2 ≠ .running :=
  have hr : (endDemo.loop (Manager.passes (endPass (.simFirst {})) 5)).2 ≠ .running := by decide +kernel
  C70_ends_partial (courseOf lookEnv false endDemo (endPass (.simFirst {})) 5 (scriptOf (endDemo.loop (Manager.passes (endPass (.simFirst {})) 5)).1.tr) hr (scriptOf_evs _) (by decide +kernel) nofun)
    (.simFirst {}) rfl Manager.demoEnv (endPass_uses _) rfl (fun _ => lookF_simple) 2 rfl (by decide) []
    (fun k _ => demo_proper _ hr (by decide +kernel) k) (endPass_clock _)

example : ∃ k, (endDemo.loop (Manager.passes (endPass .oneGen) k)).2 ≠ .running :=
  have hr : (endDemo.loop (Manager.passes (endPass .oneGen) 5)).2 ≠ .running := by decide +kernel
  C70_ends_partial (courseOf lookEnv false endDemo (endPass .oneGen) 5 (scriptOf (endDemo.loop (Manager.passes (endPass .oneGen) 5)).1.tr) hr (scriptOf_evs _) (by decide +kernel) nofun)
    .oneGen rfl Manager.demoEnv (endPass_uses _) rfl (fun _ => lookF_simple) 2 rfl (by decide) []
    (fun k _ => demo_proper _ hr (by decide +kernel) k) (endPass_clock _)

/-- A function that looks for signals for ever: its worker takes the order and goes on taking steps, but never answers. -/
theorem C70_endless_witness (n : Nat) :
    outs (Worker.run (fun _ _ _ _ => .poll) .queue ([.send (EVAL_GEN, .work { tag := EVAL_GEN, rows := [] }), .carry, .tick] ++ List.replicate n .tick)).tr = [] := by
  have h : ∃ h, Worker.run (fun _ _ _ _ => .poll) .queue ([.send (EVAL_GEN, .work { tag := EVAL_GEN, rows := [] }), .carry, .tick] ++ List.replicate n .tick) =
      ⟨.user { tag := EVAL_GEN, rows := [] } none h, { kind := .queue }, 0,
        [.start { tag := EVAL_GEN, rows := [] } none, .took (EVAL_GEN, .work { tag := EVAL_GEN, rows := [] })]⟩ := by
    induction n with
    | zero => exact ⟨[], rfl⟩
    | succ n ih =>
      obtain ⟨h, ih⟩ := ih
      rw [List.replicate_succ', ← List.append_assoc, Worker.run, List.foldl_append]
      rw [Worker.run] at ih
      rw [ih]
      exact ⟨_, rfl⟩
  obtain ⟨h, h1⟩ := h
  rw [h1]
  rfl

end Verif.System
