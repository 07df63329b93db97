import Verif.Manager.Stall
import Verif.Manager.PropsRes
/-!
Free resource sets when all workers are idle.
-/
namespace Verif.Alloc
open Verif.History Verif.Res Verif.Sched

theorem convertToRsets_nf (u n : Nat) : convertToRsets u n ≠ .error .insufficientFree := by
  intro he
  simp only [convertToRsets] at he
  repeat' split at he
  all_goals cases he

theorem colMax_nf (H : List Row) (f : Field) (rows : List Nat) : colMax H f rows ≠ .error .insufficientFree := by
  intro he
  simp only [colMax] at he
  repeat' split at he
  all_goals cases he

theorem convertRows_nf (H : List Row) (f : Field) (rows : List Nat) (n : Nat) : convertRows H f rows n ≠ .error .insufficientFree := by
  intro he
  simp only [convertRows] at he
  repeat' split at he
  all_goals first
    | (cases he; done)
    | (cases he; exact absurd (by assumption) (colMax_nf _ _ _))
    | (cases he; exact absurd (by assumption) (convertToRsets_nf _ _))

theorem useGpusOf_nf (c : Ctx) (rows : List Nat) : useGpusOf c rows ≠ .error .insufficientFree := by
  intro he
  simp only [useGpusOf] at he
  repeat' split at he
  all_goals cases he

theorem reqFirst_nf (c : Ctx) (rows : List Nat) : reqFirst c rows ≠ .error .insufficientFree := by
  intro he
  simp only [reqFirst] at he
  repeat' split at he
  all_goals first
    | (cases he; done)
    | (cases he; exact absurd (by assumption) (colMax_nf _ _ _))
    | (cases he; exact absurd (by assumption) (convertRows_nf _ _ _ _))

theorem reqSim_nf (c : Ctx) (rows : List Nat) : reqSim c rows ≠ .error .insufficientFree := by
  intro he
  simp only [reqSim] at he
  repeat' split at he
  all_goals first
    | (cases he; done)
    | (cases he; exact absurd (by assumption) (reqFirst_nf _ _))
    | (cases he; exact absurd (by assumption) (useGpusOf_nf _ _))
    | (cases he; exact absurd (by assumption) (convertRows_nf _ _ _ _))

theorem reqGen_nf (c : Ctx) (p : PInfo) : reqGen c p ≠ .error .insufficientFree := by
  intro he
  simp only [reqGen] at he
  split at he
  · cases he
  · split at he
    · rename_i e hx
      cases he
      repeat' split at hx
      all_goals first
        | (cases hx; done)
        | (cases hx; exact absurd (by assumption) (convertToRsets_nf _ _))
    · repeat' split at he
      all_goals first
        | (cases he; done)
        | (cases he; exact absurd (by assumption) (convertToRsets_nf _ _))

/-- On an even layout with all sets free no request is refused for lack of free sets. -/
theorem served_free {α} [DecidableEq α] {n : Nat} {nodes : List α} (hnd : nodes.Nodup) {gpn : Nat} {rm0 : RM}
    (h0 : mkRM n nodes gpn none = some rm0) (heven : n % nodes.length = 0 ∨ n ≤ nodes.length) {ops : List RMOp}
    (hops : ∀ team w, RMOp.assign team w ∈ ops → team.Nodup) (hfree : ∀ o ∈ (rmRun rm0 ops).assigned, o = none)
    {c : Ctx} (hrm : c.rm = some (rmRun rm0 ops)) (hord : ∀ l, (c.ord l).Perm l) (sf ms : Bool) :
    Served c (mkSched (rmRun rm0 ops) sf ms) := by
  have key : ∀ (r : Req), (∃ team, (assign (rmRun rm0 ops) c.ord (mkSched (rmRun rm0 ops) sf ms) r.n r.useGpus r.params).2 = .ok team) ∨
      assign (rmRun rm0 ops) c.ord (mkSched (rmRun rm0 ops) sf ms) r.n r.useGpus r.params =
        (mkSched (rmRun rm0 ops) sf ms, .error .insufficientResources) := by
    intro r
    by_cases hle : r.n ≤ existing rm0 r.useGpus
    · exact .inl (C23_granted_partial n nodes hnd gpn rm0 h0 heven ops hops hfree c.ord hord sf ms r hle)
    · right
      have hl := rmRun_layout ops rm0
      have ht : totalOf (rmRun rm0 ops) r.useGpus < r.n := by
        rw [total_spec]; unfold existing at hle ⊢; rw [hl.rsets]; omega
      unfold assign
      rw [if_neg (by omega)]
      have : checkTotal (rmRun rm0 ops) (mkSched (rmRun rm0 ops) sf ms) r.n r.useGpus = some .insufficientResources := by
        cases hu : r.useGpus with
        | none => rw [hu] at ht; exact if_pos ht
        | some b => rw [hu] at ht; cases b <;> exact if_pos ht
      rw [this]
  have fin : ∀ k g ps, (assignResources c (mkSched (rmRun rm0 ops) sf ms) k g ps).2 ≠ .error .insufficientFree := by
    intro k g ps
    simp only [assignResources, hrm]
    have k1 := key ⟨k, some false, ps⟩
    have k2 := key ⟨k, g, ps⟩
    simp only at k1 k2
    split
    · rcases k1 with ⟨team, k1⟩ | k1
      · generalize assign (rmRun rm0 ops) c.ord (mkSched (rmRun rm0 ops) sf ms) k (some false) ps = y at k1
        obtain ⟨s', r'⟩ := y
        simp only at k1; subst k1; simp
      · rw [k1]
        simp only
        rcases k2 with ⟨team, k2⟩ | k2
        · generalize assign (rmRun rm0 ops) c.ord (mkSched (rmRun rm0 ops) sf ms) k g ps = y at k2
          obtain ⟨s', r'⟩ := y
          simp only at k2; subst k2; simp
        · rw [k2]; simp [AErr.ofS]
    · rcases k2 with ⟨team, k2⟩ | k2
      · generalize assign (rmRun rm0 ops) c.ord (mkSched (rmRun rm0 ops) sf ms) k g ps = y at k2
        obtain ⟨s', r'⟩ := y
        simp only at k2; subst k2; simp
      · rw [k2]; simp [AErr.ofS]
  intro p wid rows given
  simp only [updateTeam]
  split
  · split
    · simp
    · split
      · simp
      · cases rows with
        | some rs =>
          have hreq := reqSim_nf c rs
          simp only
          generalize reqSim c rs = x at hreq
          cases x with
          | error e => simp only; intro hx; injection hx with hx; exact hreq (by rw [hx])
          | ok y => exact fin _ _ _
        | none =>
          have hreq := reqGen_nf c p
          simp only
          generalize reqGen c p = x at hreq
          cases x with
          | error e => simp only; intro hx; injection hx with hx; exact hreq (by rw [hx])
          | ok y => exact fin _ _ _
  · simp

end Verif.Alloc

namespace Verif.Manager
open Verif.History Verif.Res Verif.Sched Verif.Alloc

/-- The changes of the resource table, oldest first. -/
def tableOps : List Ev → List RMOp
  | [] => []
  | .assign w team :: tr => tableOps tr ++ [.assign team w]
  | .free w :: tr => tableOps tr ++ [.free w]
  | _ :: tr => tableOps tr

theorem rmAt_run (rm0 : RM) (tr : List Ev) : rmAt rm0 tr = rmRun rm0 (tableOps tr) := by
  induction tr with
  | nil => rfl
  | cons e tr ih =>
    cases e <;> simp only [rmAt, tableOps, ih, rmRun, List.foldl_append, List.foldl_cons, List.foldl_nil, rmStep]

theorem mem_tableOps {tr : List Ev} {team : List Nat} {w : Nat} (h : RMOp.assign team w ∈ tableOps tr) : Ev.assign w team ∈ tr := by
  induction tr with
  | nil => simp [tableOps] at h
  | cons e tr ih =>
    cases e with
    | assign w' team' =>
      simp only [tableOps, List.mem_append, List.mem_singleton, RMOp.assign.injEq] at h
      rcases h with h | ⟨rfl, rfl⟩
      · exact List.mem_cons_of_mem _ (ih h)
      · exact List.mem_cons_self
    | free w' =>
      simp only [tableOps, List.mem_append, List.mem_singleton, reduceCtorEq, or_false] at h
      exact List.mem_cons_of_mem _ (ih h)
    | _ => exact List.mem_cons_of_mem _ (ih h)

theorem holds_order {w : Nat} {tr : List Ev} (h : holds w tr ≠ []) : ∃ key wk, Ev.order w key wk ∈ tr := by
  induction tr with
  | nil => simp [holds] at h
  | cons e tr ih =>
    have up : holds w tr ≠ [] → ∃ key wk, Ev.order w key wk ∈ e :: tr := by
      intro h1
      obtain ⟨key, wk, h2⟩ := ih h1
      exact ⟨key, wk, List.mem_cons_of_mem _ h2⟩
    cases e with
    | order to key wk =>
      simp only [holds] at h
      split at h
      · rename_i hc; exact ⟨key, wk, by rw [hc.1]; simp⟩
      · exact up h
    | recv to m =>
      cases m with
      | data d =>
        simp only [holds] at h
        split at h
        · simp at h
        · exact up h
      | _ => exact up h
    | _ => exact up h

/-- All sets are free if all workers are idle and no persistent function runs. -/
theorem idle_free {c : Start} {P : St → Reply → Prop} {α} [DecidableEq α] {n : Nat} {nodes : List α} {gpn : Nat} {gpg : Option Nat} {rm0 : RM}
    (hnd : nodes.Nodup) (hg : gpg ≠ some 0) (hmk : mkRM n nodes gpn gpg = some rm0) (h0 : c.rm = some rm0)
    (hfgs : c.sp.finalGenSend = false)
    (hP : ∀ s cs work p, Reach c.sp P c.st .alloc s → P s (.ok cs work false p) → Scheduled c.sp s work)
    {p : Ph} {s : St} (hr : Reach c.sp P c.st p s) (hp : p.going = true) (hs : Sane s.tr) (ha : anyActive s = false) (hn : anyPersis s = false) :
    ∃ ops, s.rm = some (rmRun rm0 ops) ∧ (∀ team w, RMOp.assign team w ∈ ops → team.Nodup) ∧ ∀ o ∈ (rmRun rm0 ops).assigned, o = none := by
  obtain ⟨hfresh, hlen⟩ := mkRM_fresh hmk
  have h := held_reach h0 hfresh (fun rm hl => lwf_layout hnd hg hmk hl) hfgs hP hr hs
  obtain ⟨g1, g2, g3, _⟩ := Ph.going_main hp
  have hv := (hr.vi start_vi rfl rfl g2).1
  refine ⟨tableOps s.tr, by rw [← rmAt_run]; exact start_rmAt h0 hr, ?_, ?_⟩
  · intro team w hm
    obtain ⟨post, pre, he⟩ := List.append_of_mem (mem_tableOps hm)
    exact (h.events post _ pre he).1
  · intro o ho
    rw [← rmAt_run] at ho
    obtain ⟨i, hi⟩ := List.getElem?_of_mem ho
    cases o with
    | none => rfl
    | some w =>
      exfalso
      have h1 := (h.settled g3 i w).mp hi
      obtain ⟨key, wk, h2⟩ := holds_order (w := w) (tr := s.tr) (fun h3 => by rw [h3] at h1; simp at h1)
      have h3 := hr.toWorkers start_vi rfl rfl start_tr hp w key wk h2
      rw [← hr.micros.ids] at h3
      obtain ⟨k, hk, rfl⟩ := (mem_ids hv.tab).mp h3
      have hag := hv.agree k s.W[k] (List.getElem?_eq_getElem hk)
      have hb : (view (idAt c.sp k) s.tr).busy = false := by
        rw [hag.busy]
        simpa using allIdle_of ha _ (List.getElem_mem hk)
      have hpz : (view (idAt c.sp k) s.tr).persis = 0 := by
        rw [hag.persis]
        simp only [anyPersis, List.any_eq_false, decide_eq_true_eq] at hn
        simpa using hn _ (List.getElem_mem hk)
      rw [((h.idle hp) _).1 hb hpz] at h1
      simp at h1

end Verif.Manager
