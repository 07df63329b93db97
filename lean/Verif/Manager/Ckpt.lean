import Verif.Manager.Frame
/-
Checkpoint files in the course of a run.
-/
namespace Verif.Manager
open Verif.History Verif.Res Verif.Sched Verif.Alloc

variable {sp : Specs} {P : St → Reply → Prop} {s0 : St}

/-- Both kinds of files are the same. -/
def SameFiles (a b : St) : Prop := b.simFiles = a.simFiles ∧ b.genFiles = a.genFiles

theorem SameFiles.trans {a b c : St} (h : SameFiles a b) (h' : SameFiles b c) : SameFiles a c :=
  ⟨h'.1.trans h.1, h'.2.trans h.2⟩

theorem Kept.files {a b : St} (h : Kept a b) : SameFiles a b := ⟨h.1, h.2.1⟩

/-- The history after the events `tr` of a run that started with `h0`. -/
def histAt (h0 : Hist) (tr : List Ev) : Hist := applyAll h0 (opsOf tr)

/-- The files of one kind (`cnt` is what is counted, `k` the step) hold what the history held at some moment,
under the largest multiple of `k` reached at that moment. -/
def FilesOk (h0 : Hist) (cnt : Hist → Nat) (k : Nat) (files : List (Nat × List Row)) (tr : List Ev) : Prop :=
  files = [] ∨ ∃ post pre, tr = post ++ pre ∧ 0 < k * (cnt (histAt h0 pre) / k) ∧
    files = [(k * (cnt (histAt h0 pre) / k), trimH (histAt h0 pre))]

/-- … and this is the largest multiple reached until now. -/
def FilesNow (h0 : Hist) (cnt : Hist → Nat) (k : Nat) (files : List (Nat × List Row)) (tr : List Ev) : Prop :=
  (files = [] ∧ cnt (histAt h0 tr) < k) ∨ ∃ post pre, tr = post ++ pre ∧ k ≤ cnt (histAt h0 pre) ∧
    k * (cnt (histAt h0 pre) / k) = k * (cnt (histAt h0 tr) / k) ∧
    files = [(k * (cnt (histAt h0 tr) / k), trimH (histAt h0 pre))]

theorem FilesOk.mono {h0 : Hist} {cnt : Hist → Nat} {k : Nat} {files} {tr l : List Ev} (h : FilesOk h0 cnt k files tr) :
    FilesOk h0 cnt k files (l ++ tr) := by
  rcases h with h | ⟨post, pre, rfl, h1, h2⟩
  · exact .inl h
  · exact .inr ⟨l ++ post, pre, by rw [List.append_assoc], h1, h2⟩

theorem FilesNow.ok {h0 : Hist} {cnt : Hist → Nat} {k : Nat} (hk : 0 < k) {files} {tr : List Ev} (h : FilesNow h0 cnt k files tr) :
    FilesOk h0 cnt k files tr := by
  rcases h with ⟨h, _⟩ | ⟨post, pre, rfl, h1, h2, h3⟩
  · exact .inl h
  · refine .inr ⟨post, pre, rfl, Nat.mul_pos hk (Nat.div_pos h1 hk), ?_⟩
    rw [h2]; exact h3

theorem opsOf_append (l tr : List Ev) : opsOf (l ++ tr) = opsOf tr ++ opsOf l := by
  simp [opsOf, List.filterMap_append]

theorem histAt_append (h0 : Hist) (l tr : List Ev) : histAt h0 (l ++ tr) = applyAll (histAt h0 tr) (opsOf l) := by
  simp [histAt, opsOf_append, applyAll]

/-- A quantity that no recorded call lowers. -/
def Mono (cnt : Hist → Nat) : Prop := ∀ h o, cnt h ≤ cnt (apply h o).1

theorem Mono.all {cnt : Hist → Nat} (hm : Mono cnt) (h : Hist) (ops : List Op) : cnt h ≤ cnt (applyAll h ops) := by
  induction ops generalizing h with
  | nil => exact Nat.le_refl _
  | cons o ops ih => exact Nat.le_trans (hm h o) (ih _)

theorem mono_ended : Mono (·.simEndedCount) := by
  intro h o
  have key : h.counters.ended ≤ (apply h o).1.counters.ended := by
    have := apply_counters h o
    cases o with
    | simReturn => obtain ⟨n, _, h2, _⟩ := this; rw [h2]; simp [Hist.counters]
    | giveSim => rw [this]; exact Nat.le_refl _
    | giveGen => obtain ⟨n, h2⟩ := this; rw [h2]; exact Nat.le_refl _
    | _ => rw [this]; exact Nat.le_refl _
  exact key

theorem mono_index : Mono (·.index) := fun h o => (apply_struct h o).2.2.1

/-- The effect of one call of `_save_every_k` in the course of a run. -/
theorem save_now {h0 : Hist} {cnt : Hist → Nat} (hm : Mono cnt) {k : Nat} (hk : 0 < k) {files} {tr : List Ev}
    (h : FilesOk h0 cnt k files tr) :
    FilesNow h0 cnt k (saveEveryK files (trimH (histAt h0 tr)) (cnt (histAt h0 tr)) k false) tr := by
  simp only [saveEveryK, Bool.false_eq_true, if_false, or_false]
  split
  · rename_i hc
    refine .inr ⟨[], tr, rfl, ?_, rfl, rfl⟩
    apply Decidable.byContradiction
    intro hlt
    have : cnt (histAt h0 tr) / k = 0 := Nat.div_eq_of_lt (by omega)
    simp [this] at hc
  · rename_i hc
    rcases h with h | ⟨post, pre, rfl, h1, h2⟩
    · subst h
      refine .inl ⟨rfl, ?_⟩
      apply Decidable.byContradiction
      intro hlt
      exact hc ⟨by simp, Nat.mul_pos hk (Nat.div_pos (by omega) hk)⟩
    · have hle : cnt (histAt h0 pre) ≤ cnt (histAt h0 (post ++ pre)) := by rw [histAt_append]; exact hm.all _ _
      have hmul := Nat.mul_le_mul_left k (Nat.div_le_div_right (c := k) hle)
      have hpre : k ≤ cnt (histAt h0 pre) := by
        apply Decidable.byContradiction
        intro hlt
        have : cnt (histAt h0 pre) / k = 0 := Nat.div_eq_of_lt (by omega)
        rw [this] at h1; simp at h1
      have heq : k * (cnt (histAt h0 pre) / k) = k * (cnt (histAt h0 (post ++ pre)) / k) := by
        apply Decidable.byContradiction
        intro hne
        refine hc ⟨?_, by omega⟩
        rw [h2]; simp only [List.map_cons, List.map_nil, List.mem_singleton]; omega
      exact .inr ⟨post, pre, rfl, hpre, heq, by rw [h2, heq]⟩

theorem saveK_sim {s : St} {b : Bool} {k : Nat} (hk : sp.kSims = some k) (hk0 : 0 < k) :
    (saveK sp s b).simFiles = saveEveryK s.simFiles (trimH s.hist) s.hist.simEndedCount k b ∧
    (saveK sp s b).hist = s.hist ∧ (saveK sp s b).tr = s.tr := by
  have : given sp.kSims = true := by rw [hk]; cases k with | zero => omega | succ => rfl
  simp only [saveK, this, Bool.true_or, if_true, hk, Option.getD_some]
  rw [hk] at this
  simp only [this, Bool.true_or, if_true]
  split <;> exact ⟨rfl, rfl, rfl⟩

theorem saveK_gen {s : St} {b : Bool} {k : Nat} (hk : sp.kGens = some k) (hk0 : 0 < k) :
    (saveK sp s b).genFiles = saveEveryK s.genFiles (trimH s.hist) s.hist.index k b ∧
    (saveK sp s b).hist = s.hist ∧ (saveK sp s b).tr = s.tr := by
  have : given sp.kGens = true := by rw [hk]; cases k with | zero => omega | succ => rfl
  simp only [saveK, this, if_true, hk, Option.getD_some]
  rw [hk] at this
  simp only [this, if_true, Bool.not_true, Bool.and_false, Bool.or_false]
  split <;> exact ⟨rfl, rfl, rfl⟩

/-- Which kind of files. -/
structure Kind (sp : Specs) where
  cnt : Hist → Nat
  files : St → List (Nat × List Row)
  k : Nat
  pos : 0 < k
  mono : Mono cnt
  same : ∀ {a b : St}, SameFiles a b → files b = files a
  save : ∀ (s : St) (b : Bool), files (saveK sp s b) = saveEveryK (files s) (trimH s.hist) (cnt s.hist) k b
  nogive : ∀ h rows w t kl, cnt (apply h (.giveSim rows w t kl)).1 = cnt h
  nogen : ∀ h rows t, cnt (apply h (.giveGen rows t)).1 = cnt h
  nocancel : ∀ h rows, cnt (apply h (.requestCancel rows)).1 = cnt h
  nokill : ∀ h rows, cnt (apply h (.markKill rows)).1 = cnt h

def simKind {k : Nat} (hk : sp.kSims = some k) (hk0 : 0 < k) : Kind sp where
  cnt := (·.simEndedCount)
  files := St.simFiles
  k := k
  pos := hk0
  mono := mono_ended
  same h := h.1
  save s b := (saveK_sim hk hk0).1
  nogive h rows w t kl := apply_ended_count h _ (by simp)
  nogen h rows t := apply_ended_count h _ (by simp)
  nocancel h rows := apply_ended_count h _ (by simp)
  nokill h rows := apply_ended_count h _ (by simp)

def genKind {k : Nat} (hk : sp.kGens = some k) (hk0 : 0 < k) : Kind sp where
  cnt := (·.index)
  files := St.genFiles
  k := k
  pos := hk0
  mono := mono_index
  same h := h.2
  save s b := (saveK_gen hk hk0).1
  nogive h rows w t kl := apply_index h _ (by simp)
  nogen h rows t := apply_index h _ (by simp)
  nocancel h rows := apply_index h _ (by simp)
  nokill h rows := apply_index h _ (by simp)

theorem saveK_hist (s : St) (b : Bool) : (saveK sp s b).hist = s.hist ∧ (saveK sp s b).tr = s.tr := by
  simp only [saveK]; split <;> split <;> exact ⟨rfl, rfl⟩

/-- Places at which the files are up to date. -/
def Ph.saved : Ph → Bool
  | .alloc | .hand _ => true
  | _ => false

/-- What happens outside `_receive_from_workers` leaves the counted quantity alone. -/
theorem Micros.cnt {Q : Ev → Prop} (K : Kind sp) {a b : St} (h : Micros sp Q a b)
    (hq : ∀ o, Q (.op o) → isResult o = false) : K.cnt b.hist = K.cnt a.hist :=
  h.histInv (I := fun h => K.cnt h = K.cnt a.hist) (fun h o ho hh => by
    rw [← hh]
    have := hq o ho
    cases o with
    | giveSim => exact K.nogive ..
    | giveGen => exact K.nogen ..
    | requestCancel => exact K.nocancel ..
    | markKill => exact K.nokill ..
    | simReturn => simp [isResult] at this
    | genReturn => simp [isResult] at this) rfl

theorem FilesNow.more {h0 : Hist} {cnt : Hist → Nat} {k : Nat} {files} {tr l : List Ev} (h : FilesNow h0 cnt k files tr)
    (hc : cnt (histAt h0 (l ++ tr)) = cnt (histAt h0 tr)) : FilesNow h0 cnt k files (l ++ tr) := by
  rcases h with ⟨h, h1⟩ | ⟨post, pre, rfl, h1, h2, h3⟩
  · exact .inl ⟨h, by rw [hc]; exact h1⟩
  · exact .inr ⟨l ++ post, pre, by rw [List.append_assoc], h1, by rw [hc]; exact h2, by rw [hc]; exact h3⟩

/-- The files of a run while it has not ended: what they hold, and that they are up to date after every look
at the messages. -/
theorem Reach.files (K : Kind sp) {p : Ph} {s : St} (h : Reach sp P s0 p s) (h0 : s0.tr = []) (hf0 : K.files s0 = [])
    (hp : ∀ x, p ≠ .done x) :
    FilesOk s0.hist K.cnt K.k (K.files s) s.tr ∧ (p.saved = true → FilesNow s0.hist K.cnt K.k (K.files s) s.tr) ∧
    (p = .loop → s.tr = [] ∨ FilesNow s0.hist K.cnt K.k (K.files s) s.tr) := by
  have hat : ∀ {p : Ph} {s : St}, Reach sp P s0 p s → s.hist = histAt s0.hist s.tr := fun h =>
    h.micros.hist (by rw [h0]; rfl)
  have keep : ∀ {a b : St} {Q : Ev → Prop}, Micros sp Q a b → SameFiles a b → FilesOk s0.hist K.cnt K.k (K.files a) a.tr →
      FilesOk s0.hist K.cnt K.k (K.files b) b.tr := by
    intro a b Q hm hs hok
    obtain ⟨l, hl, _⟩ := hm.tr
    rw [K.same hs, hl]
    exact hok.mono
  have keep1 : ∀ {a b : St} (e : Ev), b.tr = e :: a.tr → SameFiles a b → FilesOk s0.hist K.cnt K.k (K.files a) a.tr →
      FilesOk s0.hist K.cnt K.k (K.files b) b.tr := by
    intro a b e he hs hok
    rw [K.same hs, he]
    exact hok.mono (l := [e])
  have hsave : ∀ {p : Ph} {s : St}, Reach sp P s0 p s → FilesOk s0.hist K.cnt K.k (K.files s) s.tr →
      FilesNow s0.hist K.cnt K.k (K.files (saveK sp s false)) (saveK sp s false).tr := by
    intro p s hr hok
    rw [K.save, (saveK_hist s false).2, hat hr]
    exact save_now K.mono K.pos hok
  have now : ∀ {p q : Ph} {a b : St} {Q : Ev → Prop}, Reach sp P s0 p a → Reach sp P s0 q b → Micros sp Q a b → SameFiles a b →
      (∀ o, Q (.op o) → isResult o = false) → FilesNow s0.hist K.cnt K.k (K.files a) a.tr →
      FilesNow s0.hist K.cnt K.k (K.files b) b.tr := by
    intro p q a b Q ha hb hm hs hq hn
    have hc := hm.cnt K hq
    obtain ⟨l, hl, _⟩ := hm.tr
    rw [hat ha, hat hb, hl] at hc
    rw [K.same hs, hl]
    exact hn.more hc
  induction h with
  | init => exact ⟨.inl hf0, by simp [Ph.saved], fun _ => .inl h0⟩
  | test e hr _ ih =>
    have ih := ih (by simp)
    exact ⟨keep1 _ rfl ⟨rfl, rfl⟩ ih.1, by simp [Ph.saved], by simp⟩
  | stop e hr _ ih =>
    have ih := ih (by simp)
    exact ⟨keep1 _ rfl ⟨rfl, rfl⟩ ih.1, by simp [Ph.saved], by simp⟩
  | kill hr _ ih => exact ⟨keep (micros_killCancelled _) (kept_killCancelled _).files (ih (by simp)).1, by simp [Ph.saved], by simp⟩
  | killErr hr _ ih => exact ⟨keep (micros_killCancelled _) (kept_killCancelled _).files (ih (by simp)).1, by simp [Ph.saved], by simp⟩
  | mail w m t hr _ _ ih => exact ⟨keep (micros_handleMsg _ w m t) (kept_handleMsg ..).files (ih (by simp)).1, by simp [Ph.saved], by simp⟩
  | mailErr w m t hr _ _ ih => exact ⟨keep (micros_handleMsg _ w m t) (kept_handleMsg ..).files (ih (by simp)).1, by simp [Ph.saved], by simp⟩
  | save hr ih =>
    have := hsave hr (ih (by simp)).1
    exact ⟨this.ok K.pos, fun _ => this, by simp⟩
  | allocErr cs hr _ ih => exact ⟨keep1 _ rfl ⟨rfl, rfl⟩ (ih (by simp)).1, by simp [Ph.saved], by simp⟩
  | allocFlag cs work p hr _ ih =>
    exact ⟨keep1 (.op (.requestCancel cs)) rfl ⟨rfl, rfl⟩ (ih (by simp)).1, by simp [Ph.saved], by simp⟩
  | allocOk cs work p t hr hP ih =>
    have hn := now hr (.allocOk cs work p t hr hP)
      ((micros_op (Q := fun e => e = .op (.requestCancel cs)) _ _ rfl).trans (Micro.pinfo _ p).one) ⟨rfl, rfl⟩
      (fun o ho => by cases ho; rfl) ((ih (by simp)).2.1 rfl)
    exact ⟨hn.ok K.pos, fun _ => hn, by simp⟩
  | give hr hm he ih =>
    have hn := now hr (.give hr hm he) (micros_handOut _ _ _ _) (kept_handOut ..).files (fun o ho => by
      cases ho with
      | send h => cases h
      | _ => rfl) ((ih (by simp)).2.1 rfl)
    exact ⟨hn.ok K.pos, fun _ => hn, by simp⟩
  | giveErr hr hm he ih => exact ⟨keep (micros_handOut _ _ _ _) (kept_handOut ..).files (ih (by simp)).1, by simp [Ph.saved], by simp⟩
  | again hr _ _ ih => exact ⟨(ih (by simp)).1, by simp [Ph.saved], fun _ => .inr ((ih (by simp)).2.1 rfl)⟩
  | noWork hr _ ih => exact ⟨(ih (by simp)).1, by simp [Ph.saved], by simp⟩
  | final hr ih => exact ⟨keep1 _ rfl ⟨rfl, rfl⟩ (ih (by simp)).1, by simp [Ph.saved], by simp⟩
  | pstop t hr _ ih => exact ⟨keep (micros_stopPersis _ _ t) (kept_stopPersis ..).files (ih (by simp)).1, by simp [Ph.saved], by simp⟩
  | pstopErr t hr _ ih => exact ⟨keep (micros_stopPersis _ _ t) (kept_stopPersis ..).files (ih (by simp)).1, by simp [Ph.saved], by simp⟩
  | drain hr ih => exact ⟨(ih (by simp)).1, by simp [Ph.saved], by simp⟩
  | dmail w m t hr _ _ ih => exact ⟨keep (micros_handleMsg _ w m t) (kept_handleMsg ..).files (ih (by simp)).1, by simp [Ph.saved], by simp⟩
  | dmailErr w m t hr _ _ ih => exact ⟨keep (micros_handleMsg _ w m t) (kept_handleMsg ..).files (ih (by simp)).1, by simp [Ph.saved], by simp⟩
  | dsave hr ih => exact ⟨(hsave hr (ih (by simp)).1).ok K.pos, by simp [Ph.saved], by simp⟩
  | done p hr ih => exact absurd rfl (hp _)

/-- The files at the end of the run. -/
theorem Reach.filesDone (K : Kind sp) {x : MainEnd} {s : St} (h : Reach sp P s0 (.done x) s) (h0 : s0.tr = [])
    (hf0 : K.files s0 = []) :
    (sp.saveDone = true → K.files s = [(K.cnt s.hist, trimH s.hist)]) ∧
    (sp.saveDone = false → FilesNow s0.hist K.cnt K.k (K.files s) s.tr) := by
  generalize hp : Ph.done x = p at h
  cases h with
  | done p' hr =>
    rename_i sd xd
    have hF := (hr.files K h0 hf0 (by simp)).1
    have hsf : K.files { killWorkers (saveK sp sd sp.saveDone) with pinfo := p' } = K.files (saveK sp sd sp.saveDone) :=
      K.same (SameFiles.trans (kept_killWorkers _).files ⟨rfl, rfl⟩)
    have hat : sd.hist = histAt s0.hist sd.tr := hr.micros.hist (by rw [h0]; rfl)
    have hh : (killWorkers (saveK sp sd sp.saveDone)).hist = sd.hist := by
      rw [killWorkers_eq]; exact (saveK_hist _ _).1
    constructor
    · intro hd
      rw [hsf, K.save, hd]
      rw [hd] at hh
      simp only [saveEveryK, if_true, or_true]
      rw [hh]
    · intro hd
      rw [hsf, K.save, hd]
      have hn := save_now K.mono K.pos hF
      rw [← hat] at hn
      have ht : ({ killWorkers (saveK sp sd false) with pinfo := p' } : St).tr =
          ((ids (saveK sp sd false)).map Ev.stop).reverse ++ sd.tr := by
        simp only [killWorkers_eq, (saveK_hist _ _).2]
      rw [ht]
      refine hn.more ?_
      rw [histAt_append]
      have : opsOf ((ids (saveK sp sd false)).map Ev.stop).reverse = [] := by
        simp [opsOf]
      rw [this]; rfl
  | _ => simp at hp

/-! ### One pass of the loop as a sequence of elementary changes -/

theorem micros_handleAll (xs : List Mail) (s : St) : Micros sp (fun _ => True) s (handleAll sp xs s).1 := by
  induction xs generalizing s with
  | nil => exact .refl s
  | cons x xs ih =>
    simp only [handleAll]
    split
    · exact micros_andThen ((micros_handleMsg s x.w x.m x.t).mono (fun _ _ => trivial)) (fun _ => ih _)
    · exact ih s

theorem micros_receive (s : St) (mail : List Mail) : Micros sp (fun _ => True) s (receive sp s mail).1 :=
  micros_andThen (micros_handleAll mail s) (fun _ => micros_saveK _ _)

theorem micros_handOutAll (l : List (Nat × Work × Int)) (s : St) : Micros sp (fun _ => True) s (handOutAll sp l s).1 := by
  induction l generalizing s with
  | nil => exact .refl s
  | cons x l ih =>
    obtain ⟨w, wk, t⟩ := x
    simp only [handOutAll]
    split
    · exact .refl s
    · exact micros_andThen ((micros_handOut s wk w t).mono (fun _ _ => trivial)) (fun _ => ih _)

theorem micros_iter (s : St) (it : Iter) : Micros sp (fun _ => True) s (iter sp s it).1 := by
  have h1 : Micros sp (fun _ => True) s (andThen (killCancelled sp s) (fun s => receive sp s it.mail)).1 :=
    micros_andThen ((micros_killCancelled s).mono (fun _ _ => trivial)) (fun _ => micros_receive _ _)
  simp only [iter]
  generalize andThen (killCancelled sp s) (fun s => receive sp s it.mail) = x at h1
  obtain ⟨s1, e⟩ := x
  cases e with
  | some e => exact h1
  | none =>
    simp only at h1 ⊢
    generalize it.alloc s1 = y
    cases y with
    | raised cs => exact h1.trans (micros_op s1 (.requestCancel cs) trivial)
    | ok cs work flag p =>
      simp only
      have h2 : Micros sp (fun _ => True) s { (doOp s1 (.requestCancel cs)).1 with pinfo := p } :=
        (h1.trans (micros_op _ _ trivial)).trans (Micro.pinfo _ p).one
      split
      · exact h2
      · simp only [afterAlloc]
        have h3 := h2.trans (micros_handOutAll (work.map fun p => (p.1, p.2, it.t p.1)) _)
        generalize handOutAll sp (work.map fun p => (p.1, p.2, it.t p.1)) { (doOp s1 (.requestCancel cs)).1 with pinfo := p } = z at h3
        obtain ⟨s2, e⟩ := z
        cases e with
        | some e => exact h3
        | none => simp only; split <;> exact h3

theorem mainLoop_tr (its : List Iter) (s : St) : ∃ l, (mainLoop sp its s).1.tr = l ++ s.tr ∧ (its ≠ [] → l ≠ []) := by
  induction its generalizing s with
  | nil => exact ⟨[], rfl, by simp⟩
  | cons it its ih =>
    simp only [mainLoop]
    split
    · exact ⟨[_], rfl, by simp⟩
    · obtain ⟨l, hl, _⟩ := (micros_iter (sp := sp) (emit s (.test (termTest sp s.hist it.e1))) it).tr
      generalize iter sp (emit s (.test (termTest sp s.hist it.e1))) it = x at hl
      obtain ⟨s1, f⟩ := x
      have hl' : s1.tr = (l ++ [.test (termTest sp s.hist it.e1)]) ++ s.tr := by rw [hl]; simp [emit]
      cases f with
      | next =>
        obtain ⟨l2, hl2, _⟩ := ih s1
        exact ⟨l2 ++ (l ++ [.test (termTest sp s.hist it.e1)]), by simp only; rw [hl2, hl']; simp, by simp⟩
      | flagged => exact ⟨_, hl', by simp⟩
      | raised e => exact ⟨_, hl', by simp⟩

end Verif.Manager
