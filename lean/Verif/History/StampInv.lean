import Verif.History.ShapeInv
/-! Facts about the generator stamps and the informed flags on every reachable history. -/
namespace Verif.History

/-- All libEnsemble columns exist and are scalar. -/
structure LibInv (h : Hist) : Prop where
  has : ∀ f ∈ libEFields, f ∈ h.fields
  scalar : LibScalar h.cols

theorem LibInv.of_cols {h h' : Hist} (H : LibInv h) (e : h'.cols = h.cols) : LibInv h' := by
  refine ⟨?_, by rw [e]; exact H.scalar⟩
  intro f hf; unfold Hist.fields; rw [e]; exact H.has f hf

theorem LibInv.extend {h : Hist} (H : LibInv h) (cs) : LibInv (extendCols h cs) := by
  refine ⟨fun f hf => fields_extendCols_mono h cs (H.has f hf), ?_⟩
  unfold extendCols
  split
  · exact H.scalar
  · intro c hc hl
    simp only [appendNewFields, List.mem_append] at hc
    rcases hc with hc | hc
    · exact H.scalar c hc hl
    · have := (List.mem_filter.1 hc).2
      simp only [decide_eq_true_eq] at this
      exact absurd (H.has c.1 hl) this

theorem ensureRoom_cols (h : Hist) (n : Nat) : (ensureRoom h n).cols = h.cols := by
  unfold ensureRoom growH; simp only; split <;> rfl

theorem genFinish_cols (h : Hist) (w d ts t inds n) : (genFinish h w d ts t inds n).1.cols = h.cols := by
  unfold genFinish; split <;> rfl

theorem apply_cols (h : Hist) (op : Op) :
    (apply h op).1.cols = h.cols ∨ ∃ cs, (apply h op).1.cols = (extendCols h cs).cols := by
  cases op with
  | simReturn inds d t k =>
    obtain ⟨e, le, heq, _⟩ := updateF_shape h inds d t k
    have hf := (simRows_frame t d 0 inds (preSim h d)).2.1
    simp only [apply]
    rw [heq]
    cases d with
    | none => exact Or.inl hf
    | some d => exact Or.inr ⟨d.cols, hf⟩
  | giveSim inds w t k =>
    left; simp only [apply]; unfold updateXOut
    split
    · rfl
    · simp only; split
      · split <;> rfl
      · rfl
  | giveGen inds t =>
    left; simp only [apply]; unfold updateToGen
    split
    · rfl
    · split <;> rfl
  | genReturn w d ts t =>
    simp only [apply]
    cases hne : d.rows.isEmpty with
    | true => left; unfold updateXIn; simp [hne]
    | false =>
      right
      refine ⟨d.cols, ?_⟩
      rcases updateXIn_cases h w d ts t hne with ⟨_, h3, hh3, heq⟩ | ⟨_, heq⟩ | ⟨_, n, heq⟩ | ⟨_, n, inds, _, heq⟩
      · rw [heq, genFinish_cols, hh3]; exact ensureRoom_cols _ _
      · rw [heq]
      · rw [heq]; exact ensureRoom_cols _ _
      · rw [heq, genFinish_cols]; exact ensureRoom_cols _ _
  | requestCancel inds => exact Or.inl rfl
  | markKill inds => exact Or.inl rfl

theorem apply_lib {h : Hist} (H : LibInv h) (op : Op) : LibInv (apply h op).1 := by
  rcases apply_cols h op with e | ⟨cs, e⟩
  · exact H.of_cols e
  · exact (H.extend cs).of_cols e

theorem run_lib {h : Hist} (H : LibInv h) (ops : List Op) : LibInv (run h ops).1 := by
  induction ops generalizing h with
  | nil => exact H
  | cons op ops ih =>
    have ha := apply_lib H op
    unfold run
    split
    · rename_i heq; rw [heq] at ha; exact ha
    · rename_i heq; rw [heq] at ha; exact ih ha

theorem init_lib (cols L H0 safe) (hc : HasLibCols cols) (hs : LibScalar cols) (hs0 : LibScalar H0.cols) :
    LibInv (init cols L H0 safe) := by
  refine ⟨init_cols_lib cols L H0 safe hc, ?_⟩
  unfold init
  simp only
  split
  · exact hs
  · intro c hc hl
    rcases List.mem_append.1 hc with h | h
    · exact hs0 c h hl
    · exact hs c (newCols_mem h) hl

theorem protected_lib {g : Field} (hg : g ∈ protectedFields) : g ∈ libEFields := by
  simp only [protectedFields, List.mem_cons, List.not_mem_nil, or_false] at hg
  rcases hg with h | h | h | h | h | h | h | h | h | h | h <;> subst h <;> simp [libEFields]

/-- Rows that an operation adds to the allocation come from a generator return and carry the
initial values of the protected columns, except for the stamp of that return. -/
theorem apply_new_protected {h : Hist} (hsafe : h.safeMode = true) (op : Op) (g : Field)
    (hg : g ∈ protectedFields) (i : Nat) (hi : h.rows.length ≤ i) (hi2 : i < (apply h op).1.rows.length) :
    ∃ w d ts t, op = .genReturn w d ts t ∧
      (cell (apply h op).1.rows i g = some (freshRow (apply h op).1.cols g) ∨
       ((apply h op).2 = none ∧ ((g = .genWorker ∧ cell (apply h op).1.rows i g = some (.s w)) ∨
        (g = .genStartedTime ∧ cell (apply h op).1.rows i g = some (.s ts)) ∨
        (g = .genEndedTime ∧ cell (apply h op).1.rows i g = some (.s t))))) := by
  cases op with
  | simReturn inds d t k =>
    exfalso
    obtain ⟨e, le, heq, _⟩ := updateF_shape h inds d t k
    have hf := (simRows_frame t d 0 inds (preSim h d)).2.2.2.1
    simp only [apply] at hi2
    rw [heq] at hi2
    rw [length_preSim] at hf
    simp only at hi2
    omega
  | giveSim inds w t k =>
    exfalso
    simp only [apply] at hi2
    have : (updateXOut h inds w t k).1.rows.length = h.rows.length := by
      unfold updateXOut
      split
      · rfl
      · simp only; split
        · split <;> simp
        · simp
    omega
  | giveGen inds t =>
    exfalso
    simp only [apply] at hi2
    have : (updateToGen h inds t).1.rows.length = h.rows.length := by
      unfold updateToGen
      split
      · rfl
      · split
        · rfl
        · simp only [length_updAll]
          split
          · simp
          · split <;> simp
    omega
  | genReturn w d ts t =>
    refine ⟨w, d, ts, t, rfl, ?_⟩
    simp only [apply] at hi2 ⊢
    cases hne : d.rows.isEmpty with
    | true => exfalso; unfold updateXIn at hi2; simp [hne] at hi2; omega
    | false =>
      have hgs : g ≠ .simId := by intro e; subst e; simp [protectedFields] at hg
      have key : ∀ (h3 : Hist) inds n, h3.safeMode = true → i < h3.rows.length →
          cell h3.rows i g = some (freshRow h3.cols g) →
          (cell (genFinish h3 w d ts t inds n).1.rows i g = some (freshRow (genFinish h3 w d ts t inds n).1.cols g) ∨
            ((genFinish h3 w d ts t inds n).2 = none ∧
              ((g = .genWorker ∧ cell (genFinish h3 w d ts t inds n).1.rows i g = some (.s w)) ∨
              (g = .genStartedTime ∧ cell (genFinish h3 w d ts t inds n).1.rows i g = some (.s ts)) ∨
              (g = .genEndedTime ∧ cell (genFinish h3 w d ts t inds n).1.rows i g = some (.s t))))) := by
        intro h3 inds n hs hl hc
        rw [genFinish_cols]
        rcases genFinish_protected h3 w d ts t inds n hs g hg i with h1 | ⟨h1, _, _, h2⟩
        · left; rw [h1, hc]
        · right; exact ⟨h1, h2⟩
      have hx : (extendCols h d.cols).rows.length = h.rows.length := by simp
      have hroom : ∀ n, i < (ensureRoom (extendCols h d.cols) n).rows.length →
          cell (ensureRoom (extendCols h d.cols) n).rows i g =
            some (freshRow (extendCols h d.cols).cols g) := by
        intro n hl
        unfold cell
        rw [get_ensureRoom_new _ _ _ (by omega) hl]; rfl
      rcases updateXIn_cases h w d ts t hne with ⟨_, h3, hh3, heq⟩ | ⟨_, heq⟩ | ⟨_, n, heq⟩ | ⟨_, n, inds, _, heq⟩
      · rw [heq] at hi2 ⊢
        rw [genFinish_length] at hi2
        have hl2 : i < (ensureRoom (extendCols h d.cols) d.rows.length).rows.length := by
          rw [hh3] at hi2; simpa using hi2
        apply key
        · rw [hh3]; simpa using hsafe
        · exact hi2
        · rw [hh3]
          simp only
          rw [cell_numberRows_ne _ _ _ _ _ hgs, hroom _ hl2, ensureRoom_cols]
      · exfalso; rw [heq] at hi2; simp only at hi2; omega
      · rw [heq] at hi2 ⊢
        left
        rw [hroom n hi2, ensureRoom_cols]
      · rw [heq] at hi2 ⊢
        rw [genFinish_length] at hi2
        apply key
        · simpa using hsafe
        · exact hi2
        · rw [hroom n hi2, ensureRoom_cols]
  | requestCancel inds => exfalso; simp [apply] at hi2; omega
  | markKill inds => exfalso; simp [apply] at hi2; omega

/-- Informed rows have ended. -/
def InformedEnded (h : Hist) : Prop := ∀ i, i < h.rows.length →
  cell h.rows i .genInformed ≠ some (.s 0) → cell h.rows i .simEnded ≠ some (.s 0)

theorem apply_informed {h : Hist} (HL : LibInv h) (hsafe : h.safeMode = true) (H : InformedEnded h) (op : Op) :
    InformedEnded (apply h op).1 := by
  intro i hi hinf
  rcases Nat.lt_or_ge i h.rows.length with hlt | hge
  · have p1 := apply_protected h hsafe op .genInformed (by simp [protectedFields]) HL.has i hlt
    have p2 := apply_protected h hsafe op .simEnded (by simp [protectedFields]) HL.has i hlt
    have hne : cell h.rows i .simEnded ≠ some (.s 0) → cell (apply h op).1.rows i .simEnded ≠ some (.s 0) := by
      intro h0
      rcases p2 with p2 | p2
      · rw [p2]; exact h0
      · cases op <;> simp [ProtectedChange] at p2
        rw [p2.2]; simp
    rcases p1 with p1 | p1
    · rw [p1] at hinf; exact hne (H i hlt hinf)
    · cases op <;> simp [ProtectedChange] at p1
      exact hne p1.2.1
  · exfalso
    obtain ⟨w, d, ts, t, rfl, h1 | h1⟩ := apply_new_protected hsafe op .genInformed (by simp [protectedFields]) i hge hi
    · rw [h1, freshRow_lib _ (apply_lib HL _).scalar _ (by simp [libEFields]) (by simp) (by simp) (by simp)] at hinf
      exact hinf rfl
    · simp at h1

theorem run_informed {h : Hist} (HL : LibInv h) (hsafe : h.safeMode = true) (H : InformedEnded h) (ops : List Op) :
    InformedEnded (run h ops).1 := by
  induction ops generalizing h with
  | nil => exact H
  | cons op ops ih =>
    have h1 := apply_informed HL hsafe H op
    have h2 := apply_lib HL op
    have h3 := (apply_struct h op).1
    unfold run
    split
    · rename_i heq; rw [heq] at h1; exact h1
    · rename_i heq; rw [heq] at h1 h2 h3; exact ih h2 (h3.trans hsafe) h1

/-- The three fields stamped on a row when it is generated. -/
def stampFields : List Field := [.genWorker, .genStartedTime, .genEndedTime]

theorem apply_stamped {h : Hist} (HL : LibInv h) (hsafe : h.safeMode = true) (op : Op) (i : Nat)
    (hi : i < h.rows.length) (hst : cell h.rows i .genEndedTime ≠ some (.s 0)) :
    ∀ f ∈ stampFields, cell (apply h op).1.rows i f = cell h.rows i f := by
  intro f hf
  have hfp : f ∈ protectedFields := by
    simp only [stampFields, List.mem_cons, List.not_mem_nil, or_false] at hf
    rcases hf with h | h | h <;> subst h <;> simp [protectedFields]
  rcases apply_protected h hsafe op f hfp HL.has i hi with h1 | h1
  · exact h1
  · exfalso
    simp only [stampFields, List.mem_cons, List.not_mem_nil, or_false] at hf
    cases op with
    | genReturn w d ts t => exact hst h1.2.1
    | _ => rcases hf with h | h | h <;> subst h <;> simp [ProtectedChange] at h1

theorem run_stamped {h : Hist} (HL : LibInv h) (hsafe : h.safeMode = true) (ops : List Op) (i : Nat)
    (hi : i < h.rows.length) (hst : cell h.rows i .genEndedTime ≠ some (.s 0)) :
    ∀ f ∈ stampFields, cell (run h ops).1.rows i f = cell h.rows i f := by
  induction ops generalizing h with
  | nil => intro f _; rfl
  | cons op ops ih =>
    have h1 := apply_stamped HL hsafe op i hi hst
    have h2 := apply_lib HL op
    have h3 := apply_struct h op
    intro f hf
    unfold run
    split
    · rename_i heq; rw [heq] at h1; exact h1 f hf
    · rename_i heq
      rw [heq] at h1 h2 h3
      rw [ih h2 (h3.1.trans hsafe) (by omega) (by rw [h1 _ (by simp [stampFields])]; exact hst) f hf]
      exact h1 f hf

/-- Rows beyond the visible part carry no generator stamp. -/
def HiddenUnstamped (h : Hist) : Prop := ∀ i, h.index ≤ i → i < h.rows.length →
  cell h.rows i .genEndedTime = some (.s 0)

/-- Normal form of a generator return that is not refused for a gap. -/
theorem updateXIn_form {h : Hist} (H : IdInv h) (w : Nat) (d : Rec) (ts t : Int)
    (hs : IdSafe (.genReturn w d ts t)) (hne : d.rows ≠ []) (hg : (updateXIn h w d ts t).2 ≠ some .gap) :
    ∃ (h3 : Hist) (inds : List Nat) (N : Nat), updateXIn h w d ts t = genFinish h3 w d ts t inds N ∧
      h3.index = h.index ∧ h3.safeMode = h.safeMode ∧ h3.cols = (extendCols h d.cols).cols ∧
      h.index + N ≤ h3.rows.length ∧ (∀ i ∈ inds, i < h3.rows.length) ∧
      (∀ i, h.index ≤ i → (i ∈ inds ↔ i < h.index + N)) ∧
      (∀ f ∈ h.fields, f ≠ .simId → ∀ i < h.rows.length, cell h3.rows i f = cell h.rows i f) ∧
      (∀ f, f ≠ .simId → ∀ i, h.rows.length ≤ i → i < h3.rows.length →
        cell h3.rows i f = some (freshRow (extendCols h d.cols).cols f)) := by
  have hne' : d.rows.isEmpty = false := by simpa using hne
  have H1 := H.extend d.cols
  have hx : (extendCols h d.cols).rows.length = h.rows.length := by simp
  have hxi : (extendCols h d.cols).index = h.index := by simp
  have hold : ∀ n, ∀ f ∈ h.fields, ∀ i < h.rows.length,
      cell (ensureRoom (extendCols h d.cols) n).rows i f = cell h.rows i f := by
    intro n f hf i hi
    rw [cell_ensureRoom_old _ _ _ _ (by omega), cell_extendCols h d.cols hf]
  have hnew : ∀ n, ∀ f, ∀ i, h.rows.length ≤ i → i < (ensureRoom (extendCols h d.cols) n).rows.length →
      cell (ensureRoom (extendCols h d.cols) n).rows i f =
            some (freshRow (extendCols h d.cols).cols f) := by
    intro n f i h1 h2
    unfold cell
    rw [get_ensureRoom_new _ _ _ (by omega) h2]; rfl
  by_cases hsim : Field.simId ∈ d.fields
  · -- generator supplies ids
    have hids : ∀ r ∈ d.rows, ∃ n : Nat, r .simId = .s n := hs.2 hsim
    have hnn : ∀ x ∈ d.rows.map (·.sid), 0 ≤ x := by
      intro x hx
      obtain ⟨r, hr, rfl⟩ := List.mem_map.1 hx
      obtain ⟨n, hn⟩ := hids r hr
      simp [Row.sid, hn]
    unfold updateXIn at hg ⊢
    simp only [hne', Bool.false_eq_true, if_false, hsim, not_true_eq_false] at hg ⊢
    split at hg
    · rename_i hgapb
      rw [if_pos hgapb]
      have hgap : ∀ x, ((extendCols h d.cols).index : Int) ≤ x → x ≤ maxInt (d.rows.map (·.sid)) → x ∈ d.rows.map (·.sid) := by
        intro x hx1 hx2
        have := List.all_eq_true.1 hgapb x ((mem_intRange _ _ _).2 ⟨hx1, hx2⟩)
        simpa using this
      have hnum := setdiff_length (d.rows.map (·.sid)) ((extendCols h d.cols).rows.map (·.sid)) (extendCols h d.cols).index hnn hgap
        (fun x h0 hx => H1.sid_lt x h0 hx) (fun x hx => H1.sid_ge x hx)
      generalize hN : (setdiff (d.rows.map (·.sid)) ((extendCols h d.cols).rows.map (·.sid))).length = N at hnum
      have hroom := ensureRoom_room (extendCols h d.cols) N H1.room
      have hbound : ∀ x ∈ d.rows.map (fun r => Row.sid r), 0 ≤ x ∧
          x < ((ensureRoom (extendCols h d.cols) N).rows.length : Int) := by
        intro x hx
        have h1 := hnn x hx
        have h3 := le_maxInt _ _ hx
        refine ⟨h1, ?_⟩
        omega
      rw [resolveAll_nonneg _ _ hbound]
      simp only
      have hmem : ∀ i, i ∈ (d.rows.map (·.sid)).map Int.toNat ↔ (i : Int) ∈ d.rows.map (·.sid) := by
        intro i
        rw [List.mem_map]
        constructor
        · rintro ⟨x, hx, rfl⟩
          have := hnn x hx
          have e : ((x.toNat : Nat) : Int) = x := by omega
          rw [e]; exact hx
        · intro hx; exact ⟨i, hx, by simp⟩
      refine ⟨ensureRoom (extendCols h d.cols) N, _, N, rfl, by simp, by simp, ensureRoom_cols _ _, by omega, ?_, ?_, ?_, ?_⟩
      · intro i hi
        have := (hbound i ((hmem i).1 hi)).2
        omega
      · intro i hi
        rw [hmem]
        constructor
        · intro hx
          have := le_maxInt _ _ hx
          omega
        · intro hx
          apply hgap <;> omega
      · intro f hf _ i hi; exact hold N f hf i hi
      · intro f _ i h1 h2; exact hnew N f i h1 h2
    · exact absurd rfl hg
  · rcases updateXIn_cases h w d ts t hne' with ⟨_, h3, hh3, heq⟩ | ⟨hin, _⟩ | ⟨hin, _⟩ | ⟨hin, _⟩
    · have hroom := ensureRoom_room (extendCols h d.cols) d.rows.length H1.room
      have hl3 : h3.rows.length = (ensureRoom (extendCols h d.cols) d.rows.length).rows.length := by
        rw [hh3]; simp
      refine ⟨h3, _, _, heq, by rw [hh3]; simp, by rw [hh3]; simp, by rw [hh3]; exact ensureRoom_cols _ _,
        by rw [hl3]; omega, ?_, ?_, ?_, ?_⟩
      · intro i hi
        rw [List.mem_range'_1] at hi
        omega
      · intro i hi; rw [List.mem_range'_1]; omega
      · intro f hf hfs i hi
        rw [hh3]; simp only
        rw [cell_numberRows_ne _ _ _ _ _ hfs]; exact hold _ f hf i hi
      · intro f hfs i h1 h2
        rw [hl3] at h2
        rw [hh3]; simp only
        rw [cell_numberRows_ne _ _ _ _ _ hfs]; exact hnew _ f i h1 h2
    · exact absurd hin hsim
    · exact absurd hin hsim
    · exact absurd hin hsim

/-- An accepted generator return stamps exactly the rows that become visible (among those that were
hidden before). -/
theorem genReturn_stamps {h : Hist} (H : IdInv h) (HL : LibInv h) (hsafe : h.safeMode = true)
    (HU : HiddenUnstamped h) (w d ts t) (hs : IdSafe (.genReturn w d ts t))
    (hok : (updateXIn h w d ts t).2 = none) :
    (∀ i, h.index ≤ i → i < (updateXIn h w d ts t).1.index →
      cell (updateXIn h w d ts t).1.rows i .genWorker = some (.s w) ∧
      cell (updateXIn h w d ts t).1.rows i .genStartedTime = some (.s ts) ∧
      cell (updateXIn h w d ts t).1.rows i .genEndedTime = some (.s t)) ∧
    HiddenUnstamped (updateXIn h w d ts t).1 := by
  by_cases hne : d.rows = []
  · have : updateXIn h w d ts t = (h, none) := by unfold updateXIn; simp [hne]
    rw [this]
    exact ⟨fun i h1 h2 => by simp at h2; omega, HU⟩
  · obtain ⟨h3, inds, N, heq, hix, hsf, hcol, hN, hlt, hin, hold, hnew⟩ :=
      updateXIn_form H w d ts t hs hne (by rw [hok]; simp)
    have HL1 := HL.extend d.cols
    have h30 : ∀ i, h.index ≤ i → i < h3.rows.length → cell h3.rows i .genEndedTime = some (.s 0) := by
      intro i h1 h2
      rcases Nat.lt_or_ge i h.rows.length with h4 | h4
      · rw [hold _ (HL.has _ (by simp [libEFields])) (by simp) i h4]; exact HU i h1 h4
      · rw [hnew _ (by simp) i h4 h2, freshRow_lib _ HL1.scalar _ (by simp [libEFields]) (by simp) (by simp) (by simp)]
    rw [heq] at hok ⊢
    rw [genFinish_index, hok] 
    simp only [if_true]
    unfold genFinish at hok ⊢
    have hcp := fun f hf i => cell_genColumns_protected (inds.zip d.rows) d.cols h3.rows f hf i
    have hlen := genColumns_length h3.safeMode (inds.zip d.rows) d.cols h3.rows
    rw [hsf, hsafe] at hok hlen ⊢
    generalize hgc : genColumns true (inds.zip d.rows) d.cols h3.rows = out at *
    obtain ⟨rows', e⟩ := out
    cases e with
    | some e => simp at hok
    | none =>
      simp only at hcp hlen ⊢
      have hfirst : ∀ i, h.index ≤ i → i < h3.rows.length →
          (i ∈ inds.filter (fun i => decide ((rows'[i]?).map (· .genEndedTime) = some (.s 0))) ↔ i < h.index + N) := by
        intro i h1 h2
        rw [List.mem_filter, hin i h1]
        have := hcp .genEndedTime (by simp [protectedFields]) i
        rw [h30 i h1 h2] at this
        unfold cell at this
        simp [this]
      constructor
      · intro i h1 h2
        have hl : i < h3.rows.length := by omega
        have hm := (hfirst i h1 hl).2 (by omega)
        have hl' : i < rows'.length := by omega
        refine ⟨?_, ?_, ?_⟩ <;>
          exact get_updAll_const _ _ _ (by intro r; simp [stampRow, Row.set]) _ _ _ hl' hm
      · intro i h1 h2
        simp only [length_updAll] at h1 h2 ⊢
        have hm : i ∉ inds.filter (fun i => decide ((rows'[i]?).map (· .genEndedTime) = some (.s 0))) := by
          intro hm
          have := (hfirst i (by omega) (by omega)).1 hm
          omega
        rw [cell_updAll _ _ _ _ _ hm, hcp _ (by simp [protectedFields])]
        exact h30 i (by omega) (by omega)

/-- Only generator returns make rows visible. -/
theorem apply_index (h : Hist) (op : Op) (hop : ∀ w d ts t, op ≠ .genReturn w d ts t) :
    (apply h op).1.index = h.index := by
  cases op with
  | simReturn inds d t k =>
    obtain ⟨e, le, heq, _⟩ := updateF_shape h inds d t k
    simp only [apply]; rw [heq]
    exact (simRows_frame t d 0 inds (preSim h d)).1.trans (index_preSim h d)
  | giveSim inds w t k =>
    simp only [apply]; unfold updateXOut
    split
    · rfl
    · simp only; split
      · split <;> rfl
      · rfl
  | giveGen inds t =>
    simp only [apply]; unfold updateToGen
    split
    · rfl
    · split <;> rfl
  | genReturn w d ts t => exact absurd rfl (hop w d ts t)
  | requestCancel inds => rfl
  | markKill inds => rfl

theorem updateXIn_index_err (h : Hist) (w d ts t) (he : (updateXIn h w d ts t).2 ≠ none) :
    (updateXIn h w d ts t).1.index = h.index := by
  cases hne : d.rows.isEmpty with
  | true => unfold updateXIn at he; simp [hne] at he
  | false =>
    rcases updateXIn_cases h w d ts t hne with ⟨_, h3, hh3, heq⟩ | ⟨_, heq⟩ | ⟨_, n, heq⟩ | ⟨_, n, inds, _, heq⟩
    · rw [heq] at he ⊢; rw [genFinish_index, if_neg he, hh3]; simp
    · rw [heq]; simp
    · rw [heq]; simp
    · rw [heq] at he ⊢; rw [genFinish_index, if_neg he]; simp

theorem apply_hidden {h : Hist} (H : IdInv h) (HL : LibInv h) (hsafe : h.safeMode = true)
    (HU : HiddenUnstamped h) (op : Op) (hs : IdSafe op) (hok : (apply h op).2 = none) :
    HiddenUnstamped (apply h op).1 := by
  by_cases hg : ∃ w d ts t, op = .genReturn w d ts t
  · obtain ⟨w, d, ts, t, rfl⟩ := hg
    exact (genReturn_stamps H HL hsafe HU w d ts t hs hok).2
  · have hix := apply_index h op (fun w d ts t e => hg ⟨w, d, ts, t, e⟩)
    intro i h1 h2
    rw [hix] at h1
    rcases Nat.lt_or_ge i h.rows.length with h3 | h3
    · rcases apply_protected h hsafe op .genEndedTime (by simp [protectedFields]) HL.has i h3 with p | p
      · rw [p]; exact HU i h1 h3
      · exfalso
        cases op <;> simp [ProtectedChange] at p
        exact hg ⟨_, _, _, _, rfl⟩
    · obtain ⟨w, d, ts, t, rfl, _⟩ := apply_new_protected hsafe op .genEndedTime (by simp [protectedFields]) i h3 h2
      exact absurd ⟨w, d, ts, t, rfl⟩ hg

/-- Which generator return produced a row: first half of the claim about stamps over a whole run. -/
theorem run_stamps {h : Hist} (H : IdInv h) (HL : LibInv h) (hsafe : h.safeMode = true)
    (HU : HiddenUnstamped h) (ops : List Op) (hs : ∀ op ∈ ops, IdSafe op)
    (ht : ∀ op ∈ ops, ∀ w d ts t, op = .genReturn w d ts t → t ≠ 0) (i : Nat)
    (h1 : h.index ≤ i) (h2 : i < (run h ops).1.index) :
    ∃ (pre : List Op) (w : Nat) (d : Rec) (ts t : Int) (post : List Op), ops = pre ++ .genReturn w d ts t :: post ∧
      (run h pre).1.index ≤ i ∧ (run h (pre ++ [.genReturn w d ts t])).2 = none ∧
      i < (run h (pre ++ [.genReturn w d ts t])).1.index ∧
      cell (run h ops).1.rows i .genWorker = some (.s w) ∧
      cell (run h ops).1.rows i .genStartedTime = some (.s ts) ∧
      cell (run h ops).1.rows i .genEndedTime = some (.s t) := by
  induction ops generalizing h with
  | nil => simp [run] at h2; omega
  | cons op ops ih =>
    cases herr : (apply h op).2 with
    | some e =>
      exfalso
      have hr : run h (op :: ops) = ((apply h op).1, some e) := by
        unfold run; split <;> rename_i heq <;> rw [heq] at herr ⊢ <;> simp_all
      rw [hr] at h2
      simp only at h2
      by_cases hg : ∃ w d ts t, op = .genReturn w d ts t
      · obtain ⟨w, d, ts, t, rfl⟩ := hg
        simp only [apply] at herr h2
        rw [updateXIn_index_err h w d ts t (by rw [herr]; simp)] at h2; omega
      · rw [apply_index h op (fun w d ts t e => hg ⟨w, d, ts, t, e⟩)] at h2; omega
    | none =>
      have hr : ∀ l, run h (op :: l) = run (apply h op).1 l := by
        intro l
        rw [run]; split <;> rename_i heq <;> rw [heq] at herr ⊢ <;> simp_all
      have hsop := hs op List.mem_cons_self
      have Ha := (apply_id H op hsop).2 herr
      have HLa := apply_lib HL op
      have hsa := (apply_struct h op).1.trans hsafe
      have HUa := apply_hidden H HL hsafe HU op hsop herr
      rw [hr] at h2 ⊢
      rcases Nat.lt_or_ge i (apply h op).1.index with h3 | h3
      · -- this operation produced the row
        have hg : ∃ w d ts t, op = .genReturn w d ts t := by
          apply Classical.byContradiction
          intro hg
          rw [apply_index h op (fun w d ts t e => hg ⟨w, d, ts, t, e⟩)] at h3; omega
        obtain ⟨w, d, ts, t, rfl⟩ := hg
        have hstamp := (genReturn_stamps H HL hsafe HU w d ts t hsop herr).1 i h1 h3
        have htne := ht _ List.mem_cons_self w d ts t rfl
        have hkeep := run_stamped HLa hsa ops i (by have := Ha.room; omega)
          (by simp only [apply]; rw [hstamp.2.2]; intro e; injection e with e; injection e with e; exact htne e)
        refine ⟨[], w, d, ts, t, ops, rfl, h1, ?_, ?_, ?_, ?_, ?_⟩
        · rw [List.nil_append, hr]; rfl
        · rw [List.nil_append, hr]; exact h3
        · rw [hkeep _ (by simp [stampFields])]; exact hstamp.1
        · rw [hkeep _ (by simp [stampFields])]; exact hstamp.2.1
        · rw [hkeep _ (by simp [stampFields])]; exact hstamp.2.2
      · obtain ⟨pre, w, d, ts, t, post, he, a1, a2, a3, a4⟩ := ih Ha HLa hsa HUa
          (fun o ho => hs o (List.mem_cons_of_mem _ ho)) (fun o ho => ht o (List.mem_cons_of_mem _ ho)) h3 h2
        refine ⟨op :: pre, w, d, ts, t, post, by rw [he]; rfl, ?_, ?_, ?_, a4⟩
        · rw [hr]; exact a1
        · rw [List.cons_append, hr]; exact a2
        · rw [List.cons_append, hr]; exact a3

end Verif.History
