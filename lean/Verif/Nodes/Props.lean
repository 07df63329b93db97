import Verif.Nodes.Lemmas
/-!
C47 and C53: node lists of batch schedulers.
-/
namespace Verif.Nodes
open Verif.Labels (Str str int str_digits int_str)

/-! ### What a compressed list means (specification) -/

/-- A range of node numbers, written with at least `w` digits. -/
structure Rng where
  lo : Nat
  hi : Nat
  w : Nat

/-- The numbers of a range. -/
def Rng.numbers (r : Rng) : List Nat := List.range' r.lo (r.hi + 1 - r.lo)

/-- How a range is written: `a` or `a-b`. -/
def Rng.text (r : Rng) : Str :=
  if r.lo = r.hi then zfill r.w (str r.lo) else zfill r.w (str r.lo) ++ '-' :: zfill r.w (str r.hi)

/-- One entry of a list: a name, or `prefix[ranges]suffix`. -/
inductive Item where
  | name (s : Str)
  | block (pre : Str) (rs : List Rng) (suf : Str)

def Item.text : Item → Str
  | .name s => s
  | .block pre rs suf => pre ++ '[' :: List.intercalate [','] (rs.map Rng.text) ++ ']' :: suf

/-- The nodes named by an entry: each number of each range once, in order, with its zeros. -/
def Item.nodes : Item → List Str
  | .name s => [s]
  | .block pre rs suf => rs.flatMap (fun r => r.numbers.map (fun n => pre ++ zfill r.w (str n) ++ suf))

/-- Names are free of commas and opening brackets; ranges go upwards. -/
def Item.Valid : Item → Prop
  | .name s => s ≠ [] ∧ ',' ∉ s ∧ '[' ∉ s
  | .block pre rs suf => ',' ∉ pre ∧ '[' ∉ pre ∧ ',' ∉ suf ∧ '[' ∉ suf ∧ rs ≠ [] ∧ ∀ r ∈ rs, r.lo ≤ r.hi

def listText (items : List Item) : Str := List.intercalate [','] (items.map Item.text)

/-! ### Helper lemmas -/

theorem notin_zfill {c : Char} (hc : c.isDigit = false) (w n : Nat) : c ∉ zfill w (str n) := by
  intro h
  rw [zfill_digits h] at hc
  cases hc

theorem notin_text {c : Char} (hc : c.isDigit = false) (hm : c ≠ '-') (r : Rng) : c ∉ r.text := by
  unfold Rng.text
  split
  · exact notin_zfill hc _ _
  · simp [notin_zfill hc, hm]

theorem zfill_of_le {w a n : Nat} (h : a ≤ n) : zfill (zfill w (str a)).length (str n) = zfill w (str n) := by
  have h1 := str_length_mono h
  rw [zfill_length]
  unfold zfill
  congr 2
  omega

theorem rangeSplit_text {r : Rng} (h : r.lo ≤ r.hi) : rangeSplit r.text = some (r.lo, r.hi + 1, (zfill r.w (str r.lo)).length) := by
  have hd : ('-' : Char).isDigit = false := by decide
  unfold Rng.text rangeSplit
  split
  · rename_i e
    rw [splitFirst_none (notin_zfill hd _ _)]
    simp [toInt_zfill, ← e]
  · rw [splitFirst_append _ (notin_zfill hd _ _)]
    simp only [Option.getD_some, toInt_zfill]
    rw [if_neg (by omega)]

theorem rangeNames_text (pre suf : Str) {r : Rng} :
    rangeNames pre suf (r.lo, r.hi + 1, (zfill r.w (str r.lo)).length) = r.numbers.map (fun n => pre ++ zfill r.w (str n) ++ suf) := by
  unfold rangeNames Rng.numbers
  apply List.map_congr_left
  intro n hn
  rw [List.mem_range'_1] at hn
  simp only
  rw [zfill_of_le hn.1]

theorem noderange_text (pre suf : Str) {rs : List Rng} (h : ∀ r ∈ rs, r.lo ≤ r.hi) :
    noderange pre suf (rs.map Rng.text) = some (Item.nodes (.block pre rs suf)) := by
  induction rs with
  | nil => rfl
  | cons r rs ih =>
    rw [List.map_cons, noderange, rangeSplit_text (h r List.mem_cons_self), ih (fun x hx => h x (List.mem_cons_of_mem _ hx))]
    simp only [rangeNames_text, Item.nodes, List.flatMap_cons]

theorem notin_ranges {c : Char} (hc : c.isDigit = false) (hm : c ≠ '-') (hn : c ≠ ',') (rs : List Rng) :
    c ∉ List.intercalate [','] (rs.map Rng.text) := by
  induction rs with
  | nil => simp
  | cons r rs ih =>
    cases rs with
    | nil => simp [notin_text hc hm]
    | cons r' rs =>
      rw [List.map_cons, List.map_cons, List.intercalate_cons_cons]
      simp only [List.mem_append, List.mem_singleton, not_or]
      exact ⟨⟨notin_text hc hm r, hn⟩, ih⟩

theorem expandPart_text {it : Item} (h : it.Valid) : expandPart it.text = some it.nodes := by
  cases it with
  | name s =>
    unfold expandPart Item.text
    rw [splitFirst_none h.2.2]
    rfl
  | block pre rs suf =>
    obtain ⟨_, h2, _, _, h5, h6⟩ := h
    show expandPart (pre ++ '[' :: List.intercalate [','] (rs.map Rng.text) ++ ']' :: suf) = _
    unfold expandPart
    rw [List.append_assoc, List.cons_append, splitFirst_append _ h2]
    simp only
    rw [splitFirst_append _ (notin_ranges (by decide) (by decide) (by decide) rs)]
    simp only
    rw [splitAll_eq, Verif.Labels.cutAt_intercalate (by simpa using h5) (by
      intro s hs
      obtain ⟨r, _, rfl⟩ := List.mem_map.mp hs
      exact notin_text (by decide) (by decide) r), noderange_text _ _ h6]

theorem parts_item {it : Item} (h : it.Valid) (r acc : Str) {fuel : Nat} (hf : (it.text ++ r).length ≤ fuel) :
    ∃ fuel', r.length ≤ fuel' ∧ parts fuel (it.text ++ r) acc = parts fuel' r (acc ++ it.text) := by
  cases it with
  | name s => exact parts_plain h.2.1 h.2.2 r acc fuel hf
  | block pre rs suf =>
    obtain ⟨h1, h2, h3, h4, _, _⟩ := h
    have e : Item.text (.block pre rs suf) ++ r =
        pre ++ ('[' :: List.intercalate [','] (rs.map Rng.text) ++ ']' :: (suf ++ r)) := by
      simp [Item.text]
    rw [e] at hf ⊢
    obtain ⟨f1, g1, k1⟩ := parts_plain h1 h2 _ acc fuel hf
    obtain ⟨f2, g2, k2⟩ := parts_bracket (notin_ranges (by decide) (by decide) (by decide) rs) (suf ++ r) (acc ++ pre) g1
    obtain ⟨f3, g3, k3⟩ := parts_plain h3 h4 r (acc ++ pre ++ ('[' :: List.intercalate [','] (rs.map Rng.text) ++ [']'])) f2 g2
    refine ⟨f3, g3, ?_⟩
    rw [k1, k2, k3]
    congr 1
    simp [Item.text]

theorem text_ne_nil {it : Item} (h : it.Valid) : it.text ≠ [] := by
  cases it with
  | name s => exact h.1
  | block pre rs suf => simp [Item.text]

theorem parts_list {items : List Item} (h : ∀ it ∈ items, it.Valid) (fuel : Nat) (hf : (listText items).length ≤ fuel) :
    parts fuel (listText items) [] = items.map Item.text := by
  induction items generalizing fuel with
  | nil =>
    have : listText [] = [] := rfl
    rw [this]
    cases fuel <;> simp [parts]
  | cons it items ih =>
    have hv := h it List.mem_cons_self
    cases items with
    | nil =>
      have e : listText [it] = it.text ++ [] := by simp [listText]
      rw [e] at hf ⊢
      obtain ⟨f1, _, k1⟩ := parts_item hv [] [] hf
      rw [k1]
      cases f1 <;> simp [parts, text_ne_nil hv]
    | cons it' items =>
      have e : listText (it :: it' :: items) = it.text ++ (',' :: listText (it' :: items)) := by
        simp [listText, List.intercalate_cons_cons]
      rw [e] at hf ⊢
      obtain ⟨f1, g1, k1⟩ := parts_item hv _ [] hf
      rw [k1]
      cases f1 with
      | zero => simp at g1
      | succ f1 =>
        simp only [parts, if_true, List.nil_append]
        rw [if_neg (text_ne_nil hv), ih (fun x hx => h x (List.mem_cons_of_mem _ hx)) f1 (by simp only [List.length_cons] at g1; omega)]
        rfl

theorem expandParts_text {items : List Item} (h : ∀ it ∈ items, it.Valid) :
    expandParts (items.map Item.text) = some (items.flatMap Item.nodes) := by
  induction items with
  | nil => rfl
  | cons it items ih =>
    rw [List.map_cons, expandParts, expandPart_text (h it List.mem_cons_self), ih (fun x hx => h x (List.mem_cons_of_mem _ hx))]
    rfl

theorem slurm_text {items : List Item} (h : ∀ it ∈ items, it.Valid) :
    slurm (listText items) = some (sortBy lexLe (items.flatMap Item.nodes)) := by
  unfold slurm
  rw [parts_list h _ (Nat.le_refl _), expandParts_text h]
  rfl

/-! ## C47 -/

/-- Expanding any list of names and bracketed ranges gives every node of every range exactly as often as it is named (once,
for ranges that do not overlap), with the zeros kept, and nothing else; the result is in the order of strings. -/
theorem C47_expand {items : List Item} (h : ∀ it ∈ items, it.Valid) :
    ∃ ns, slurm (listText items) = some ns ∧ ns.Perm (items.flatMap Item.nodes) ∧ ns.Pairwise (fun a b => lexLe a b = true) :=
  ⟨_, slurm_text h, sortBy_perm _ _, sortBy_sorted lexLe_total lexLe_trans _⟩

/-- The zeros: the name of node `n` is the prefix, then digits with the value `n`, at least as many as the width asks for and
no more zeros than needed, then the suffix. -/
theorem C47_zeros (w n : Nat) : int (zfill w (str n)) = n ∧ (∀ c ∈ zfill w (str n), c.isDigit = true) ∧
    (zfill w (str n)).length = max w (str n).length := ⟨zfill_int w n, fun _ h => zfill_digits h, zfill_length w _⟩

theorem C47_sorted_numbers {pre suf : Str} {rs : List Rng} {L : Nat} (hw : ∀ r ∈ rs, ∀ n ∈ r.numbers, (zfill r.w (str n)).length = L)
    (hn : (rs.flatMap Rng.numbers).Pairwise (· < ·)) : (Item.nodes (.block pre rs suf)).Pairwise (fun a b => lexLe a b = true) := by
  have step : ∀ r ∈ rs, ∀ r' ∈ rs, ∀ n ∈ r.numbers, ∀ m ∈ r'.numbers, n < m →
      lexLe (pre ++ zfill r.w (str n) ++ suf) (pre ++ zfill r'.w (str m) ++ suf) = true := by
    intro r hr r' hr' n hn m hm hlt
    rw [List.append_assoc, List.append_assoc, lexLe_append]
    have hl : (zfill r.w (str n)).length = (zfill r'.w (str m)).length := by rw [hw r hr n hn, hw r' hr' m hm]
    apply lexLe_suffix _ hl
    apply lexLe_int hl (fun c hc => zfill_digits hc) (fun c hc => zfill_digits hc)
    rw [zfill_int, zfill_int]
    omega
  simp only [Item.nodes]
  clear hw
  induction rs with
  | nil => exact List.Pairwise.nil
  | cons r rs ih =>
    rw [List.flatMap_cons, List.pairwise_append] at hn ⊢
    obtain ⟨h1, h2, h3⟩ := hn
    refine ⟨?_, ih h2 (fun a ha b hb => step a (List.mem_cons_of_mem _ ha) b (List.mem_cons_of_mem _ hb)), ?_⟩
    · rw [List.pairwise_map]
      exact h1.imp_of_mem (fun ha hb hlt => step r List.mem_cons_self r List.mem_cons_self _ ha _ hb hlt)
    · intro x hx y hy
      obtain ⟨n, hn, rfl⟩ := List.mem_map.mp hx
      obtain ⟨r', hr', hy⟩ := List.mem_flatMap.mp hy
      obtain ⟨m, hm, rfl⟩ := List.mem_map.mp hy
      exact step r List.mem_cons_self r' (List.mem_cons_of_mem _ hr') n hn m hm
        (h3 n hn m (List.mem_flatMap.mpr ⟨r', hr', hm⟩))

/-- Full statement: the nodes of each range come in the order of their numbers.  Proved when all numbers in the brackets are
written with the same number of digits and go upwards, as Slurm writes them with zero padding: then the result is the list
of nodes itself.  Missing: lists whose numbers have different lengths are put in the order of strings
(`C47_order_witness`). -/
theorem C47_in_order_partial {pre suf : Str} {rs : List Rng} {L : Nat} (hv : (Item.block pre rs suf).Valid)
    (hw : ∀ r ∈ rs, ∀ n ∈ r.numbers, (zfill r.w (str n)).length = L) (hn : (rs.flatMap Rng.numbers).Pairwise (· < ·)) :
    slurm (listText [.block pre rs suf]) = some (Item.nodes (.block pre rs suf)) ∧ (Item.nodes (.block pre rs suf)).Nodup := by
  refine ⟨?_, ?_⟩
  · rw [slurm_text (by simpa using hv)]
    have e : List.flatMap Item.nodes [Item.block pre rs suf] = Item.nodes (.block pre rs suf) := by simp
    rw [e, sortBy_id (C47_sorted_numbers hw hn)]
  · have hinj : ∀ r ∈ rs, ∀ r' ∈ rs, ∀ n ∈ r.numbers, ∀ m ∈ r'.numbers, n < m →
        pre ++ zfill r.w (str n) ++ suf ≠ pre ++ zfill r'.w (str m) ++ suf := by
      intro r hr r' hr' n hn m hm hlt e
      have := List.append_cancel_left (List.append_cancel_right e)
      have h := congrArg int this
      rw [zfill_int, zfill_int] at h
      omega
    simp only [Item.nodes]
    clear hw hv
    induction rs with
    | nil => exact List.Pairwise.nil
    | cons r rs ih =>
      rw [List.flatMap_cons, List.pairwise_append] at hn
      rw [List.flatMap_cons]
      obtain ⟨h1, h2, h3⟩ := hn
      rw [List.nodup_append]
      refine ⟨?_, ih h2 (fun a ha b hb => hinj a (List.mem_cons_of_mem _ ha) b (List.mem_cons_of_mem _ hb)), ?_⟩
      · unfold List.Nodup
        rw [List.pairwise_map]
        exact h1.imp_of_mem (fun ha hb hlt => hinj r List.mem_cons_self r List.mem_cons_self _ ha _ hb hlt)
      · intro x hx y hy
        obtain ⟨n, hn, rfl⟩ := List.mem_map.mp hx
        obtain ⟨r', hr', hy⟩ := List.mem_flatMap.mp hy
        obtain ⟨m, hm, rfl⟩ := List.mem_map.mp hy
        exact hinj r List.mem_cons_self r' (List.mem_cons_of_mem _ hr') n hn m hm (h3 n hn m (List.mem_flatMap.mpr ⟨r', hr', hm⟩))

/-- `[lo-hi]` with numbers below `10 ^ w`, written with `w` digits. -/
theorem C47_range {pre suf : Str} {lo hi w : Nat} (h : lo < hi) (hw : hi < 10 ^ w) (h0 : 0 < w)
  (hp : ',' ∉ pre ∧ '[' ∉ pre) (hs : ',' ∉ suf ∧ '[' ∉ suf) :
    slurm (pre ++ '[' :: (zfill w (str lo) ++ '-' :: zfill w (str hi)) ++ ']' :: suf) =
    some ((List.range' lo (hi + 1 - lo)).map (fun n => pre ++ zfill w (str n) ++ suf)) := by
  have he : lo ≠ hi := by omega
  have hv : (Item.block pre [⟨lo, hi, w⟩] suf).Valid := ⟨hp.1, hp.2, hs.1, hs.2, by simp, by simp; omega⟩
  have := (C47_in_order_partial (L := w) hv (by
    intro r hr n hn
    simp only [List.mem_singleton] at hr
    subst hr
    simp only [Rng.numbers, List.mem_range'_1] at hn
    rw [zfill_length]
    have := (Nat.length_toDigits_le_iff (n := n) (b := 10) (k := w) (by omega) h0).mpr (by omega)
    unfold str
    show max w _ = w
    omega) (by simp [Rng.numbers, List.pairwise_lt_range'])).1
  simpa [listText, Item.text, Item.nodes, Rng.text, Rng.numbers, he] using this

/-- A range written downwards means the same nodes, if both numbers are written with `w` digits. -/
theorem C47_range_down {pre suf : Str} {lo hi w : Nat} (h : lo < hi) (hw : hi < 10 ^ w) (h0 : 0 < w)
  (hp : ',' ∉ pre ∧ '[' ∉ pre) (hs : ',' ∉ suf ∧ '[' ∉ suf) :
    slurm (pre ++ '[' :: (zfill w (str hi) ++ '-' :: zfill w (str lo)) ++ ']' :: suf) =
    some ((List.range' lo (hi + 1 - lo)).map (fun n => pre ++ zfill w (str n) ++ suf)) := by
  have hd : ('-' : Char).isDigit = false := by decide
  have hlen : ∀ n, n ≤ hi → (zfill w (str n)).length = w := by
    intro n hn
    rw [zfill_length]
    have := (Nat.length_toDigits_le_iff (n := n) (b := 10) (k := w) (by omega) h0).mpr (by omega)
    unfold str
    omega
  have hin : ∀ c : Char, c.isDigit = false → c ≠ '-' → c ∉ zfill w (str hi) ++ '-' :: zfill w (str lo) := by
    intro c hc hm
    simp [notin_zfill hc, hm]
  have hrs : rangeSplit (zfill w (str hi) ++ '-' :: zfill w (str lo)) = some (lo, hi + 1, w) := by
    unfold rangeSplit
    rw [splitFirst_append _ (notin_zfill hd _ _)]
    simp only [Option.getD_some, toInt_zfill]
    rw [if_pos (by omega), hlen hi (Nat.le_refl _)]
  generalize hm : zfill w (str hi) ++ '-' :: zfill w (str lo) = mid at *
  have hparts : parts (pre ++ '[' :: mid ++ ']' :: suf).length (pre ++ '[' :: mid ++ ']' :: suf) [] = [pre ++ '[' :: mid ++ ']' :: suf] := by
    have e : pre ++ '[' :: mid ++ ']' :: suf = pre ++ ('[' :: mid ++ ']' :: (suf ++ [])) := by simp
    rw [e]
    obtain ⟨f1, g1, k1⟩ := parts_plain hp.1 hp.2 ('[' :: mid ++ ']' :: (suf ++ [])) [] _ (Nat.le_refl _)
    obtain ⟨f2, g2, k2⟩ := parts_bracket (hin ']' (by decide) (by decide)) (suf ++ []) ([] ++ pre) g1
    obtain ⟨f3, g3, k3⟩ := parts_plain hs.1 hs.2 [] ([] ++ pre ++ ('[' :: mid ++ [']'])) f2 g2
    rw [k1, k2, k3]
    cases f3 <;> simp [parts]
  have hexp : expandPart (pre ++ '[' :: mid ++ ']' :: suf) =
      some ((List.range' lo (hi + 1 - lo)).map (fun n => pre ++ zfill w (str n) ++ suf)) := by
    unfold expandPart
    rw [List.append_assoc, List.cons_append, splitFirst_append _ hp.2]
    simp only
    rw [splitFirst_append _ (hin ']' (by decide) (by decide))]
    simp only
    rw [splitAll_eq, Verif.Labels.cutAt_none (hin ',' (by decide) (by decide))]
    simp only [noderange, hrs, rangeNames, List.append_nil]
  have hsort : ((List.range' lo (hi + 1 - lo)).map (fun n => pre ++ zfill w (str n) ++ suf)).Pairwise (fun a b => lexLe a b = true) := by
    have := C47_sorted_numbers (pre := pre) (suf := suf) (rs := [⟨lo, hi, w⟩]) (L := w) (by
      intro r hr n hn
      simp only [List.mem_singleton] at hr
      subst hr
      simp only [Rng.numbers, List.mem_range'_1] at hn
      exact hlen n (by omega)) (by simp [Rng.numbers, List.pairwise_lt_range'])
    simpa [Item.nodes, Rng.numbers] using this
  unfold slurm
  rw [hparts]
  simp only [expandParts, hexp, List.append_nil, Option.map_some]
  rw [sortBy_id hsort]

example : String.ofList ("n".toList ++ '[' :: (zfill 2 (str 11) ++ '-' :: zfill 2 (str 9)) ++ ']' :: "-x".toList) = "n[11-09]-x" := by decide

def txt (l : Option (List Str)) : Option (List String) := l.map (·.map String.ofList)

example : txt (slurm "nid[008-011,020],login1,gpu[1-2]-ib".toList) =
    some ["gpu1-ib", "gpu2-ib", "login1", "nid008", "nid009", "nid010", "nid011", "nid020"] := by decide +kernel

example : (Item.block "nid".toList [⟨8, 11, 3⟩, ⟨20, 20, 3⟩] []).Valid ∧
    String.ofList (listText [.block "nid".toList [⟨8, 11, 3⟩, ⟨20, 20, 3⟩] []]) = "nid[008-011,020]" := by
  refine ⟨⟨?_, ?_, ?_, ?_, ?_, ?_⟩, ?_⟩ <;> first | decide | simp

/-- Without padding the nodes are not in the order of their numbers. -/
theorem C47_order_witness : txt (slurm "n[8-11]".toList) = some ["n10", "n11", "n8", "n9"] := by decide +kernel

/-- Only the first bracket of an entry is expanded. -/
theorem C47_second_bracket_witness : txt (slurm "r[1-2]n[1-2]".toList) = some ["r1n[1-2]", "r2n[1-2]"] := by decide +kernel

/-- A node named by two ranges comes twice; a range written downwards is turned around; a step or a letter is an error. -/
theorem C47_other_witness : txt (slurm "n[1-2,2-3]".toList) = some ["n1", "n2", "n2", "n3"] ∧
    txt (slurm "n[3-1]".toList) = some ["n1", "n2", "n3"] ∧ slurm "n[1-2-3]".toList = none ∧ slurm "n[a-b]".toList = none ∧
    slurm "".toList = some [] := by decide +kernel

/-! ## C53: other schedulers -/

theorem cobaltNums_text {rs : List Rng} (h : ∀ r ∈ rs, r.lo ≤ r.hi) : cobaltNums (rs.map Rng.text) = some (rs.flatMap Rng.numbers) := by
  induction rs with
  | nil => rfl
  | cons r rs ih =>
    rw [List.map_cons, cobaltNums, rangeSplit_text (h r List.mem_cons_self), ih (fun x hx => h x (List.mem_cons_of_mem _ hx))]
    rfl

theorem ranges_text_ne_nil {rs : List Rng} (h : rs ≠ []) : List.intercalate [','] (rs.map Rng.text) ≠ [] := by
  have ht : ∀ r : Rng, r.text ≠ [] := by
    intro r
    unfold Rng.text
    split
    · exact zfill_ne_nil _ _
    · simp
  cases rs with
  | nil => exact absurd rfl h
  | cons r rs =>
    cases rs with
    | nil => simpa using ht r
    | cons r' rs =>
      rw [List.map_cons, List.map_cons, List.intercalate_cons_cons]
      simp

/-- Cobalt: every number of every range, in the order of the numbers. -/
theorem C53_cobalt {rs : List Rng} (hne : rs ≠ []) (h : ∀ r ∈ rs, r.lo ≤ r.hi) :
    ∃ ns : List Nat, cobalt (List.intercalate [','] (rs.map Rng.text)) = some (ns.map str) ∧ ns.Perm (rs.flatMap Rng.numbers) ∧
      ns.Pairwise (· ≤ ·) := by
  refine ⟨sortBy (fun a b => decide (a ≤ b)) (rs.flatMap Rng.numbers), ?_, sortBy_perm _ _, ?_⟩
  · unfold cobalt
    rw [if_neg (ranges_text_ne_nil hne), splitAll_eq, Verif.Labels.cutAt_intercalate (by simpa using hne) (by
      intro s hs
      obtain ⟨r, _, rfl⟩ := List.mem_map.mp hs
      exact notin_text (by decide) (by decide) r), cobaltNums_text h]
    rfl
  · have := sortBy_sorted (le := fun a b : Nat => decide (a ≤ b)) (by intro a b; simp only [decide_eq_true_eq]; omega)
      (by intro a b c; simp only [decide_eq_true_eq]; omega) (rs.flatMap Rng.numbers)
    simpa using this

theorem uniq_mem (l : List Str) (x : Str) : x ∈ uniq l ↔ x ∈ l := by
  induction l with
  | nil => rfl
  | cons y ys ih =>
    unfold uniq
    rw [List.mem_cons, List.mem_cons, List.mem_filter, ih]
    by_cases h : x = y <;> simp [h]

theorem uniq_nodup (l : List Str) : (uniq l).Nodup := by
  induction l with
  | nil => exact List.Pairwise.nil
  | cons y ys ih =>
    unfold uniq
    rw [List.nodup_cons]
    exact ⟨by simp, ih.filter _⟩

theorem uniq_sublist (l : List Str) : (uniq l).Sublist l := by
  induction l with
  | nil => exact List.Sublist.refl _
  | cons y ys ih => exact (List.filter_sublist.trans ih).cons_cons y

/-- LSF: every host that is not a batch node exactly once, in the order of the variable. -/
theorem C53_lsf (words : List Str) : (lsf words).Nodup ∧ (lsf words).Sublist words ∧
    ∀ x, x ∈ lsf words ↔ x ∈ words ∧ ¬ "batch".toList <:+: x := by
  refine ⟨(uniq_nodup _).filter _, List.filter_sublist.trans (uniq_sublist _), ?_⟩
  intro x
  unfold lsf
  rw [List.mem_filter, uniq_mem]
  simp [isBatch]

/-- LSF in the short form `host count host count …`: every host that is not a batch node, in order, as often as named. -/
theorem C53_lsf_short (hosts : List (Str × Str)) :
    lsfShort (hosts.flatMap (fun p => [p.1, p.2])) = (hosts.map (·.1)).filter (fun n => !isBatch n) := by
  have e : pairs (hosts.flatMap (fun p => [p.1, p.2])) = hosts := by
    induction hosts with
    | nil => rfl
    | cons p ps ih => simp only [List.flatMap_cons, List.cons_append, List.nil_append, pairs, ih]
  unfold lsfShort
  rw [e, List.filter_map]
  rfl

/-- Full statement: PBS gives every host of the file exactly once, by its short name.  Proved when no two hosts have the same
short name; otherwise it comes twice (`C53_pbs_witness`). -/
theorem C53_pbs_partial (lines : List Str) : (∀ x, x ∈ pbs lines ↔ ∃ l ∈ lines, abbrevName l = x) ∧
    ((∀ a ∈ lines, ∀ b ∈ lines, abbrevName a = abbrevName b → a = b) → (pbs lines).Nodup) := by
  refine ⟨?_, ?_⟩
  · intro x
    unfold pbs
    rw [List.mem_map]
    constructor
    · rintro ⟨l, hl, rfl⟩; exact ⟨l, (uniq_mem _ _).mp hl, rfl⟩
    · rintro ⟨l, hl, rfl⟩; exact ⟨l, (uniq_mem _ _).mpr hl, rfl⟩
  · intro h
    unfold pbs List.Nodup
    rw [List.pairwise_map]
    exact (uniq_nodup lines).imp_of_mem (fun ha hb hne e => hne (h _ ((uniq_mem _ _).mp ha) _ ((uniq_mem _ _).mp hb) e))

/-- The short name is the part before the first dot. -/
theorem C53_short {host : Str} (h : '.' ∉ host) (domain : Str) : abbrevName host = host ∧ abbrevName (host ++ '.' :: domain) = host := by
  unfold abbrevName
  rw [splitFirst_none h, splitFirst_append _ h]
  exact ⟨rfl, rfl⟩

theorem C53_pbs_witness : (pbs ["n1.a".toList, "n1.b".toList]) = ["n1".toList, "n1".toList] := by decide

/-- `cobaltAbbrev` of `nid` and the padded number is the number, unless it is zero. -/
theorem C53_cobalt_short (w n : Nat) (h : n ≠ 0) : cobaltAbbrev ("nid".toList ++ zfill w (str n)) = str n := by
  have hd : ∀ s : Str, (∀ c ∈ s, c.isDigit = true) → s.dropWhile (fun c => decide (c = 'n' ∨ c = 'i' ∨ c = 'd')) = s := by
    intro s hs
    cases s with
    | nil => rfl
    | cons c cs =>
      have := hs c List.mem_cons_self
      rw [List.dropWhile_cons, if_neg]
      simp only [decide_eq_true_eq]
      rintro (rfl | rfl | rfl) <;> revert this <;> decide
  have hz : ∀ k : Nat, (List.replicate k '0' ++ str n).dropWhile (fun c => decide (c = '0')) = str n := by
    intro k
    induction k with
    | zero =>
      cases hs : str n with
      | nil => rfl
      | cons c cs =>
        have : c ≠ '0' := by
          intro e
          subst e
          by_cases hcs : cs = []
          · subst hcs
            have := int_str n
            rw [hs] at this
            exact h (by rw [← this]; decide)
          · have h1 := int_str n
            rw [hs, int_cons] at h1
            have h2 : int cs < 10 ^ cs.length := int_lt (fun c hc => str_digits (by rw [hs]; exact List.mem_cons_of_mem _ hc))
            have h3 : n < 10 ^ cs.length := by
              have : ('0' : Char).toNat - 48 = 0 := by decide
              rw [this] at h1
              omega
            have h4 := (Nat.length_toDigits_le_iff (n := n) (b := 10) (k := cs.length) (by omega)
              (List.length_pos_iff.mpr hcs)).mpr h3
            have h5 : (str n).length = cs.length + 1 := by rw [hs]; rfl
            unfold str at h5
            omega
        simp [this]
    | succ k ih => rw [List.replicate_succ, List.cons_append, List.dropWhile_cons, if_pos (by decide)]; exact ih
  unfold cobaltAbbrev
  have e1 : ("nid".toList ++ zfill w (str n)).dropWhile (fun c => decide (c = 'n' ∨ c = 'i' ∨ c = 'd')) = zfill w (str n) := by
    show List.dropWhile _ ('n' :: 'i' :: 'd' :: zfill w (str n)) = _
    rw [List.dropWhile_cons, if_pos (by decide), List.dropWhile_cons, if_pos (by decide), List.dropWhile_cons, if_pos (by decide)]
    exact hd _ (fun c hc => zfill_digits hc)
  rw [e1]
  exact hz _

/-- Node 0 loses its whole name. -/
theorem C53_cobalt_short_witness : cobaltAbbrev "nid00000".toList = [] := by decide

example : cobalt "8-11,3".toList = some (["3", "8", "9", "10", "11"].map String.toList) ∧
    lsf (["batch1", "h1", "h1", "h2"].map String.toList) = ["h1".toList, "h2".toList] ∧
    lsfShort (["batch1", "1", "h1", "42", "h2", "42"].map String.toList) = ["h1".toList, "h2".toList] := by decide +kernel

end Verif.Nodes
