import Verif.Labels.Model
/-
Model of `libensemble/resources/env_resources.py`: expansion of the node lists given by batch schedulers.

Conventions
* A string is a list of characters.
* `int(s)` accepts a non-empty string of digits; everything else is a ValueError (Python also accepts signs, blanks and
  underscores, which no scheduler writes).  `none` is an exception.
-/
namespace Verif.Nodes
open Verif.Labels (Str str)

/-- `int(s)`. -/
def toInt (s : Str) : Option Nat :=
  if s ≠ [] ∧ s.all Char.isDigit then some (Nat.ofDigitChars 10 s 0) else none

/-- `s.zfill(w)` for a string of digits. -/
def zfill (w : Nat) (s : Str) : Str := List.replicate (w - s.length) '0' ++ s

/-- `s.split(c, 1)`: before and after the first occurrence. -/
def splitFirst (c : Char) : Str → Str × Option Str
  | [] => ([], none)
  | x :: xs => if x = c then ([], some xs) else ((x :: (splitFirst c xs).1), (splitFirst c xs).2)

/-- `s.split(c)`. -/
def splitAll (c : Char) : Str → List Str
  | [] => [[]]
  | x :: xs => if x = c then [] :: splitAll c xs
    else match splitAll c xs with
      | [] => [[x]]
      | p :: ps => (x :: p) :: ps

/-- Lexicographic order of strings by code point. -/
def lexLe : Str → Str → Bool
  | [], _ => true
  | _ :: _, [] => false
  | x :: xs, y :: ys => if x = y then lexLe xs ys else decide (x.toNat < y.toNat)

/-- Insertion into a sorted list, and sorting; equal strings are indistinguishable, so this is Python's `sorted`. -/
def insertBy {α} (le : α → α → Bool) (x : α) : List α → List α
  | [] => [x]
  | y :: ys => if le x y then x :: y :: ys else y :: insertBy le x ys

def sortBy {α} (le : α → α → Bool) : List α → List α
  | [] => []
  | x :: xs => insertBy le x (sortBy le xs)

/-- `_range_split` (env_resources.py:128-138): first, past the last, width. -/
def rangeSplit (s : Str) : Option (Nat × Nat × Nat) :=
  let ab := splitFirst '-' s
  match toInt ab.1, toInt (ab.2.getD ab.1) with
  | some a, some b => if a > b then some (b, a + 1, ab.1.length) else some (a, b + 1, ab.1.length)
  | _, _ => none

/-- Names of one range (env_resources.py:146-147). -/
def rangeNames (pre suf : Str) (r : Nat × Nat × Nat) : List Str :=
  (List.range' r.1 (r.2.1 - r.1)).map (fun nid => pre ++ zfill r.2.2 (str nid) ++ suf)

/-- `_noderange_append` (env_resources.py:140-148). -/
def noderange (pre suf : Str) : List Str → Option (List Str)
  | [] => some []
  | g :: gs => match rangeSplit g, noderange pre suf gs with
    | some r, some ns => some (rangeNames pre suf r ++ ns)
    | _, _ => none

/-- Up to and including the first `]`. -/
def bracket : Str → Option (Str × Str)
  | [] => none
  | x :: xs => if x = ']' then some ([x], xs) else (bracket xs).map (fun p => (x :: p.1, p.2))

theorem bracket_len {s a b : Str} (h : bracket s = some (a, b)) : b.length < s.length := by
  induction s generalizing a with
  | nil => cases h
  | cons x xs ih =>
    unfold bracket at h
    split at h
    · cases h; simp
    · cases hb : bracket xs with
      | none => rw [hb] at h; cases h
      | some p =>
        rw [hb] at h
        cases h
        have := ih hb
        simp; omega

/-- Matches of the regular expression `(?:[^,\[]|\[[^\]]*\])+` (env_resources.py:157-158): the longest stretches without
commas and opening brackets outside closed brackets.  The second argument is the match so far.  `fuel` bounds the number of
steps; the length of the string is enough. -/
def parts : Nat → Str → Str → List Str
  | _, [], acc => if acc = [] then [] else [acc]
  | 0, _, _ => []
  | fuel + 1, x :: xs, acc =>
    if x = ',' then (if acc = [] then [] else [acc]) ++ parts fuel xs []
    else if x = '[' then
      match bracket xs with
      | some (inside, rest) => parts fuel rest (acc ++ x :: inside)
      | none => (if acc = [] then [] else [acc]) ++ parts fuel xs []
    else parts fuel xs (acc ++ [x])

/-- One part (env_resources.py:161-171). -/
def expandPart (p : Str) : Option (List Str) :=
  match splitFirst '[' p with
  | (name, none) => some [name]
  | (pre, some rest) =>
    match splitFirst ']' rest with
    | (_, none) => none
    | (nids, some suf) => noderange pre suf (splitAll ',' nids)

def expandParts : List Str → Option (List Str)
  | [] => some []
  | p :: ps => match expandPart p, expandParts ps with
    | some a, some b => some (a ++ b)
    | _, _ => none

/-- `get_slurm_nodelist` (env_resources.py:150-172). -/
def slurm (s : Str) : Option (List Str) := (expandParts (parts s.length s [])).map (sortBy lexLe)

/-- Numbers of the groups of `get_cobalt_nodelist` (env_resources.py:181-184). -/
def cobaltNums : List Str → Option (List Nat)
  | [] => some []
  | g :: gs => match rangeSplit g, cobaltNums gs with
    | some (a, b, _), some ns => some (List.range' a (b - a) ++ ns)
    | _, _ => none

/-- `get_cobalt_nodelist` (env_resources.py:174-185), sorted by number. -/
def cobalt (s : Str) : Option (List Str) :=
  if s = [] then some [] else (cobaltNums (splitAll ',' s)).map (fun ns => (sortBy (fun a b => decide (a ≤ b)) ns).map str)

/-- Each element once, in the order of first occurrence (`OrderedDict.fromkeys`). -/
def uniq : List Str → List Str
  | [] => []
  | x :: xs => x :: (uniq xs).filter (fun y => y ≠ x)

/-- `abbrev_nodenames` (env_resources.py:107-111). -/
def abbrevName (s : Str) : Str := (splitFirst '.' s).1

/-- `cobalt_abbrev_nodenames` (env_resources.py:113-118): `lstrip("nid")` strips any of the three characters. -/
def cobaltAbbrev (s : Str) : Str :=
  (s.dropWhile (fun c => c = 'n' ∨ c = 'i' ∨ c = 'd')).dropWhile (fun c => c = '0')

/-- `get_pbs_nodelist` (env_resources.py:187-201) on the lines of the file. -/
def pbs (lines : List Str) : List Str := (uniq lines).map abbrevName

/-- Does a name contain "batch"? -/
def isBatch (s : Str) : Bool := decide ("batch".toList <:+: s)

/-- `get_lsf_nodelist` (env_resources.py:203-211) on the words of the variable. -/
def lsf (words : List Str) : List Str := (uniq words).filter (fun n => !isBatch n)

/-- Consecutive pairs (`zip(it, it)`); an odd last word is dropped. -/
def pairs {α} : List α → List (α × α)
  | a :: b :: rest => (a, b) :: pairs rest
  | _ => []

/-- `get_lsf_nodelist_frm_shortform` (env_resources.py:213-222). -/
def lsfShort (words : List Str) : List Str := ((pairs words).filter (fun p => !isBatch p.1)).map (·.1)

end Verif.Nodes
