/-!
`save_libE_output` and `check_npy_file_exists` (tools/tools.py): the files with the results of a run.

Texts are lists of characters.  The file system is a list of files, each with a directory, a name and what was
written; directories exist and can be written.  `np.save` is modelled only in that it adds ".npy" to a name that
does not end with it.  A history is a list of rows, each with `sim_ended` and the rest.
-/
namespace Verif.Saved

abbrev Str := List Char

def str (n : Nat) : Str := Nat.toDigits 10 n

/-- `os.path.basename` (tools.py:80): what follows the last "/". -/
def baseOf (p : Str) : Str := (p.reverse.takeWhile (· != '/')).reverse

/-- `os.path.splitext(…)[0]` (tools.py:80) of a name without "/": what comes before the last ".", unless there are
only dots before it. -/
def stem (b : Str) : Str :=
  match b.reverse.dropWhile (· != '.') with
  | [] => b
  | _ :: before => if before.all (· == '.') then b else before.reverse

/-- What follows the first occurrence of `p`. -/
def cut (p : Str) : Str → Option Str
  | [] => none
  | c :: cs => if p.isPrefixOf (c :: cs) then some ((c :: cs).drop p.length) else cut p cs

/-- `_get_shortname` (tools.py:79-82): `split("test_", 1).pop()` is what follows the first "test_", or everything. -/
def shortName (basename : Str) : Str :=
  let s := stem (baseOf basename)
  (cut "test_".toList s).getD s

inductive Content (R P : Type)
  | hist (h : List (Bool × R))
  | info (p : P)
deriving DecidableEq, Repr

abbrev FS (R P : Type) := List ((Str × Str) × Content R P)

variable {R P : Type}

/-- A file is written, in place of one with the same name if there is one. -/
def write (fs : FS R P) (dir name : Str) (c : Content R P) : FS R P :=
  ((dir, name), c) :: fs.filter (fun f => f.1 != (dir, name))

def read (fs : FS R P) (dir name : Str) : Option (Content R P) := fs.lookup (dir, name)

/-- `np.save` adds the ending. -/
def npyName (n : Str) : Str := if ".npy".toList.isSuffixOf n then n else n ++ ".npy".toList

/-- `sum(H["sim_ended"])` (tools.py:150). -/
def evals (h : List (Bool × R)) : Nat := (h.filter (·.1)).length

/-- `prob_str` (tools.py:150). -/
def probStr (h : List (Bool × R)) (nworkers : Nat) : Str :=
  "length=".toList ++ str h.length ++ "_evals=".toList ++ str (evals h) ++ "_workers=".toList ++ str nworkers

/-- The names without ending (tools.py:148-155). -/
def histName (h : List (Bool × R)) (nworkers : Nat) (short : Str) (attrs : Bool) : Str :=
  short ++ (if attrs then "_history_".toList ++ probStr h nworkers else [])

def infoName (h : List (Bool × R)) (nworkers : Nat) (short : Str) (attrs : Bool) : Str :=
  short ++ (if attrs then "_persis_info_".toList ++ probStr h nworkers else [])

/-- `save_libE_output` (tools.py:88-164): the files afterwards, and the name that is returned (in the directory `dir`,
which is `dest_path` or the working directory). -/
def save (fs : FS R P) (h : List (Bool × R)) (p : P) (basename : Str) (nworkers : Nat) (dir : Str) (attrs : Bool) :
    FS R P × Str :=
  let short := shortName basename
  let hn := histName h nworkers short attrs
  let fs := write fs dir (npyName hn) (.hist h)
  let fs := write fs dir (infoName h nworkers short attrs ++ ".pickle".toList) (.info p)
  (fs, hn ++ ".npy".toList)

/-- `check_exact_file_exists` (tools.py:242-243), for a name in the directory `dir`. -/
def exactExists (dir name : Str) (fs : FS R P) : Bool := fs.any (fun f => f.1 == (dir, name))

/-- `check_basename_file_exists` (tools.py:245-248); `dir` is the working directory. -/
def baseExists (dir filename : Str) (fs : FS R P) : Bool :=
  fs.any fun f => f.1.1 == dir && (shortName filename).isPrefixOf f.1.2 && ".npy".toList.isSuffixOf f.1.2

/-- The loop of `check_npy_file_exists` (tools.py:250-260): `k` checks are made before `max_wait` is over (one each 0.1
seconds, none if `max_wait` is 0); `seen i` are the files at check `i`. -/
def check (test : FS R P → Bool) (seen : Nat → FS R P) : Nat → Nat → Bool
  | 0, _ => false
  | k + 1, i => if test (seen i) then true else check test seen k (i + 1)

end Verif.Saved
