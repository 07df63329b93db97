/-
Model of the conversions between lists of dictionaries and structured arrays: `libensemble/utils/misc.py:66-308`.

Conventions
* `F` are floating-point numbers; `Conv` gives the conversions of NumPy between numbers and texts.  Objects of other types are
  tokens `obj`.
* A value of a variable or field is a scalar (`one`) or a one-dimensional array (`many`); arrays of more dimensions are not
  modelled.
* A dictionary is a list of pairs, looked up by name; assigning a key that exists overwrites it.  A structured array is its
  list of fields and, for each row, the cells in the order of the fields.
* `none` is an exception (ValueError, KeyError, IndexError, AssertionError).
-/
namespace Verif.Arrays

inductive Val (F : Type) where
  | int (z : Int)
  | flt (q : F)
  | str (s : List Char)
  | obj (n : Nat)
deriving DecidableEq, Repr

inductive Cell (F : Type) where
  | one (v : Val F)
  | many (vs : List (Val F))
deriving DecidableEq, Repr

/-- Types of fields: NumPy's int, float, `U<n>`, object. -/
inductive Kind where
  | int | float | str (n : Nat) | obj
deriving DecidableEq, Repr

/-- A field: its type, and the length of the array in each row unless it is a scalar. -/
structure Field where
  name : String
  kind : Kind
  size : Option Nat
deriving DecidableEq, Repr

structure Conv (F : Type) where
  ofInt : Int → F
  trunc : F → Option Int
  text : Val F → List Char

abbrev Dict (F : Type) := List (String × Cell F)
abbrev Mapping := List (String × List String)

structure Arr (F : Type) where
  fields : List Field
  rows : List (List (Cell F))
deriving DecidableEq, Repr

variable {F : Type} [DecidableEq F] (C : Conv F)

/-- Storing a scalar in a field of some type.  Texts in number fields, which NumPy tries to read, are an error here. -/
def cast : Kind → Val F → Option (Val F)
  | .int, .int z => some (.int z)
  | .int, .flt q => (C.trunc q).map .int
  | .int, _ => none
  | .float, .int z => some (.flt (C.ofInt z))
  | .float, .flt q => some (.flt q)
  | .float, _ => none
  | .str n, .str s => some (.str (s.take n))
  | .str n, v => some (.str ((C.text v).take n))
  | .obj, v => some v

/-- `np.zeros`. -/
def zero : Kind → Val F
  | .int => .int 0
  | .float => .flt (C.ofInt 0)
  | .str _ => .str []
  | .obj => .int 0

def Field.zero (f : Field) : Cell F := match f.size with
  | none => .one (Arrays.zero C f.kind)
  | some n => .many (List.replicate n (Arrays.zero C f.kind))

/-- Assigning a value to the cell of a field. -/
def store (f : Field) : Cell F → Option (Cell F)
  | .one v => match f.size with
    | none => (cast C f.kind v).map .one
    | some n => (cast C f.kind v).map (fun v => .many (List.replicate n v))
  | .many vs => match f.size with
    | none => if f.kind = .obj then some (.many vs) else none
    | some n =>
      if vs.length = n then (vs.mapM (cast C f.kind)).map .many
      else match vs with
        | [v] => (cast C f.kind v).map (fun v => .many (List.replicate n v))
        | _ => none

/-- The type of a field from an entry (misc.py:86-97). -/
def kindOf (name : String) (c : Cell F) : Kind :=
  if name = "sim_id" then .int else
  match c with
  | .one (.int _) => .int
  | .one (.flt _) => .float
  | .one (.str s) => .str (s.length + 1)
  | .one (.obj _) => .obj
  | .many _ => .obj

/-- Size of a field made from `n` names (misc.py:94-97). -/
def sizeOf' (n : Nat) : Option Nat := if n ≤ 1 then none else some n

def Mapping.sources (m : Mapping) : List String := m.flatMap (·.2)
def Mapping.keys (m : Mapping) : List String := m.map (·.1)

/-- `_get_new_dtype_fields` (misc.py:71-78). -/
def plainNames (m : Mapping) (first : Dict F) : List String := (first.map (·.1)).filter (fun n => decide (n ∉ m.sources))

/-- `_start_building_dtype` (misc.py:100-109). -/
def plainFields (m : Mapping) (first : Dict F) : List Field :=
  ((plainNames m first).filter (fun n => decide (n ∉ m.keys))).filterMap
    (fun n => (first.lookup n).map (fun c => ⟨n, kindOf n c, none⟩))

/-- The mapped fields added to the type (misc.py:144-152); `existing` are the names before. -/
def added (m : Mapping) (first : Dict F) (existing : List String) : Mapping :=
  m.filter (fun p => decide (p.1 ∉ existing ∧ ∀ s ∈ p.2, s ∈ first.map (·.1)))

def mappedField (p : String × List String) : Field := ⟨p.1, if p.1 = "sim_id" then .int else .float, sizeOf' p.2.length⟩

/-- Scalars of several names (misc.py:115); an array among them is an error. -/
def gather (d : Dict F) : List String → Option (List (Val F))
  | [] => some []
  | n :: ns => match d.lookup n, gather d ns with
    | some (.one v), some vs => some (v :: vs)
    | _, _ => none

/-- `_pack_field` (misc.py:112-115). -/
def packField (d : Dict F) : List String → Option (Cell F)
  | [] => none
  | [n] => d.lookup n
  | ns => (gather d ns).map .many

/-- Assign a cell of a row by the name of its field. -/
def assign (f : String) (c : Cell F) : List Field → List (Cell F) → Option (List (Cell F))
  | g :: gs, x :: xs => if g.name = f then (store C g c).map (· :: xs) else (assign f c gs xs).map (x :: ·)
  | _, _ => none

/-- The inner loop of the packing (misc.py:158-162). -/
def packRow (m : Mapping) (fields : List Field) (d : Dict F) : List String → List (Cell F) → Option (List (Cell F))
  | [], row => some row
  | n :: ns, row =>
    match packField d ((m.lookup n).getD [n]) with
    | none => none
    | some c => match assign C n c fields row with
      | none => none
      | some row' => packRow m fields d ns row'

/-- `list_dicts_to_np` (misc.py:118-164); `given` is the dtype passed in (empty for none). -/
def toNp (pts : List (Dict F)) (given : List Field) (m : Mapping) : Option (Arr F) :=
  match pts with
  | [] => some ⟨given, []⟩
  | first :: _ =>
    let start := if given = [] then plainFields m first else given
    let add := added m first (start.map (·.name))
    let fields := start ++ add.map mappedField
    if (fields.map (·.name)).Nodup then
      (pts.mapM (fun d => packRow C m fields d (plainNames m first ++ add.map (·.1)) (fields.map (Field.zero C)))).map (Arr.mk fields)
    else none

/-- `new_dict[name] = value`. -/
def setKey (d : Dict F) (k : String) (c : Cell F) : Dict F := d.filter (fun p => decide (p.1 ≠ k)) ++ [(k, c)]

/-- What one field of a row contributes to the dictionary (misc.py:286-299).  A field of objects that is mapped is an error
here. -/
def spread (m : Mapping) (f : Field) (c : Cell F) : Option (List (String × Cell F)) :=
  match m.lookup f.name with
  | none => some [(f.name, c)]
  | some names =>
    if f.kind = .obj ∨ f.size.getD 1 ≠ names.length then none
    else match c with
      | .one v => some (names.map (fun n => (n, .one v)))
      | .many vs => if vs.length > 1 then some (names.zip (vs.map .one)) else some (names.map (fun n => (n, .many vs)))

/-- One row (misc.py:283-301). -/
def spreadRow (m : Mapping) : List Field → List (Cell F) → Option (List (String × Cell F))
  | f :: fs, c :: cs => match spread m f c, spreadRow m fs cs with
    | some a, some b => some (a ++ b)
    | _, _ => none
  | _, _ => some []

/-- `entry.get("_id") == -1` for scalars. -/
def isUnset (c : Option (Cell F)) : Bool :=
  decide (c = some (.one (.int (-1)))) || decide (c = some (.one (.flt (C.ofInt (-1)))))

/-- Dropping an unset `_id` (misc.py:303-306). -/
def dropUnset (d : Dict F) : Dict F :=
  if isUnset C (d.lookup "_id") then d.filter (fun p => decide (p.1 ≠ "_id")) else d

def makeDict (l : List (String × Cell F)) : Dict F := l.foldl (fun d p => setKey d p.1 p.2) []

/-- `np_to_list_dicts` (misc.py:278-308). -/
def toDicts (a : Arr F) (m : Mapping) : Option (List (Dict F)) :=
  a.rows.mapM (fun row => (spreadRow m a.fields row).map (fun l => dropUnset C (makeDict l)))

/-! ### Arrays to arrays -/

/-- Fields of the unmapped array (misc.py:191-199). -/
def unmapFields (m : Mapping) (fs : List Field) : List Field :=
  fs.flatMap (fun f => match m.lookup f.name with
    | some names => names.map (fun n => ⟨n, f.kind, none⟩)
    | none => [f])

/-- The cells of one field (misc.py:201-213): a scalar goes to the first variable only, the others stay zero; more variables
than columns are an error, more columns than variables are dropped. -/
def unmapCell (m : Mapping) (f : Field) (c : Cell F) : Option (List (Cell F)) :=
  match m.lookup f.name with
  | none => some [c]
  | some names =>
    match c with
    | .one v => match names with
      | [] => none
      | _ :: rest => some (.one v :: rest.map (fun _ => .one (zero C f.kind)))
    | .many vs => if names.length ≤ vs.length then some ((vs.take names.length).map .one) else none

def unmapRow (m : Mapping) : List Field → List (Cell F) → Option (List (Cell F))
  | f :: fs, c :: cs => match unmapCell C m f c, unmapRow m fs cs with
    | some a, some b => some (a ++ b)
    | _, _ => none
  | _, _ => some []

/-- Indexing by the variables (misc.py:204, misc.py:208) fails or not whatever the number of rows. -/
def unmapOk (m : Mapping) (f : Field) : Bool :=
  match m.lookup f.name with
  | none => true
  | some names => match f.size with
    | none => decide (names ≠ [])
    | some n => decide (names.length ≤ n)

/-- `unmap_numpy_array` (misc.py:175-214).  Two fields with one name are an error of NumPy. -/
def unmap (a : Arr F) (m : Mapping) : Option (Arr F) :=
  if m = [] then some a
  else if ((unmapFields m a.fields).map (·.name)).Nodup ∧ a.fields.all (unmapOk m) then
    (a.rows.mapM (unmapRow C m a.fields)).map (Arr.mk (unmapFields m a.fields))
  else none

def fieldOf (fs : List Field) (n : String) : Option Field := fs.find? (fun f => f.name = n)

/-- A field made from variables (misc.py:241-250); variables that are themselves arrays are an error here. -/
def mapField (fs : List Field) (p : String × List String) : Option Field :=
  match p.2 with
  | [] => none
  | v :: vs => (fieldOf fs v).map (fun f => ⟨p.1, f.kind, if vs = [] then f.size else some (vs.length + 1)⟩)

/-- Cells by the names of the fields. -/
def cellOf : List Field → List (Cell F) → String → Option (Cell F)
  | f :: fs, c :: cs, n => if f.name = n then some c else cellOf fs cs n
  | _, _, _ => none

def scalarsOf (fs : List Field) (row : List (Cell F)) : List String → Option (List (Val F))
  | [] => some []
  | n :: ns => match cellOf fs row n, scalarsOf fs row ns with
    | some (.one v), some vs => some (v :: vs)
    | _, _ => none

/-- The value of a field of the new array (misc.py:263-273): `mapping[field]` is a KeyError for every other field. -/
def mapCell (m : Mapping) (fs : List Field) (row : List (Cell F)) (f : Field) : Option (Cell F) :=
  match m.lookup f.name with
  | none => none
  | some [] => none
  | some [n] => (cellOf fs row n).bind (store C f)
  | some names => ((scalarsOf fs row names).map .many).bind (store C f)

/-- `dict.fromkeys` keeps the first of equal fields (misc.py:257). -/
def uniq : List Field → List Field
  | [] => []
  | f :: fs => f :: (uniq fs).filter (fun g => decide (g ≠ f))

/-- `map_numpy_array` (misc.py:217-275). -/
def mapNp (a : Arr F) (m : Mapping) : Option (Arr F) :=
  if m = [] then some a
  else match m.mapM (mapField a.fields) with
    | none => none
    | some new =>
      let fields := uniq (new ++ a.fields.filter (fun f => decide (f.name ∉ m.sources)))
      if (fields.map (·.name)).Nodup then
        -- the loop runs over the fields even if there are no rows
        if fields.all (fun f => (m.lookup f.name).isSome) then
          (a.rows.mapM (fun row => fields.mapM (mapCell C m a.fields row))).map (Arr.mk fields)
        else none
      else none

end Verif.Arrays
