import Verif.GpuEnv.Model
import Verif.Labels.Model
/-!
# The text of the lists of GPUs
-/
namespace Verif.GpuEnv
open Verif.Labels (Str str)

/-- `f"{i // ntiles}.{i % ntiles}"`, or `str(i)` (worker_resources.py:226-227). -/
def Entry.text (e : Entry) : Str :=
  match e.tile with
  | none => str e.gpu
  | some t => str e.gpu ++ '.' :: str t

/-- `delimiter.join(…)` with the delimiter "," of all callers (worker_resources.py:227). -/
def text (l : List Entry) : Str := List.intercalate [','] (l.map Entry.text)

end Verif.GpuEnv
