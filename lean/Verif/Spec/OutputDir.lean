import Verif.Spec.Files
import Verif.Spec.Document
/-!
What is in commands.txt, in files.txt and in the output directory after a run on a document.
-/

namespace Pdf.Spec
open Pdf

/-- What is in commands.txt: every program of a dictionary of the document with its parameters on a line, and nothing else, when names
and values alternate in the name trees. -/
def CommandsOf (us : List Update) (view : View) (out : Out) : Prop :=
  ∃ programs : List (Bytes × Bytes), out.commands = programs.flatMap (fun p => p.1 ++ b!" " ++ p.2 ++ b!"\n") ∧ (∀ d, DictIn us d → ∀ name p, CommandIn view d name p → (name, p) ∈ programs) ∧
    ((∀ d, DictIn us d → TreesPaired view d) → ∀ p ∈ programs, ∃ d, DictIn us d ∧ CommandIn view d p.1 p.2)

/-- What is in files.txt and in the output directory.
* Every file that a dictionary of the document holds is in the directory under its MD5 (or another file with the same MD5).
* A file in the directory is under its MD5, and is empty or one that a dictionary of the document holds.
* files.txt consists of lines; every file of the document has one with its MD5 and name, every file that it only names has one with zeros.
* A line is one of these, or that of an empty file (for a file without data). -/
def FilesOf (ext : Ext) (us : List Update) (view : View) (out : Out) : Prop :=
  (∀ d, DictIn us d → FormDirect view d → ∀ name data, HoldsFile view d name data → ∃ data', out.dumped.get? (hexText (ext.md5 data)) = some data' ∧ ext.md5 data' = ext.md5 data) ∧
  ((∀ d, DictIn us d → TreesPaired view d) → ∀ h data, out.dumped.get? h = some data → h = hexText (ext.md5 data) ∧ (data = [] ∨ ∃ d name, DictIn us d ∧ HoldsFile view d name data)) ∧
  ∃ lines : List (Bytes × Bytes), out.files = lines.flatMap manifestLine ∧
    (∀ d, DictIn us d → FormDirect view d → ∀ name data, HoldsFile view d name data → (hexText (ext.md5 data), name) ∈ lines) ∧
    (∀ d, DictIn us d → ∀ name, NamesFile view d name → (zeros, name) ∈ lines) ∧
    ((∀ d, DictIn us d → TreesPaired view d) → ∀ l ∈ lines, l.1 = hexText (ext.md5 []) ∨ ∃ d, DictIn us d ∧ (l.1 = zeros ∧ NamesFile view d l.2 ∨ ∃ data, l.1 = hexText (ext.md5 data) ∧ HoldsFile view d l.2 data))

end Pdf.Spec
