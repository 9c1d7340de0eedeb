import Verif.Spec.Document
/-!
Files written as a history of edits: the objects that are new, a table, a trailer, and the same again for every edit
(ISO 32000-1, 7.5.4 to 7.5.6).
-/

namespace Pdf.Spec
open Pdf

/-- An edit: objects that are new or have a new value, numbers that are freed. -/
structure Edit where
  puts : List IndObj
  frees : List Nat

/-- What an edit makes of the objects that there are. -/
def Edit.apply (m : Int → Option IndObj) (e : Edit) (n : Int) : Option IndObj :=
  match e.puts.reverse.find? fun o => o.number = n with
  | some o => some o
  | none => if n ∈ e.frees.map Int.ofNat then none else m n

/-- The objects that there are after some edits. -/
def after (es : List Edit) : Int → Option IndObj := es.foldl Edit.apply fun _ => none

/-- Objects as printed, with an empty line after each. -/
def objectsText (os : List IndObj) : Bytes := os.flatMap fun o => o.toBytes ++ b!"\n"

/-- A number with at least `k` digits. -/
def padded (k n : Nat) : Bytes := List.replicate (k - (natDigits n).length) 48 ++ natDigits n

/-- The entries of the table for objects that are written from `pos`. -/
def putRows : Nat → List IndObj → List (Nat × Line)
  | _, [] => []
  | pos, o :: os => (o.number.toNat, ⟨pos, o.generation.toNat, true⟩) :: putRows (pos + (o.toBytes ++ b!"\n").length) os

/-- The entries of the table for an edit that is written from `pos`. -/
def Edit.rows (pos : Nat) (e : Edit) : List (Nat × Line) := e.frees.map (fun n => (n, ⟨0, 65535, false⟩)) ++ putRows pos e.puts

/-- An entry of the table, in a subsection of its own. -/
def rowText (r : Nat × Line) : Bytes :=
  natDigits r.1 ++ (b!" 1\n" ++ (padded 10 r.2.offset ++ (b!" " ++ (padded 5 r.2.generation ++ (b!" " ++ ((if r.2.inUse then b!"n" else b!"f") ++ b!" \n"))))))

/-- The table of an edit that is written from `pos`, up to the dictionary of the trailer. -/
def Edit.table (pos : Nat) (e : Edit) : Bytes := b!"xref\n" ++ ((e.rows pos).flatMap rowText ++ b!"trailer\n")

/-- The entry for the table before. -/
def prevText : Option Nat → Bytes
  | none => []
  | some p => b!"/Prev " ++ natDigits p

/-- An edit that is written from `pos`. `prev`: where the table before is. -/
def Edit.text (root pos : Nat) (prev : Option Nat) (e : Edit) : Bytes :=
  objectsText e.puts ++ (e.table pos ++ (b!"<<" ++ ((b!"/Root " ++ (natDigits root ++ (b!" 0 R" ++ (prevText prev ++ b!">>")))) ++ (b!"\n" ++
    (b!"startxref\n" ++ (natDigits (pos + (objectsText e.puts).length) ++ b!"\n%%EOF\n"))))))

/-- Edits that are written from `pos`. -/
def editsText (root : Nat) : Nat → Option Nat → List Edit → Bytes
  | _, _, [] => []
  | pos, prev, e :: es => e.text root pos prev ++ editsText root (pos + (e.text root pos prev).length) (some (pos + (objectsText e.puts).length)) es

/-- The file. -/
def fileText (root : Nat) (es : List Edit) : Bytes := b!"%PDF-1.4\n" ++ editsText root 9 none es

/-- No table of these edits takes one byte less than a multiple of 4096 (C55). -/
def TablesFit (root : Nat) : Nat → Option Nat → List Edit → Prop
  | _, _, [] => True
  | pos, prev, e :: es => (e.table pos).length % 4096 ≠ 4095 ∧ TablesFit root (pos + (e.text root pos prev).length) (some (pos + (objectsText e.puts).length)) es

/-- The first edit puts an object. -/
def Begins (es : List Edit) : Prop := ∃ e rest, es = e :: rest ∧ e.puts ≠ []

/-- An edit that can be written: the objects, if any, are of a kind that is read as it is printed; the word `xref`
does not occur in them; the first one has none of the keys that the code would take from it (C74). -/
structure Edit.Writable (e : Edit) : Prop where
  objects : ∀ o ∈ e.puts, Reprintable o ∧ NotXref o ∧ o.number < 2 ^ 62 ∧ Lacks b!"xref" o.toBytes
  frees : ∀ n ∈ e.frees, n < 2 ^ 62
  first : ∀ o, e.puts.head? = some o → ∀ d : Dict, o.value = .dict d → d.get? b!"Prev" = none ∧ d.get? b!"Encrypt" = none

/-- The same for objects as they are stored, with any filters. -/
structure Edit.Stored (e : Edit) : Prop where
  objects : ∀ o ∈ e.puts, Storable o ∧ NotXref o ∧ o.number < 2 ^ 62 ∧ Lacks b!"xref" o.toBytes
  frees : ∀ n ∈ e.frees, n < 2 ^ 62
  first : ∀ o, e.puts.head? = some o → ∀ d : Dict, o.value = .dict d → d.get? b!"Prev" = none ∧ d.get? b!"Encrypt" = none

end Pdf.Spec
