import Verif.Spec.Layout
import Verif.Spec.Report
/-!
Documents (ISO 32000-1, 7.5): a head, then objects, a cross reference table and a trailer or a cross reference stream, and
`startxref`, then any number of incremental updates of the same form; the first part may be linearized.
-/

namespace Pdf.Spec
open Pdf

/-- A cross reference section. -/
inductive Sect
  /-- a table: subsections; entries of the trailer; messages that reading the trailer gives; `xref`, the subsections,
  `trailer`, white space; the trailer dictionary after `<<`; what is between it and `startxref` -/
  | table (subs : List (Nat × List Line)) (trailer : List (Bytes × Obj)) (notes : List Err) (front dict gap : Bytes)
  /-- a stream: subsections; widths of the fields; where the stream is; the object -/
  | stream (subs : List (Nat × List Field)) (w0 w1 w2 : Nat) (here : Nat) (part : Part)

/-- What a section says about objects. A stream is in use where it is, whatever it says about itself. -/
def Sect.entries : Sect → List (Int × XrefEntry)
  | .table subs _ _ _ _ _ => listed subs
  | .stream subs _ _ _ here x => listedFields subs ++ [(x.obj.number, ⟨here, x.obj.generation, 1, false, false⟩)]

/-- The entries of a dictionary. -/
def entriesOf : Obj → List (Bytes × Obj)
  | .dict D => D
  | _ => []

/-- The entries of the trailer; those of the stream are its dictionary. -/
def Sect.trailer : Sect → List (Bytes × Obj)
  | .table _ trailer _ _ _ _ => trailer
  | .stream _ _ _ _ _ x => entriesOf x.obj.value

/-- What is between the objects and `startxref`. -/
def Sect.text : Sect → Bytes
  | .table _ _ _ front dict gap => front ++ (60 :: 60 :: (dict ++ gap))
  | .stream _ _ _ _ _ _ => []

/-- An update of a document, or its first part. -/
structure Update where
  /-- objects, one after the other; when the section is a stream it is the last one -/
  parts : List Part
  /-- the cross reference section -/
  sect : Sect
  /-- `startxref`, the offset of the section, `%%EOF`, white space -/
  back : Bytes

/-- What follows the objects. -/
def Update.tail (u : Update) : Bytes := u.sect.text ++ u.back

/-- All of it. -/
def Update.text (u : Update) : Bytes := joined u.parts ++ u.tail

/-- The whole file. -/
def docText (P : Bytes) (us : List Update) : Bytes := P ++ us.flatMap (·.text)

/-- Where the section is, when the update starts at `pos`. -/
def Update.place (u : Update) (pos : Nat) : Nat :=
  match u.sect with
  | .table .. => pos + (joined u.parts).length
  | .stream .. => pos + (joined u.parts.dropLast).length

/-- Where the word `xref` in `startxref` is, when the update starts at `pos`. -/
def Update.word (u : Update) (pos : Nat) : Nat := pos + (joined u.parts ++ (u.sect.text ++ b!"start")).length

/-- The places where the word `xref` may be. -/
def xrefWords : Nat → List Update → List Nat
  | _, [] => []
  | pos, u :: us => u.place pos :: u.word pos :: xrefWords (pos + u.text.length) us

/-- `startxref`, a number, `%%EOF`, white space -/
inductive BackText : Nat → Bytes → Bytes → Prop
  | mk {w w' r : Bytes} {ds : List Nat} : w ≠ [] → (∀ b ∈ w ++ w', b = 9 ∨ b = 10 ∨ b = 12 ∨ b = 13 ∨ b = 32) → ds ≠ [] → (∀ d ∈ ds, d < 10) → (∀ b ∈ r, IsWhite b) →
      BackText (decVal ds) r (b!"startxref" ++ (w ++ (ds.map decDigit ++ (w' ++ (b!"%%EOF" ++ r)))))

/-- The section of an update that starts at `pos`. A table that takes one byte less than a multiple of 4096 is left out
(C55). A stream has /Index, or /Size when it lists the numbers from 0; its first field is there (C60); it is never encrypted. -/
inductive SectAt (cd : Codecs) (pos : Nat) (u : Update) : Prop
  | table {subs trailer notes front dict gap} : u.sect = .table subs trailer notes front dict gap → (∀ p ∈ u.parts, NotXref p.obj) →
      TableText subs front → (∃ t, front = b!"xref" ++ t) → front.length % 4096 ≠ 4095 → (∀ z, DictAny trailer dict z notes) → SectAt cd pos u
  | stream {subs w0 w1 w2 x ps D more extra} : u.sect = .stream subs w0 w1 w2 (pos + (joined ps).length) x → u.parts = ps ++ [x] → (∀ p ∈ ps, NotXref p.obj) →
      x.obj.number ≠ 0 → x.obj.value = .dict D → x.obj.stream = some (dataOf w0 w1 w2 subs ++ extra) →
      (Assoc.get? D b!"Index" = some (.arr (indexOf subs)) ∨ Assoc.get? D b!"Index" = none ∧ ∃ fs, subs = [(0, fs)] ∧ Assoc.get? D b!"Size" = some (.num (.fin (fs.length : Nat)))) →
      Assoc.get? D b!"W" = some (.arr (.num (.fin (w0 : Nat)) :: .num (.fin (w1 : Nat)) :: .num (.fin (w2 : Nat)) :: more)) →
      0 < w0 → w0 ≤ 2 ^ 48 → w1 ≤ 2 ^ 48 → w2 ≤ 2 ^ 48 → (∀ p ∈ subs, p.1 + p.2.length < 2 ^ 53 ∧ ∀ f ∈ p.2, Fits w0 w1 w2 f) → ObjectText cd x.obj x.notes x.text → SectAt cd pos u

/-- An offset at which there is neither the word `xref` nor the header of an object. -/
structure Lost (file : Bytes) (m : Int) : Prop where
  range : 0 ≤ m ∧ m < 2 ^ 63
  noTable : ∀ w r, Blank w → Stops r → file.drop m.toNat ≠ w ++ (b!"xref" ++ r)
  noObject : ∀ ds gs h r, HeaderText ds gs h → Stops r → file.drop m.toNat ≠ h ++ r

/-- An update that starts at `pos`. `prev` is the place of the section before, `r` what follows `%%EOF`; `stray` tells which
offsets may be given in place of the right ones, and whether /Prev may be missing. When there is a section before, the first
object does not have a key /Prev, because the code takes its dictionary for a trailer. -/
structure UpdateAt (rd : Reading) (stray : Option Int → Prop) (pos : Nat) (prev : Option Nat) (u : Update) (r : Bytes) : Prop where
  parts : ∀ p ∈ u.parts, ObjectText rd p.obj p.notes p.text
  sect : SectAt rd.cd pos u
  back : ∃ m, BackText m r u.back ∧ (m = u.place pos ∨ stray (some m))
  word : Lacks b!"obj" u.tail
  hasPrev : ∀ p, prev = some p → (∃ x : F64, (dictOf u.sect.trailer).get? b!"Prev" = some (.num x) ∧ (x.toInt = p ∨ stray (some x.toInt))) ∨
    (dictOf u.sect.trailer).get? b!"Prev" = none ∧ stray none
  noPrev : prev = none → (dictOf u.sect.trailer).get? b!"Prev" = none
  first : prev ≠ none → ∀ p, u.parts.head? = some p → ∀ d : Dict, p.obj.value = .dict d → d.get? b!"Prev" = none

/-- A document whose first update starts at `pos`. Only the last one may end without a line break; it is short enough for
the code to find `startxref`. -/
inductive Updates (rd : Reading) (stray : Option Int → Prop) : Nat → Option Nat → List Update → Prop
  | last {pos prev u r} : UpdateAt rd stray pos prev u r → u.back.length ≤ 256 → Updates rd stray pos prev [u]
  | cons {pos prev u r us} : UpdateAt rd stray pos prev u r → (10 ∈ r ∨ 13 ∈ r) → Updates rd stray (pos + u.text.length) (some (u.place pos)) us → Updates rd stray pos prev (u :: us)

/-- Objects with the places where they start. -/
def placedParts : Nat → List Part → List (Nat × Part)
  | _, [] => []
  | pos, p :: ps => (pos, p) :: placedParts (pos + p.text.length) ps

/-- All objects of a document with their places. -/
def placed : Nat → List Update → List (Nat × Part)
  | _, [] => []
  | pos, u :: us => placedParts pos u.parts ++ placed (pos + u.text.length) us

/-- The last object with a number. -/
def lastPlaced (l : List (Nat × Part)) (n : Int) : Option (Nat × Part) := l.reverse.find? fun q => q.2.obj.number = n

/-- What belongs together in a document: the objects and the section of an update; in a linearized document, those of its
first two parts. -/
structure Revision where
  parts : List Part
  entries : List (Int × XrefEntry)
  trailer : List (Bytes × Obj)

/-- An update as it is. -/
def Update.revision (u : Update) : Revision := ⟨u.parts, u.sect.entries, u.sect.trailer⟩

/-- The first section names a section before it: the document is linearized (ISO 32000-1, Annex F), and the section before it
is the second in the file. -/
def linear : List Update → Bool
  | u :: _ :: _ => ((dictOf u.sect.trailer).get? b!"Prev").isSome
  | _ => false

/-- The first two parts of a linearized document. What the first section says is newer. -/
def firstTwo (u v : Update) : Revision := ⟨u.parts ++ v.parts, v.sect.entries ++ u.sect.entries, v.sect.trailer ++ u.sect.trailer⟩

/-- What belongs together, the oldest first. -/
def revisions (us : List Update) : List Revision :=
  match linear us, us with
  | true, u :: v :: us => firstTwo u v :: us.map Update.revision
  | _, us => us.map Update.revision

/-- What the sections say about a number: the newest one that lists it. -/
def entryFor (us : List Update) (n : Int) : Option XrefEntry := lastFor ((revisions us).flatMap (·.entries)) n

/-- What the trailers say about a key: the newest one that has it. -/
def trailerFor (us : List Update) (k : Bytes) : Option Obj := lastFor ((revisions us).flatMap (·.trailer)) k

/-- The dictionary of the first object of one of the updates. -/
def FirstDict (us : List Update) (d : Dict) : Prop := ∃ v ∈ us, ∃ p, v.parts.head? = some p ∧ p.obj.value = .dict d

/-- Every cross reference stream has /Type /XRef, and no later object has its number. (The second `<` of its dictionary is
not the first byte of a block of 4096 bytes, C55.) -/
def Findable (file : Bytes) (pos : Nat) (us : List Update) : Prop :=
  ∀ u ∈ us, ∀ subs w0 w1 w2 here x, u.sect = .stream subs w0 w1 w2 here x →
    (∃ D, HasDict file here D ∧ lastFor D b!"Type" = some (.name b!"XRef")) ∧ ∃ q, lastPlaced (placed pos us) x.obj.number = some q ∧ q.1 = here

/-- A linearized document. The section of `u`, which is the first in the file, says that the section before it is that of
`v`, which is the second; that one names none. The last `startxref` names the section of `u`, or there are updates, and the
first of them says that the section before it is that of `u`. What `startxref` after `u` says does not matter. -/
inductive Linearized (rd : Reading) (P : Bytes) : List Update → Prop
  | mk {u v us r r' x} : UpdateAt rd (fun _ => True) P.length (some (v.place (P.length + u.text.length))) u r → (10 ∈ r ∨ 13 ∈ r) →
      (dictOf u.sect.trailer).get? b!"Prev" = some (.num x) → x.toInt = v.place (P.length + u.text.length) →
      UpdateAt rd (fun _ => True) (P.length + u.text.length) none v r' →
      (∀ p, v.parts.head? = some p → ∀ d : Dict, p.obj.value = .dict d → d.get? b!"Prev" = none) →
      (us = [] ∧ BackText (u.place P.length) r' v.back ∧ v.back.length ≤ 256 ∨
        (10 ∈ r' ∨ 13 ∈ r') ∧ Updates rd (fun _ => False) (P.length + u.text.length + v.text.length) (some (u.place P.length)) us) →
      Linearized rd P (u :: v :: us)

/-- The updates of a document: either all offsets that lead from one section to the next are right, or those that are not
lead nowhere; then all cross reference streams can be found without them, and no first object of an update has a key of the
trailers. -/
inductive Joined (rd : Reading) (P : Bytes) (us : List Update) : Prop
  | linked : Updates rd (fun _ => False) P.length none us → Joined rd P us
  | linearized : Linearized rd P us → Joined rd P us
  | found : Updates rd (fun m => ∀ x, m = some x → Lost (docText P us) x) P.length none us → Findable (docText P us) P.length us →
      (∀ d, FirstDict us.tail d → ∀ k, trailerFor us k ≠ none → d.get? k = none) → Joined rd P us

/-- A document: its first part has an object (updates need not have one), the head `P` does not end in a digit or in an open
comment, and the word `xref` occurs only where it should. -/
structure Document (rd : Reading) (P : Bytes) (us : List Update) : Prop where
  sections : Joined rd P us
  nonempty : ∀ u, us.head? = some u → u.parts ≠ []
  head : Lacks b!"obj" P
  start : ∀ a b, P = a ++ [b] → ¬ IsDec b
  noOpen : NoOpen P
  words : ∀ a b, docText P us = a ++ (b!"xref" ++ b) → a.length ∈ xrefWords P.length us
  short : (docText P us).length < 2 ^ 63

/-- What sections say, the newest entry for a number being the last, is right about the objects: it lists them, and as in use
only those, where they are or where another object is or no number. -/
structure RightTable (file : Bytes) (objects : List (Nat × Part)) (entries : List (Int × XrefEntry)) : Prop where
  inUse : ∀ n x, lastFor entries n = some x → x.typ = 1 → ∃ q, lastPlaced objects n = some q ∧
    (∃ off : Nat, x.offset = off ∧ (off = q.1 ∨ Usable file n off)) ∧ x.generation = q.2.obj.generation
  all : ∀ q ∈ objects, ∃ x, lastFor entries q.2.obj.number = some x ∧ x.typ = 1

/-- The section of every update is right about the objects of that update. -/
def RightUpdates (file : Bytes) : Nat → List Update → Prop
  | _, [] => True
  | pos, u :: us => RightTable file (placedParts pos u.parts) u.sect.entries ∧ RightUpdates file (pos + u.text.length) us

/-- All sections are right, about what belongs together. -/
def RightTables (file : Bytes) (pos : Nat) (us : List Update) : Prop :=
  match linear us, us with
  | true, u :: v :: us => RightTable file (placed pos [u, v]) (v.sect.entries ++ u.sect.entries) ∧ RightUpdates file (pos + u.text.length + v.text.length) us
  | _, us => RightUpdates file pos us

/-- The object with a number as a document with updates is meant: the newest update that lists the number has it, unless
it says that the number is free or in an object stream (see `Spec.InStream`). -/
def meant (us : List Update) (n : Int) : Option Part :=
  match (revisions us).reverse.find? fun r => (lastFor r.entries n).isSome with
  | none => none
  | some r => if (lastFor r.entries n).any fun x => x.typ = 1 then lastWith r.parts n else none

/-- A dictionary of a document. -/
def DictIn (us : List Update) (d : Dict) : Prop := ∃ n p, meant us n = some p ∧ d ∈ dictsOf p.obj

/-- What a reference to `n` stands for, the objects `seen` having been visited on the way: the value and the stream of the
first object that is not a reference itself. A number that no object has stands for null, and so does a cycle. -/
inductive Final (us : List Update) : List Int → Int → Obj → Option Bytes → Prop
  | seen {v n} : n ∈ v → Final us v n .null none
  | free {v n} : n ∉ v → meant us n = none → Final us v n .null none
  | stop {v n p} : n ∉ v → meant us n = some p → (∀ m g, p.obj.value ≠ .ref m g) → Final us v n p.obj.value p.obj.stream
  | next {v n p m g o s} : n ∉ v → meant us n = some p → p.obj.value = .ref m g → Final us (n :: v) m o s → Final us v n o s

/-- The view tells what the references in a document stand for. -/
def Means (us : List Update) (view : View) : Prop := ∀ n, Final us [] n (view.value n) (view.stream n)

/-- No dictionary of the document has its kids in an array given by reference. -/
def KidsInPlace (us : List Update) : Prop := ∀ n p, meant us n = some p → ∀ d ∈ dictsIn p.obj.value, ∀ m g, d.get? b!"Kids" ≠ some (.ref m g)

/-- No dictionary of the document has an endless way down that uses only kids given as dictionaries. (None has when all give their
kids in place.) -/
def KidsEnd (us : List Update) : Prop := ∀ view, Means us view → ∀ n p, meant us n = some p → ∀ d ∈ dictsIn p.obj.value, ¬ Endless view.value d

/-- Every stream of the document, taken for a character map, can be loaded in finite time (see C44). -/
def StreamsLoad (us : List Update) : Prop := ∀ n p, meant us n = some p → ∀ data, p.obj.stream = some data → ∃ font, newFont data = .ok font

end Pdf.Spec
