import Verif.Spec.IndObj
import Verif.Model.Xref
/-!
Cross reference sections (ISO 32000-1, 7.5.4, 7.5.5, 7.5.8) and object markers in a file.
-/

namespace Pdf.Spec

/-- The value of bytes, most significant first. -/
def bigEndian : Bytes → Nat
  | [] => 0
  | b :: t => b.toNat * 256 ^ t.length + bigEndian t

/-- The last value a list gives for a key. -/
def lastFor {κ α : Type} [DecidableEq κ] (l : List (κ × α)) (k : κ) : Option α := (l.reverse.find? fun p => p.1 = k).map (·.2)

/-- White space or comments, at least one byte. -/
def Gap (w : Bytes) : Prop := Blank w ∧ w ≠ []

/-- An unsigned decimal number that fits 63 bits. -/
inductive NatText : Nat → Bytes → Prop
  | mk {ds : List Nat} : (∀ d ∈ ds, d < 10) → ds ≠ [] → decVal ds < 2 ^ 63 → NatText (decVal ds) (ds.map decDigit)

/-- One entry of a table: offset, generation, in use. -/
structure Line where
  offset : Nat
  generation : Nat
  inUse : Bool

/-- Entries of a subsection. -/
inductive LinesText : List Line → Bytes → Prop
  | nil : LinesText [] []
  | cons {w o ot w1 g gt w2 u ls t} : Gap w → NatText o ot → Gap w1 → NatText g gt → Gap w2 → LinesText ls t →
      LinesText (⟨o, g, u⟩ :: ls) (w ++ (ot ++ (w1 ++ (gt ++ (w2 ++ ((if u then [110] else [102]) ++ t))))))

/-- Subsections: the first object number, the number of entries, the entries. -/
inductive SectionsText : List (Nat × List Line) → Bytes → Prop
  | nil : SectionsText [] []
  | cons {w a at' w1 ct ls lt ss t} : Gap w → NatText a at' → Gap w1 → NatText ls.length ct → LinesText ls lt →
      a + ls.length < 2 ^ 63 → SectionsText ss t →
      SectionsText ((a, ls) :: ss) (w ++ (at' ++ (w1 ++ (ct ++ (lt ++ t)))))

/-- What an entry of a table says. -/
def Line.entry (l : Line) : XrefEntry := ⟨l.offset, l.generation, if l.inUse then 1 else 0, true, false⟩

/-- The entries of a subsection, with the object numbers they are for. -/
def numbered : Nat → List Line → List (Int × XrefEntry)
  | _, [] => []
  | a, l :: ls => ((a : Int), l.entry) :: numbered (a + 1) ls

/-- All entries of a table. -/
def listed (ss : List (Nat × List Line)) : List (Int × XrefEntry) := ss.flatMap fun p => numbered p.1 p.2

/-- A table up to the trailer dictionary: `xref`, subsections, `trailer`, white space. -/
inductive TableText : List (Nat × List Line) → Bytes → Prop
  | mk {w st w1 w2 ss} : Blank w → SectionsText ss st → Gap w1 → Blank w2 →
      TableText ss (w ++ (b!"xref" ++ (st ++ (w1 ++ (b!"trailer" ++ w2)))))

/-- Fields of a cross reference stream: type, offset, generation. -/
structure Field where
  typ : Nat
  offset : Nat
  generation : Nat

/-- `n` as `w` bytes, most significant first. -/
def toBigEndian : Nat → Nat → Bytes
  | 0, _ => []
  | w + 1, n => UInt8.ofNat (n / 256 ^ w % 256) :: toBigEndian w n

/-- Entries of a subsection of a cross reference stream, written with the given widths. -/
def fieldBytes (w0 w1 w2 : Nat) (fs : List Field) : Bytes :=
  fs.flatMap fun f => toBigEndian w0 f.typ ++ (toBigEndian w1 f.offset ++ toBigEndian w2 f.generation)

/-- The fields fit the widths, and 63 bits. -/
def Fits (w0 w1 w2 : Nat) (f : Field) : Prop :=
  f.typ < 256 ^ w0 ∧ f.offset < 256 ^ w1 ∧ f.generation < 256 ^ w2 ∧ f.typ < 2 ^ 63 ∧ f.offset < 2 ^ 63 ∧ f.generation < 2 ^ 63

/-- What an entry of a stream says. -/
def Field.entry (f : Field) : XrefEntry := ⟨f.offset, f.generation, f.typ, true, false⟩

/-- The entries of a subsection, with the object numbers they are for. -/
def numberedFields : Nat → List Field → List (Int × XrefEntry)
  | _, [] => []
  | a, f :: fs => ((a : Int), f.entry) :: numberedFields (a + 1) fs

/-- All entries of a cross reference stream. -/
def listedFields (ss : List (Nat × List Field)) : List (Int × XrefEntry) := ss.flatMap fun p => numberedFields p.1 p.2

/-- The /Index array: first object number and number of entries of each subsection. -/
def indexOf (ss : List (Nat × List Field)) : List Obj := ss.flatMap fun p => [.num (.fin (p.1 : Nat)), .num (.fin (p.2.length : Nat))]

/-- The data of a cross reference stream. -/
def dataOf (w0 w1 w2 : Nat) (ss : List (Nat × List Field)) : Bytes := ss.flatMap fun p => fieldBytes w0 w1 w2 p.2

/-! ### Object markers -/

/-- A decimal digit. -/
def IsDec (b : UInt8) : Prop := 48 ≤ b.toNat ∧ b.toNat ≤ 57

/-- White space, at least one byte. -/
def White (w : Bytes) : Prop := w ≠ [] ∧ ∀ b ∈ w, IsWhite b

/-- `n g obj` after `pre`: separated by white space; `obj` is a whole word; the digits of `n` do not
continue digits at the end of `pre`; the last line of `pre` has no comment. -/
structure Marker (file pre : Bytes) (ds gs : List Nat) : Prop where
  text : ∃ w w' r, file = pre ++ (ds.map decDigit ++ (w ++ (gs.map decDigit ++ (w' ++ (b!"obj" ++ r))))) ∧ White w ∧ White w' ∧ Stops r
  number : ds ≠ [] ∧ ∀ d ∈ ds, d < 10
  generation : gs ≠ [] ∧ ∀ d ∈ gs, d < 10
  start : ∀ a b, pre = a ++ [b] → ¬ IsDec b
  comment : ∀ a c, pre = a ++ 37 :: c → ∃ b ∈ c, b = 10 ∨ b = 13

/-- At `off` there are the header of an object and a dictionary with the entries `es`, and the second `<` is
not the first byte of a block of 4096 bytes from `off`. -/
def HasDict (file : Bytes) (off : Nat) (es : List (Bytes × Obj)) : Prop :=
  ∃ ds gs h w t z e, HeaderText ds gs h ∧ Blank w ∧ DictAny es t z e ∧ file.drop off = h ++ (w ++ (60 :: 60 :: (t ++ z))) ∧
    (h.length + w.length) % 4096 ≠ 4095

/-- The number `n` is what comes first (after white space and comments) at an offset. -/
def NumberAt (file : Bytes) (off : Nat) (n : Int) : Prop :=
  ∃ (w : Bytes) (ds : List Nat) (r : Bytes), file.drop off = w ++ (ds.map decDigit ++ r) ∧ Blank w ∧ ds ≠ [] ∧ (∀ d ∈ ds, d < 10) ∧ NoDigit r ∧ IsInt64Of (Spec.decVal ds) n

/-- An offset at which any object header stands, or another number than `n` or none. -/
inductive Usable (file : Bytes) (n : Int) (off : Nat) : Prop
  | header {ds gs : List Nat} {h t : Bytes} : HeaderText ds gs h → Stops t → file.drop off = h ++ t → Usable file n off
  | number : n ≠ 0 → ¬ NumberAt file off n → Usable file n off

/-- White space and comments, where a comment may end before the end of its line: at least one byte. -/
inductive LooseGap : Bytes → Prop
  | white {b} : IsWhite b → LooseGap [b]
  | comment {c} : (∀ b ∈ c, b ≠ 10 ∧ b ≠ 13) → LooseGap (37 :: c)
  | append {w w'} : LooseGap w → LooseGap w' → LooseGap (w ++ w')

/-- Text that starts like an object marker, in a wider sense. -/
def LooseMarker (ds : List Nat) (t : Bytes) : Prop :=
  ds ≠ [] ∧ (∀ d ∈ ds, d < 10) ∧ ∃ w gs w' r, t = ds.map decDigit ++ (w ++ (gs.map decDigit ++ (w' ++ (b!"obj" ++ r)))) ∧
    LooseGap w ∧ gs ≠ [] ∧ (∀ d ∈ gs, d < 10) ∧ LooseGap w'

/-- Such text after `pre`, not in the middle of a number. -/
def LooseAt (file pre : Bytes) (ds : List Nat) : Prop :=
  (∃ t, file = pre ++ t ∧ LooseMarker ds t) ∧ ∀ a b, pre = a ++ [b] → ¬ IsDec b

/-- The file ends, within its last 256 bytes, in `startxref`, the number `n` and `%%EOF`. -/
def EndsInStart (file : Bytes) (n : Nat) : Prop :=
  ∃ (a w w' r : Bytes) (ds : List Nat), file = a ++ (b!"startxref" ++ (w ++ (ds.map decDigit ++ (w' ++ (b!"%%EOF" ++ r))))) ∧
    (∀ b ∈ w ++ w', b = 9 ∨ b = 10 ∨ b = 12 ∨ b = 13 ∨ b = 32) ∧ ds ≠ [] ∧ (∀ d ∈ ds, d < 10) ∧ decVal ds = n ∧
    file.length ≤ a.length + 256 ∧ ∀ x y, r ≠ x ++ (b!"startxref" ++ y)

end Pdf.Spec
