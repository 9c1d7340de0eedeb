import Verif.Spec.Xref
import Verif.Spec.Print
import Verif.Spec.Crypt
/-!
Files made up of objects: one after the other, between a head without objects and a tail without objects.
-/

namespace Pdf.Spec
open Pdf

/-- `lit` occurs nowhere in `t`. -/
def Lacks (lit t : Bytes) : Prop := ∀ a b, t ≠ a ++ (lit ++ b)

/-- No comment is open at the end of `t`. -/
def NoOpen (t : Bytes) : Prop := ∀ a c, t = a ++ 37 :: c → ∃ b ∈ c, b = 10 ∨ b = 13

/-- Nothing in `t` looks like the header of an object. -/
def NoHeader (t : Bytes) : Prop := ∀ a b ds, t = a ++ b → ¬ LooseMarker ds b

/-- `12 0 obj` -/
inductive Head : Nat → Nat → Bytes → Prop
  | mk {ds gs w w'} : (∀ d ∈ ds, d < 10) → ds ≠ [] → decVal ds < 2 ^ 63 → (∀ d ∈ gs, d < 10) → gs ≠ [] → decVal gs < 2 ^ 63 → White w → White w' →
      Head (decVal ds) (decVal gs) (ds.map decDigit ++ (w ++ (gs.map decDigit ++ (w' ++ b!"obj"))))

/-- White space with a line break. -/
def Break (u : Bytes) : Prop := (∀ b ∈ u, IsWhite b) ∧ (10 ∈ u ∨ 13 ∈ u)

/-- What may be between two objects: white space first, white space with a line break last, and the word `obj` does not
occur in it. -/
structure Between (u : Bytes) : Prop where
  first : ∃ b t, u = b :: t ∧ IsWhite b
  last : ∃ a c, u = a ++ c ∧ Break c
  word : Lacks b!"obj" u

/-- The text of an object as it is in the file, with the messages that reading it gives: the header; the value in any
spelling, or a dictionary and data; `endobj`; what is between it and the next one. Nothing in it looks like another header,
and no comment is open before `endobj`. -/
inductive RawText : IndObj → List Err → Bytes → Prop
  | value {n g h w t w' u o es} : Head n g h → Blank w → Stops (w ++ t) → t ≠ [] → (∀ r, ObjAt o t (w' ++ (b!"endobj" ++ r)) es) → Blank w' →
      NoHeader (w ++ (t ++ w')) → NoOpen (w ++ (t ++ w')) → Between u →
      RawText ⟨n, g, o, none⟩ es (h ++ ((w ++ (t ++ w')) ++ (b!"endobj" ++ u)))
  | stream {n g h w t w' eol d v y u D es} : Head n g h → Blank w → Stops (w ++ t) → t ≠ [] → (∀ r, ObjAt (.dict D) t (w' ++ (b!"stream" ++ r)) es) → Blank w' →
      (∀ r, LineBreak eol (d ++ (endMark ++ r))) → (∀ r, FirstMark d r) → Chop d v → Blank y →
      (h ++ (w ++ (t ++ (w' ++ (b!"stream" ++ eol))))).length + 9 ≤ 4096 →
      NoHeader (w ++ (t ++ (w' ++ (b!"stream" ++ (eol ++ (d ++ (endMark ++ y))))))) → NoOpen (w ++ (t ++ (w' ++ (b!"stream" ++ (eol ++ (d ++ (endMark ++ y))))))) → Between u →
      RawText ⟨n, g, .dict D, some v⟩ es (h ++ ((w ++ (t ++ (w' ++ (b!"stream" ++ (eol ++ (d ++ (endMark ++ y))))))) ++ (b!"endobj" ++ u)))

/-- An object with its data, and the object with the data put through the filters of its dictionary. -/
inductive Decoded (cd : Codecs) : IndObj → IndObj → Prop
  | value {n g o} : Decoded cd ⟨n, g, o, none⟩ ⟨n, g, o, none⟩
  | stream {n g D v fs ps out} : Filters D fs → Parms D ps → (∀ a b, Assoc.get? D b!"Type" ≠ some (.ref a b)) → fs.head? ≠ some b!"Crypt" →
      (∀ rs, decodeAll cd rs fs ps (some v) = pure out) → Decoded cd ⟨n, g, .dict D, some v⟩ ⟨n, g, .dict D, out⟩

theorem Decoded.same {cd : Codecs} {a o : IndObj} (h : Decoded cd a o) : a.number = o.number ∧ a.generation = o.generation ∧ a.value = o.value := by
  cases h with
  | value => exact ⟨rfl, rfl, rfl⟩
  | stream _ _ _ _ _ => exact ⟨rfl, rfl, rfl⟩

/-- How texts stand for objects: `rel` is between what is in the file and what is meant. It keeps everything in a value
except strings. -/
structure Reading where
  cd : Codecs
  rel : IndObj → IndObj → Prop
  same : ∀ {a o}, rel a o → a.number = o.number ∧ a.generation = o.generation ∧ (a.value = o.value ∨ ∃ g, a.value = mapStr g o.value)

/-- Nothing is encrypted. -/
def Reading.plain (cd : Codecs) : Reading where
  cd := cd
  rel := Decoded cd
  same := by
    intro a o h
    cases h with
    | value => exact ⟨rfl, rfl, .inl rfl⟩
    | stream _ _ _ _ _ => exact ⟨rfl, rfl, .inl rfl⟩

instance : Coe Codecs Reading := ⟨.plain⟩

/-- The text of an object, with the messages that reading it gives. -/
def ObjectText (rd : Reading) (o : IndObj) (es : List Err) (T : Bytes) : Prop := ∃ a, RawText a es T ∧ rd.rel a o

theorem ObjectText.value {cd : Codecs} {n g h w t w' u o es} (h1 : Head n g h) (h2 : Blank w) (h3 : Stops (w ++ t)) (h4 : t ≠ []) (h5 : ∀ r, ObjAt o t (w' ++ (b!"endobj" ++ r)) es) (h6 : Blank w')
    (h7 : NoHeader (w ++ (t ++ w'))) (h8 : NoOpen (w ++ (t ++ w'))) (h9 : Between u) :
    ObjectText cd ⟨n, g, o, none⟩ es (h ++ ((w ++ (t ++ w')) ++ (b!"endobj" ++ u))) :=
  ⟨_, .value h1 h2 h3 h4 h5 h6 h7 h8 h9, Decoded.value⟩

theorem ObjectText.stream {cd : Codecs} {n g h w t w' eol d v y u D es fs ps out} (h1 : Head n g h) (h2 : Blank w) (h3 : Stops (w ++ t)) (h4 : t ≠ [])
    (h5 : ∀ r, ObjAt (.dict D) t (w' ++ (b!"stream" ++ r)) es) (h6 : Blank w') (h7 : ∀ r, LineBreak eol (d ++ (endMark ++ r))) (h8 : ∀ r, FirstMark d r) (h9 : Chop d v) (h10 : Blank y)
    (h11 : (h ++ (w ++ (t ++ (w' ++ (b!"stream" ++ eol))))).length + 9 ≤ 4096) (h12 : Filters D fs) (h13 : Parms D ps) (h14 : ∀ a b, Assoc.get? D b!"Type" ≠ some (.ref a b))
    (h15 : fs.head? ≠ some b!"Crypt") (h16 : ∀ rs, decodeAll cd rs fs ps (some v) = pure out) (h17 : NoHeader (w ++ (t ++ (w' ++ (b!"stream" ++ (eol ++ (d ++ (endMark ++ y))))))))
    (h18 : NoOpen (w ++ (t ++ (w' ++ (b!"stream" ++ (eol ++ (d ++ (endMark ++ y)))))))) (h19 : Between u) :
    ObjectText cd ⟨n, g, .dict D, out⟩ es (h ++ ((w ++ (t ++ (w' ++ (b!"stream" ++ (eol ++ (d ++ (endMark ++ y))))))) ++ (b!"endobj" ++ u))) :=
  ⟨_, .stream h1 h2 h3 h4 h5 h6 h7 h8 h9 h10 h11 h17 h18 h19, Decoded.stream h12 h13 h14 h15 h16⟩

/-- An object, the messages that reading it gives, its text. -/
structure Part where
  obj : IndObj
  notes : List Err
  text : Bytes

/-- Objects one after the other. -/
def joined (ps : List Part) : Bytes := ps.flatMap (·.text)

/-- The last of them with a number. -/
def lastWith (ps : List Part) (n : Int) : Option Part := ps.reverse.find? fun p => p.obj.number = n

/-- An object that is not a cross reference stream. -/
def NotXref (o : IndObj) : Prop := ∀ d : Dict, o.value = .dict d → d.get? b!"Type" ≠ some (.name b!"XRef")

/-- A file made up of objects: a head `P` and a tail `Q` in which the word `obj` does not occur, the objects between
them. The head does not end in a digit or in an open comment. -/
structure Made (rd : Reading) (P : Bytes) (ps : List Part) (Q : Bytes) : Prop where
  pieces : ∀ p ∈ ps, ObjectText rd p.obj p.notes p.text
  outside : Lacks b!"obj" (P ++ Q)
  start : ∀ a b, P = a ++ [b] → ¬ IsDec b
  noOpen : NoOpen P

/-- An object whose printed form is a text of it: the value prints as a spelling of itself, and nothing in it looks like a
header; data belongs to a dictionary without filters, and has neither what looks like a header nor `endstream` in it. -/
structure Reprintable (o : IndObj) : Prop where
  number : 0 ≤ o.number ∧ o.number < 2 ^ 63
  generation : 0 ≤ o.generation ∧ o.generation < 2 ^ 63
  plain : Plain o.value
  word : NoHeader o.value.toBytes
  stream : ∀ d, o.stream = some d → ∃ D : Dict, o.value = .dict D ∧ D.get? b!"Filter" = none ∧ D.get? b!"DecodeParms" = none ∧ (∀ a b, D.get? b!"Type" ≠ some (.ref a b)) ∧
    o.value.toBytes.length ≤ 4000 ∧ NoHeader d ∧ Lacks endMark d

/-- An object whose printed form is a text of it as it is stored: as `Reprintable`, but with any filters. -/
structure Storable (o : IndObj) : Prop where
  number : 0 ≤ o.number ∧ o.number < 2 ^ 63
  generation : 0 ≤ o.generation ∧ o.generation < 2 ^ 63
  plain : Plain o.value
  word : NoHeader o.value.toBytes
  stream : ∀ d, o.stream = some d → ∃ D : Dict, o.value = .dict D ∧ o.value.toBytes.length ≤ 4000 ∧ NoHeader d ∧ Lacks endMark d

/-- The object with another value. -/
def withValue (o : IndObj) (x : Obj) : IndObj := ⟨o.number, o.generation, x, o.stream⟩

/-- Data without a carriage return at its end. -/
def withoutCR (d : Bytes) : Bytes := if d.getLast? = some 13 then d.dropLast else d

/-- An object as it is read back from its printed form. -/
def reread (o : IndObj) : IndObj := { o with stream := o.stream.map withoutCR }

/-- The object with another generation. -/
def withGeneration (o : IndObj) (g : Int) : IndObj := ⟨o.number, g, o.value, o.stream⟩

end Pdf.Spec
