import Verif.Spec.Document
/-!
Hybrid-reference files (ISO 32000-1, 7.5.8.4): a table for readers that do not know cross reference streams, in which the objects that are
hidden from them are free; the stream that lists these is under /XRefStm in the trailer.
-/

namespace Pdf.Spec
open Pdf

/-- The newest section of the file, at the offset after `startxref`, is a table with these lines, and its trailer names a cross reference
stream with these fields. -/
structure Hybrid (cd : Codecs) (file : Bytes) (lines : List (Nat × List Line)) (fields : List (Nat × List Field)) : Prop where
  text : ∃ (off : Nat) (front dict rest : Bytes) (trailer : List (Bytes × Obj)) (notes : List Err) (m : F64) (x : IndObj) (D : Dict) (w0 w1 w2 : Nat) (notes' : List Err) (T rest' : Bytes),
    EndsInStart file off ∧ off < 2 ^ 63 ∧ file.drop off = front ++ (60 :: 60 :: (dict ++ rest)) ∧ TableText lines front ∧ front.length % 4096 ≠ 4095 ∧
    DictAny trailer dict rest notes ∧ (∀ n g, (dictOf trailer).get? b!"Prev" ≠ some (.ref n g)) ∧ (dictOf trailer).get? b!"XRefStm" = some (.num m) ∧ 0 ≤ m.toInt ∧
    file.drop m.toInt.toNat = T ++ rest' ∧ ObjectText cd x notes' T ∧ x.value = .dict D ∧ x.stream = some (dataOf w0 w1 w2 fields) ∧
    D.get? b!"Type" = some (.name b!"XRef") ∧ D.get? b!"Index" = some (.arr (indexOf fields)) ∧ D.get? b!"W" = some (.arr [.num (.fin (w0 : Nat)), .num (.fin (w1 : Nat)), .num (.fin (w2 : Nat))]) ∧
    ∀ p ∈ fields, ∀ f ∈ p.2, Fits w0 w1 w2 f

/-- An object that is free in the table and that the stream lists: its text is at the offset listed there. -/
structure Hidden (cd : Codecs) (file : Bytes) (lines : List (Nat × List Line)) (fields : List (Nat × List Field)) (o : IndObj) : Prop where
  free : ∃ l, lastFor (listed lines) o.number = some l ∧ l.typ = 0
  listed : ∃ x notes T rest, lastFor (listedFields fields) o.number = some x ∧ x.typ = 1 ∧ x.generation = o.generation ∧ 0 ≤ x.offset ∧ file.drop x.offset.toNat = T ++ rest ∧ ObjectText cd o notes T

end Pdf.Spec
