import Verif.Spec.Filters
import Verif.Spec.IndObj
import Verif.Spec.Tame
import Verif.Spec.Flate
/-!
Data encoded by the standard filters, one after the other (ISO 32000-1, 7.4).
-/

namespace Pdf.Spec
open Pdf

/-- The parameters of the filters and of prediction are not references. -/
def PlainParms (parms : Dict) : Prop :=
  ∀ k ∈ [b!"EarlyChange", b!"Predictor", b!"BitsPerComponent", b!"Colors", b!"Columns"], ∀ n g, parms.get? k ≠ some (.ref n g)

/-- `w` is what the predictor that the parameters name makes of the data. The default is none. -/
inductive Predicted (p : Dict) : Bytes → Bytes → Prop
  | none {d} : intOr p b!"Predictor" 1 = 1 → Predicted p d d
  | tiff {bpc colors columns rows : Nat} {d w} : intOr p b!"Predictor" 1 = 2 → intOr p b!"BitsPerComponent" 8 = bpc → intOr p b!"Colors" 1 = colors → intOr p b!"Columns" 1 = columns →
      1 ≤ bpc ∧ bpc ≤ 16 → 1 ≤ colors ∧ 1 ≤ columns → d.length < 2 ^ 60 → TiffDiff bpc colors columns rows d w → Predicted p d w
  | png {bpc colors columns : Nat} {rows : List (UInt8 × Nat × Bytes)} : intOr p b!"BitsPerComponent" 8 = bpc → intOr p b!"Colors" 1 = colors → intOr p b!"Columns" 1 = columns →
      1 ≤ bpc ∧ bpc ≤ 16 → 1 ≤ colors ∧ 1 ≤ columns → bpc * colors * columns < 2 ^ 63 → 10 ≤ intOr p b!"Predictor" 1 ∧ intOr p b!"Predictor" 1 ≤ 15 →
      (∀ x ∈ rows, x.2.1 ≤ 4 ∧ x.2.2.length = rowBytes bpc colors columns ∧ ((bpc * colors + 7) / 8 = 1 ∨ x.2.1 = 0 ∨ x.2.1 = 2) ∧
        (intOr p b!"Predictor" 1 = 15 ∧ x.1.toNat = x.2.1 ∨ intOr p b!"Predictor" 1 = 10 + x.2.1)) →
      Predicted p (rows.flatMap (·.2.2)) (pngFilter ((bpc * colors + 7) / 8) [] rows)

/-- The base-85 digits that the encoding of the last, incomplete group leaves out, as a number. -/
def Dropped85 (d : Bytes) : Nat :=
  let last := d.drop (d.length / 4 * 4)
  beVal (last ++ List.replicate (4 - last.length) 0) % 85 ^ (4 - last.length)

/-- `enc` is an encoding of the data for the filter `f` with parameters `p`. -/
inductive Coded (p : Dict) : Bytes → Bytes → Bytes → Prop
  | hex {d t} : HexText d t → Coded p b!"ASCIIHexDecode" d t
  | hexEnd {d t rest} : HexText d t → Coded p b!"ASCIIHexDecode" d (t ++ ch%'>' :: rest)
  | base85 {d s tail} : d.length % 4 = 0 ∨ Dropped85 d = 0 → Spaced (encode85 d) s → (tail = [] ∨ ∃ r, tail = ch%'~' :: r) → Coded p b!"ASCII85Decode" d (s ++ tail)
  | runs {rs : List Run} : (∀ r ∈ rs, r.Valid) → Coded p b!"RunLengthDecode" (rs.flatMap Run.bytes) (rs.flatMap Run.encode)
  | runsEnd {rs : List Run} {rest} : (∀ r ∈ rs, r.Valid) → Coded p b!"RunLengthDecode" (rs.flatMap Run.bytes) (rs.flatMap Run.encode ++ 128 :: rest)
  | lzw {d w enc} : PlainParms p → Predicted p d w → IsLzw (decide (intOr p b!"EarlyChange" 1 ≠ 0)) w enc → Coded p b!"LZWDecode" d enc
  | flate {d w enc} : PlainParms p → Predicted p d w → IsZlib w enc → Coded p b!"FlateDecode" d enc

/-- `raw` is the data after all encodings; the filters are listed from the last encoding to the first, with the parameters at
the same position. -/
inductive CodedBy : List Bytes → List Dict → Bytes → Bytes → Prop
  | nil {ps d} : CodedBy [] ps d d
  | cons {f fs ps d mid raw} : Coded (ps.headD []) f mid raw → CodedBy fs ps.tail d mid → CodedBy (f :: fs) ps d raw

/-- A stored object, and the object with the data that is encoded. (The code takes a carriage return at the end of the
data for a part of the line break.) -/
inductive DataOf : IndObj → IndObj → Prop
  | value {n g v} : DataOf ⟨n, g, v, none⟩ ⟨n, g, v, none⟩
  | stream {n g D fs ps d raw} : Filters D fs → Parms D ps → (∀ a b, D.get? b!"Type" ≠ some (.ref a b)) → raw.getLast? ≠ some 13 →
      CodedBy fs ps d raw → d ≠ [] → DataOf ⟨n, g, .dict D, some raw⟩ ⟨n, g, .dict D, some d⟩

end Pdf.Spec
