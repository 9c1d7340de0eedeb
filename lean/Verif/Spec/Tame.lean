import Verif.Spec.Resolve
import Verif.Spec.Extract
import Verif.Model.Xref
/-!
Files without the features that can make the program run forever or crash.
-/

namespace Pdf.Spec

/-- The integer given for a key, if it is given directly. -/
def intOr (d : Dict) (k : Bytes) (dflt : Int) : Int := match d.get? k with
  | some (.num x) => x.toInt
  | _ => dflt

/-- A dictionary without references in what `GetObject` needs to decode a stream,
with the kids of a tree listed in place, sensible field widths if it is that of a cross reference stream,
an image size below 2^62 bits if it asks for the TIFF predictor, a /U longer than eight bytes if it can be an
encryption dictionary, and a key length of at most 16 bytes if it can be a crypt filter dictionary. -/
structure TameDict (d : Dict) : Prop where
  direct : ∀ k ∈ [b!"Type", b!"Filter", b!"DecodeParms"], ∀ o, d.get? k = some o → ∀ m, ¬ Refers o m
  kids : ∀ n g, d.get? b!"Kids" ≠ some (.ref n g)
  width : ∀ n g, d.get? b!"W" ≠ some (.ref n g)
  widths : ∀ l, d.get? b!"W" = some (.arr l) → ∀ o ∈ l.take 3, (∀ n g, o ≠ .ref n g) ∧ ∀ x, o = .num x → 0 ≤ x.toInt ∧ x.toInt ≤ 2 ^ 48
  predictor : intOr d b!"Predictor" 1 = 2 → intOr d b!"BitsPerComponent" 8 * intOr d b!"Colors" 1 * intOr d b!"Columns" 1 < 2 ^ 62
  user : d.get? b!"Filter" ≠ none → ∀ o, d.get? b!"U" = some o → (∀ n g, o ≠ .ref n g) ∧ ∀ b, o = .str b → 8 < b.length
  method : d.get? b!"CFM" ≠ none → ∀ o, d.get? b!"Length" = some o → (∀ n g, o ≠ .ref n g) ∧ ∀ x, o = .num x → 0 ≤ x.toInt ∧ x.toInt ≤ 16

/-- Every dictionary that `ReadObject` finds at any position of the file is such a dictionary. -/
def Tame (file : Bytes) : Prop := ∀ s d err s', readObj file noDec s = .ok ((.dict d, err), s') → TameDict d

/-- Decompressed data is not longer than 2^59 bytes, which is more than a 64-bit machine can address. -/
def Moderate (cd : Codecs) : Prop := (∀ d out e, cd.zlib d = some (out, e) → out.length < 2 ^ 59) ∧ ∀ b d, (cd.lzw b d).1.length < 2 ^ 59

/-- No dictionary that `ReadObject` finds at any position of the file asks for decryption. -/
def Unencrypted (file : Bytes) : Prop := ∀ s d err s', readObj file noDec s = .ok ((.dict d, err), s') → Assoc.get? d b!"Encrypt" = none

/-- Once the file is loaded with the password, every stream that `GetObject` returns is a character map that
can be loaded in finite time (see C44). -/
def MapsEnd (file : Bytes) (ext : Ext) (verbose : Option Bool) (password : Bytes) : Prop :=
  ∀ ord f fx ls, load ⟨file, ext, verbose⟩ ord f fx password LS.init = .ok (none, ls) →
    ∀ f n s o s', getObject (ls.env ⟨file, ext, verbose⟩) f n s = .ok (o, s') → ∀ d, o.stream = some d → ∃ font, newFont d = .ok font

end Pdf.Spec
