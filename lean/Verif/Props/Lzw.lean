import Verif.Lemmas.Lzw
import Verif.Lemmas.GetObj
import Verif.Spec.Tame
import Verif.Spec.Coding
import Verif.Props.Filters
import Verif.Model.GetObject
import Verif.Model.Concrete
/-!
# LZWDecode (C91)
-/

namespace Pdf.Props
open Pdf.Spec St

theorem getInt_plain {parms : Dict} {k : Bytes} (h : ∀ n g, parms.get? k ≠ some (.ref n g)) (rs : Resolver) (dflt : Int) (s : PS) :
    ∃ o, Dict.getInt rs parms k s = .ok (o, s) ∧ o.getD dflt = intOr parms k dflt := by
  rw [intOr]
  cases hk : parms.get? k with
  | none => exact ⟨none, Dict.getInt_none s hk, rfl⟩
  | some o =>
    refine ⟨_, Dict.getInt_direct s hk (by rintro n g rfl; exact h n g hk), ?_⟩
    cases o <;> rfl

theorem reversePredictorM_plain {parms : Dict} (h : PlainParms parms) (rs : Resolver) {data out : Bytes} (s : PS)
    (hr : reversePredictor data (intOr parms b!"Predictor" 1) (intOr parms b!"BitsPerComponent" 8) (intOr parms b!"Colors" 1) (intOr parms b!"Columns" 1) = .ok out) :
    reversePredictorM rs data parms s = .ok (out, s) := by
  obtain ⟨o1, a1, b1⟩ := getInt_plain (h b!"Predictor" (by simp)) rs 1 s
  obtain ⟨o2, a2, b2⟩ := getInt_plain (h b!"BitsPerComponent" (by simp)) rs 8 s
  obtain ⟨o3, a3, b3⟩ := getInt_plain (h b!"Colors" (by simp)) rs 1 s
  obtain ⟨o4, a4, b4⟩ := getInt_plain (h b!"Columns" (by simp)) rs 1 s
  rw [reversePredictorM, bind_of_ok a1, bind_of_ok a2, bind_of_ok a3, bind_of_ok a4, b1, b2, b3, b4, hr]
  rfl

/-- **C91** Both readers undo every LZW encoding, whatever follows the code for the end of data. -/
theorem C91_readers {early : Bool} {data enc : Bytes} (h : IsLzw early data enc) : lzwReader early enc = (data, false) := lzwReader_isLzw h

/-- **C91** Every byte string has an encoding, and an encoding determines the byte string. -/
theorem C91_exists (early : Bool) (data : Bytes) : (∃ enc, IsLzw early data enc) ∧ ∀ enc data', IsLzw early data enc → IsLzw early data' enc → data' = data := by
  refine ⟨isLzw_exists early data, fun enc data' h h' => ?_⟩
  have := (C91_readers h').symm.trans (C91_readers h)
  exact congrArg Prod.fst this

/-- **C91** A stream with the filter LZWDecode is decoded to the data that was encoded, one code early unless /EarlyChange is 0,
with prediction undone. -/
theorem C91_decode {cd : Codecs} (hcd : cd.lzw = lzwReader) {parms : Dict} (hp : PlainParms parms) {data enc out : Bytes} (h : IsLzw (decide (intOr parms b!"EarlyChange" 1 ≠ 0)) data enc)
    (hr : reversePredictor data (intOr parms b!"Predictor" 1) (intOr parms b!"BitsPerComponent" 8) (intOr parms b!"Colors" 1) (intOr parms b!"Columns" 1) = .ok out) (rs : Resolver) (s : PS) :
    decodeStream cd rs b!"LZWDecode" (some enc) parms s = .ok (some out, s) := by
  have hne : enc ≠ [] := by
    rintro rfl
    have := C91_readers h
    rw [show lzwReader _ [] = ([], true) from rfl] at this
    cases this
  have hl : lzwDecode cd rs enc parms s = .ok (out, s) := by
    obtain ⟨o, a, b⟩ := getInt_plain (hp b!"EarlyChange" (by simp)) rs 1 s
    rw [lzwDecode, bind_of_ok a, b, hcd]
    simp only [C91_readers h, Bool.and_false, Bool.false_eq_true, if_false]
    exact reversePredictorM_plain hp rs s hr
  cases enc with
  | nil => exact absurd rfl hne
  | cons b e =>
    show (lzwDecode cd rs (b :: e) parms >>= fun d => pure (some d)) s = _
    rw [bind_of_ok hl]
    rfl

/-- **C91** The same without prediction. -/
theorem C91_plain {cd : Codecs} (hcd : cd.lzw = lzwReader) {parms : Dict} (hp : PlainParms parms) (hno : parms.get? b!"Predictor" = none) {data enc : Bytes}
    (h : IsLzw (decide (intOr parms b!"EarlyChange" 1 ≠ 0)) data enc) (rs : Resolver) (s : PS) :
    decodeStream cd rs b!"LZWDecode" (some enc) parms s = .ok (some data, s) := by
  refine C91_decode hcd hp h ?_ rs s
  rw [show intOr parms b!"Predictor" 1 = 1 by rw [intOr, hno]]
  simp only [reversePredictor, if_true, ite_self]

/-- The example of ISO 32000-1, 7.4.4.2: the codes are 256, 45, 258, 258, 65, 259, 66, 257; the second 258 follows the first. -/
theorem standard_example : IsLzw true [45, 45, 45, 45, 45, 65, 45, 45, 45, 66] [0x80, 0x0B, 0x60, 0x50, 0x22, 0x0C, 0x0C, 0x85, 0x01] := by
  have h0 : PhraseBits true [] 0 [] := .nil
  let ps : List Bytes := [[45], [45, 45], [45, 45], [65], [45, 45, 45], [66]]
  have h1 : PhraseBits true ps 0 (numBits 9 45 ++ (numBits 9 258 ++ (numBits 9 258 ++ (numBits 9 65 ++ (numBits 9 259 ++ (numBits 9 66 ++ [])))))) :=
    .cons (k := 0) (.literal (b := 45) rfl) <| .cons (k := 1) (.entry (i := 0) (p := [45]) (b := 45) (q := [45]) (by decide) rfl rfl rfl) <|
    .cons (k := 2) (.entry (i := 0) (p := [45]) (b := 45) (q := [45]) (by decide) rfl rfl rfl) <| .cons (k := 3) (.literal (b := 65) rfl) <|
    .cons (k := 4) (.entry (i := 1) (p := [45, 45]) (b := 45) (q := [45]) (by decide) rfl rfl rfl) <| .cons (k := 5) (.literal (b := 66) rfl) .nil
  have := LzwBits.clear (by decide) h0 (LzwBits.last (rest := []) (by decide) h1)
  have e : toBits [0x80, 0x0B, 0x60, 0x50, 0x22, 0x0C, 0x0C, 0x85, 0x01] = [] ++ (numBits (codeWidth true 0) 256 ++
      ((numBits 9 45 ++ (numBits 9 258 ++ (numBits 9 258 ++ (numBits 9 65 ++ (numBits 9 259 ++ (numBits 9 66 ++ [])))))) ++ (numBits (codeWidth true 6) 257 ++ []))) := by decide +kernel
  rw [IsLzw, e]
  exact this

example (rs : Resolver) (s : PS) : decodeStream Concrete.ext.toCodecs rs b!"LZWDecode" (some [0x80, 0x0B, 0x60, 0x50, 0x22, 0x0C, 0x0C, 0x85, 0x01]) [] s =
    .ok (some [45, 45, 45, 45, 45, 65, 45, 45, 45, 66], s) :=
  C91_plain (parms := []) rfl (by intro k _ n g h; cases h) rfl standard_example rs s

/-- With EarlyChange 0 and prediction: the data of /repo/pdf/test/filter_lzw_decode.pdf. -/
example : lzwReader false [52, 25, 77, 128, 64, 82, 208, 22, 0, 41, 61, 94, 170, 248, 8] = ([104, 101, 108, 4, 10, 180, 11, 0, 82, 245, 245, 175], false) := by decide +kernel

end Pdf.Props
