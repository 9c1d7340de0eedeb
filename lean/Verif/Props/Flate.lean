import Verif.Lemmas.Flate
import Verif.Props.Lzw
/-!
# FlateDecode (C92)
-/

namespace Pdf.Props
open Pdf.Spec St

/-- **C92** The reader undoes every compression of data that RFC 1950 and RFC 1951 allow, whatever follows the check sum. -/
theorem C92_reader {data enc : Bytes} (h : IsZlib data enc) : zlibReader enc = some (data, false) := zlibReader_isZlib h

/-- **C92** Only compressed data is read without an error (the second byte says that there is no preset dictionary). -/
theorem C92_exact {cmf flg : UInt8} {body data : Bytes} (h : flg.toNat.testBit 5 = false) :
    zlibReader (cmf :: flg :: body) = some (data, false) ↔ IsZlib data (cmf :: flg :: body) := zlibReader_iff h

theorem stored_exists {rest : List Bool} (hr : rest.length % 8 = 0) : ∀ (n : Nat) (before data : Bytes), data.length ≤ n → ∃ bits, bits.length % 8 = 0 ∧ Deflated rest before data bits
  | 0, before, data, h => by
    have hb : BlockBits before data rest 0 (List.replicate 5 false ++ _) := .stored (by omega) (by decide) hr
    refine ⟨_, ?_, .last hb⟩
    simp only [List.length_cons, List.length_append, lowNum_length, lowFirst_length, List.length_replicate]
    omega
  | n + 1, before, data, h => by
    by_cases hs : data.length < 2 ^ 16
    · have hb : BlockBits before data rest 0 (List.replicate 5 false ++ _) := .stored hs (by decide) hr
      refine ⟨_, ?_, .last hb⟩
      simp only [List.length_cons, List.length_append, lowNum_length, lowFirst_length, List.length_replicate]
      omega
    · have hl : (data.take 1000).length = 1000 := by rw [List.length_take]; omega
      obtain ⟨more, h1, h2⟩ := stored_exists hr n (before ++ data.take 1000) (data.drop 1000) (by rw [List.length_drop]; omega)
      have hb : BlockBits before (data.take 1000) more 0 (List.replicate 5 false ++ _) := .stored (by omega) (by decide) h1
      have := Deflated.more hb h2
      rw [List.take_append_drop] at this
      refine ⟨_, ?_, this⟩
      simp only [List.length_cons, List.length_append, lowNum_length, lowFirst_length, List.length_replicate]
      omega

/-- **C92** Every byte string can be compressed, and what is compressed determines it. -/
theorem C92_exists (data : Bytes) : (∃ enc, IsZlib data enc) ∧ ∀ enc data', IsZlib data enc → IsZlib data' enc → data' = data := by
  refine ⟨?_, fun enc data' h h' => ?_⟩
  · obtain ⟨c, hc⟩ : ∃ c, c = checkSum data := ⟨_, rfl⟩
    have hlt : c < 2 ^ 32 := by rw [hc, checkSum]; omega
    have hb : ∀ n, n < 256 → (UInt8.ofNat n).toNat = n := by intro n hn; simp; omega
    obtain ⟨bits, h1, h2⟩ := stored_exists (rest := lowFirst [UInt8.ofNat (c / 2 ^ 24), UInt8.ofNat (c / 2 ^ 16 % 256), UInt8.ofNat (c / 2 ^ 8 % 256), UInt8.ofNat (c % 256)])
      (by rw [lowFirst_length]; omega) data.length [] data (Nat.le_refl _)
    obtain ⟨body, rfl⟩ := bytes_of_lowBits (bits.length / 8) bits (by omega)
    refine ⟨_, 0x78, 0x01, body, [], _, _, _, _, [], rfl, by decide, by decide, by decide, by decide, by decide, ?_, h2⟩
    rw [hb _ (by omega), hb _ (by omega), hb _ (by omega), hb _ (by omega), ← hc]
    omega
  · have := (C92_reader h').symm.trans (C92_reader h)
    exact congrArg Prod.fst (Option.some.inj this)

/-- **C92** A stream with the filter FlateDecode is decoded to the data that was compressed, with prediction undone. -/
theorem C92_decode {cd : Codecs} (hcd : cd.zlib = zlibReader) {parms : Dict} (hp : PlainParms parms) {data enc out : Bytes} (h : IsZlib data enc)
    (hr : reversePredictor data (intOr parms b!"Predictor" 1) (intOr parms b!"BitsPerComponent" 8) (intOr parms b!"Colors" 1) (intOr parms b!"Columns" 1) = .ok out) (rs : Resolver) (s : PS) :
    decodeStream cd rs b!"FlateDecode" (some enc) parms s = .ok (some out, s) := by
  have hl : flateDecode cd rs enc parms s = .ok (out, s) := by
    rw [flateDecode, hcd, C92_reader h]
    simp only [Bool.and_false, Bool.false_eq_true, if_false]
    exact reversePredictorM_plain hp rs s hr
  cases enc with
  | nil =>
    obtain ⟨_, _, _, _, _, _, _, _, _, he, _⟩ := h
    cases he
  | cons b e =>
    show (flateDecode cd rs (b :: e) parms >>= fun d => pure (some d)) s = _
    rw [bind_of_ok hl]
    rfl

/-- **C92** The same without prediction. -/
theorem C92_plain {cd : Codecs} (hcd : cd.zlib = zlibReader) {parms : Dict} (hp : PlainParms parms) (hno : parms.get? b!"Predictor" = none) {data enc : Bytes}
    (h : IsZlib data enc) (rs : Resolver) (s : PS) :
    decodeStream cd rs b!"FlateDecode" (some enc) parms s = .ok (some data, s) := by
  refine C92_decode hcd hp h ?_ rs s
  rw [show intOr parms b!"Predictor" 1 = 1 by rw [intOr, hno]]
  simp only [reversePredictor, if_true, ite_self]

/-- `hello hello hello` with fixed codes and a match. -/
theorem fixed_example : IsZlib [104, 101, 108, 108, 111, 32, 104, 101, 108, 108, 111, 32, 104, 101, 108, 108, 111]
    [120, 1, 203, 72, 205, 201, 201, 87, 200, 64, 144, 0, 58, 46, 6, 125] :=
  (C92_exact (by decide)).mp (by decide +kernel)

/-- Data with codes of its own. -/
theorem dynamic_example : IsZlib [97, 97, 97, 99, 99, 97, 97, 97, 98, 98, 97, 97, 97, 98, 98, 97, 97, 98, 97, 98, 97, 98, 97, 97, 97, 97, 99, 99, 97, 97, 97, 97, 97, 98, 97, 98, 99, 97, 98, 97, 97, 97, 98, 98, 97, 98, 98, 97, 97, 98, 97, 97, 97, 99, 97, 97, 97, 99, 97, 97, 98, 99, 97, 98, 97, 97, 98, 98, 97, 98]
    [120, 218, 45, 137, 137, 13, 0, 0, 16, 193, 102, 45, 251, 239, 112, 15, 17, 18, 45, 96, 3, 82, 71, 31, 138, 255, 155, 202, 248, 85, 105, 196, 241, 1, 178, 213, 26, 171] :=
  (C92_exact (by decide)).mp (by decide +kernel)

example (rs : Resolver) (s : PS) : decodeStream Concrete.ext.toCodecs rs b!"FlateDecode" (some [120, 218, 45, 137, 137, 13, 0, 0, 16, 193, 102, 45, 251, 239, 112, 15, 17, 18, 45, 96, 3, 82, 71, 31, 138, 255, 155, 202, 248, 85, 105, 196, 241, 1, 178, 213, 26, 171]) [] s =
    .ok (some [97, 97, 97, 99, 99, 97, 97, 97, 98, 98, 97, 97, 97, 98, 98, 97, 97, 98, 97, 98, 97, 98, 97, 97, 97, 97, 99, 99, 97, 97, 97, 97, 97, 98, 97, 98, 99, 97, 98, 97, 97, 97, 98, 98, 97, 98, 98, 97, 97, 98, 97, 97, 97, 99, 97, 97, 97, 99, 97, 97, 98, 99, 97, 98, 97, 97, 98, 98, 97, 98], s) :=
  C92_plain (parms := []) rfl (by intro k _ n g h; cases h) rfl dynamic_example rs s

/-- With a wrong check sum there is no error-free result. -/
example : zlibReader [120, 1, 3, 0, 0, 0, 0, 2] = some ([], true) := by decide +kernel

end Pdf.Props
