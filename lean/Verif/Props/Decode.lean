import Verif.Lemmas.Getters
import Verif.Props.Filters
import Verif.Model.GetObject
import Verif.Model.Flate
import Verif.Model.Lzw
/-!
C34: decoding of streams.
-/

namespace Pdf.Props
open Pdf Spec

/-- The integers under a key are below a bound, whatever its references stand for. -/
def Below (rs : Resolver) (d : Dict) (k : Bytes) (b : Int) : Prop := ∀ s v s', Dict.getInt rs d k s = .ok (some v, s') → v < b

/-- **C34, partial** `DecodeStream` returns for every filter name, every data and all parameters, whatever the decompressors make of
the data, when looking up references returns. Missing: decompressed data of 2^59 bytes or more, and numbers from 2^20 for the bits, colors and
columns of a predictor; with larger ones it can panic (`C34_decode_false`). -/
theorem C34_decode_partial (cd : Codecs) {rs : Resolver} (hrs : ∀ n, Total (rs n)) (filter : Bytes) (data : Option Bytes) (parms : Dict)
    (hz : ∀ x out e, data = some x → cd.zlib x = some (out, e) → out.length < 2 ^ 59) (hl : ∀ x c, data = some x → (cd.lzw c x).1.length < 2 ^ 59)
    (h1 : Below rs parms b!"BitsPerComponent" (2 ^ 20)) (h2 : Below rs parms b!"Colors" (2 ^ 20)) (h3 : Below rs parms b!"Columns" (2 ^ 20)) (s : PS) :
    ∃ out s', decodeStream cd rs filter data parms s = .ok (out, s') := by
  have key : ∀ (x : Bytes), x.length < 2 ^ 59 → ∀ s, ∃ out s', reversePredictorM rs x parms s = .ok (out, s') := by
    intro x hx s
    obtain ⟨⟨p, s1⟩, e1⟩ := Dict.getInt_total hrs parms b!"Predictor" s
    obtain ⟨⟨b, s2⟩, e2⟩ := Dict.getInt_total hrs parms b!"BitsPerComponent" s1
    obtain ⟨⟨c, s3⟩, e3⟩ := Dict.getInt_total hrs parms b!"Colors" s2
    obtain ⟨⟨n, s4⟩, e4⟩ := Dict.getInt_total hrs parms b!"Columns" s3
    have hb : b.getD 8 < 2 ^ 20 := by
      cases b with
      | none => decide
      | some v => exact h1 _ _ _ e2
    have hc : c.getD 1 < 2 ^ 20 := by
      cases c with
      | none => decide
      | some v => exact h2 _ _ _ e3
    have hn : n.getD 1 < 2 ^ 20 := by
      cases n with
      | none => decide
      | some v => exact h3 _ _ _ e4
    obtain ⟨out, ho⟩ := C34_no_panic_partial x (p.getD 1) (b.getD 8) (c.getD 1) (n.getD 1) (by omega) (by
      intro _ g1 g2 g3
      generalize b.getD 8 = b at *
      generalize c.getD 1 = c at *
      generalize n.getD 1 = n at *
      have m1 : b * c ≤ 2 ^ 20 * 2 ^ 20 := Int.mul_le_mul (by omega) (by omega) (by omega) (by decide)
      have m2 : b * c * n ≤ 2 ^ 20 * 2 ^ 20 * 2 ^ 20 := Int.mul_le_mul m1 (by omega) (by omega) (by decide)
      omega)
    refine ⟨out, s4, ?_⟩
    rw [reversePredictorM, St.bind_of_ok e1, St.bind_of_ok e2, St.bind_of_ok e3, St.bind_of_ok e4, ho]
    rfl
  have hf : ∀ (x : Bytes) s, data = some x → ∃ out s', flateDecode cd rs x parms s = .ok (out, s') := by
    intro x s hx
    rw [flateDecode]
    cases h : cd.zlib x with
    | none => exact ⟨_, _, rfl⟩
    | some p =>
      obtain ⟨out, e⟩ := p
      dsimp only
      by_cases he : (out.isEmpty && e) = true
      · rw [if_pos he]; exact ⟨_, _, rfl⟩
      · rw [if_neg he]; exact key _ (hz _ _ _ hx h) s
  have hw : ∀ (x : Bytes) s, data = some x → ∃ out s', lzwDecode cd rs x parms s = .ok (out, s') := by
    intro x s hx
    obtain ⟨⟨e, s1⟩, e1⟩ := Dict.getInt_total hrs parms b!"EarlyChange" s
    rw [lzwDecode, St.bind_of_ok e1]
    have := hl x (decide (e.getD 1 ≠ 0)) hx
    cases h : cd.lzw (decide (e.getD 1 ≠ 0)) x with
    | mk out e' =>
      rw [h] at this
      dsimp only
      by_cases he : (out.isEmpty && e') = true
      · rw [if_pos he]; exact ⟨_, _, rfl⟩
      · rw [if_neg he]; exact key _ this s1
  match data, hf, hw with
  | none, _, _ => exact ⟨_, _, rfl⟩
  | some [], _, _ => exact ⟨_, _, rfl⟩
  | some (b :: x), hf, hw =>
    unfold decodeStream
    dsimp only
    by_cases c1 : filter = b!"ASCIIHexDecode"
    · rw [if_pos c1]; exact ⟨_, _, rfl⟩
    rw [if_neg c1]
    by_cases c2 : filter = b!"ASCII85Decode"
    · rw [if_pos c2]; exact ⟨_, _, rfl⟩
    rw [if_neg c2]
    by_cases c3 : filter = b!"RunLengthDecode"
    · rw [if_pos c3]; exact ⟨_, _, rfl⟩
    rw [if_neg c3]
    by_cases c4 : filter = b!"FlateDecode"
    · rw [if_pos c4]
      obtain ⟨out, s', h⟩ := hf (b :: x) s rfl
      exact ⟨_, _, by rw [St.bind_of_ok h]; rfl⟩
    rw [if_neg c4]
    by_cases c5 : filter = b!"LZWDecode"
    · rw [if_pos c5]
      obtain ⟨out, s', h⟩ := hw (b :: x) s rfl
      exact ⟨_, _, by rw [St.bind_of_ok h]; rfl⟩
    rw [if_neg c5]
    exact ⟨_, _, rfl⟩

/-- Parameters of a predictor with far too many colors. -/
def hugeParms : Dict := [(b!"Predictor", .num (.fin 2)), (b!"Colors", .num (.fin 1152921504606847232)), (b!"Columns", .num (.fin 2))]

/-- The byte 1 in a stored block of zlib data. -/
def storedOne : Bytes := [0x78, 0x01, 0x01, 0x01, 0x00, 0xfe, 0xff, 0x01, 0x00, 0x02, 0x00, 0x02]

example (s : PS) : ∃ out s', decodeStream ⟨zlibReader, lzwReader⟩ (fun n => pure ⟨n, 0, .null, none⟩) b!"FlateDecode" (some storedOne) [(b!"Predictor", .num (.fin 2))] s = .ok (out, s') := by
  have hb : ∀ k, k ≠ b!"Predictor" → ∀ b, Below (fun n => pure ⟨n, 0, .null, none⟩) [(b!"Predictor", .num (.fin 2))] k b := by
    intro k hk b s v s' h
    rw [Dict.getInt_none _ (by rw [Assoc.get?, if_neg (fun h => hk h.symm)]; rfl)] at h
    cases h
  refine C34_decode_partial _ (fun n => Total.pure _) _ _ _ ?_ ?_ (hb _ (by decide) _) (hb _ (by decide) _) (hb _ (by decide) _) s
  · intro x out e hx h
    cases hx
    have h1 : zlibReader storedOne = some ([1], false) := by decide +kernel
    have h : zlibReader storedOne = some (out, e) := h
    rw [h1] at h
    cases h
    decide
  · intro x c hx
    cases hx
    have h1 : ∀ c, (lzwReader c storedOne).1.length < 1000 := by decide +kernel
    have := h1 c
    show (lzwReader c storedOne).1.length < _
    omega

/-- **C34 fails**: with `/Predictor 2 /Colors 1152921504606847232 /Columns 2`, `DecodeStream` of a Flate stream with one byte panics. -/
theorem C34_decode_false (rs : Resolver) (cd : Codecs) (hz : cd.zlib = zlibReader) (s : PS) :
    decodeStream cd rs b!"FlateDecode" (some storedOne) hugeParms s = .panic "index out of range" := by
  have h1 : zlibReader storedOne = some ([1], false) := by decide +kernel
  have h2 : reversePredictor [1] 2 8 1152921504606847232 2 = .panic "index out of range" := by decide +kernel
  have h3 : reversePredictorM rs [1] hugeParms s = .panic "index out of range" := by
    rw [reversePredictorM, St.bind_of_ok (Dict.getInt_direct _ (o := .num (.fin 2)) rfl (by rintro n g ⟨⟩)), St.bind_of_ok (Dict.getInt_none _ rfl),
      St.bind_of_ok (Dict.getInt_direct _ (o := .num (.fin 1152921504606847232)) rfl (by rintro n g ⟨⟩)), St.bind_of_ok (Dict.getInt_direct _ (o := .num (.fin 2)) rfl (by rintro n g ⟨⟩))]
    have e1 : ((Obj.asNum? (.num (.fin 2))).map F64.toInt).getD 1 = 2 := by decide +kernel
    have e2 : ((Obj.asNum? (.num (.fin 1152921504606847232))).map F64.toInt).getD 1 = 1152921504606847232 := by decide +kernel
    rw [e1, e2]
    show St.ofRes (reversePredictor [1] 2 8 1152921504606847232 2) s = _
    rw [h2]
    rfl
  have h4 : flateDecode cd rs storedOne hugeParms s = .panic "index out of range" := by
    rw [flateDecode, hz, h1]
    exact h3
  show (flateDecode cd rs storedOne hugeParms >>= fun d => pure (some d)) s = _
  exact St.bind_of_panic h4

end Pdf.Props
