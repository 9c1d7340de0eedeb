import Verif.Lemmas.Filters
import Verif.Lemmas.Ascii85
import Verif.Lemmas.Png
import Verif.Lemmas.Tiff
/-!
C28-C32, C34, C56: the stream filters.
-/

namespace Pdf.Props
open Pdf Spec

/-- **C28** Every hex encoding of `d` (any letter case, white space anywhere, last digit possibly
omitted), with nothing or the `>` marker and arbitrary bytes after it, decodes to `d`. -/
theorem C28_asciiHex_inverts {d t : Bytes} (h : HexText d t) :
    asciiHexDecode t = d ∧ ∀ rest, asciiHexDecode (t ++ ch%'>' :: rest) = d := by
  constructor
  · simpa [asciiHexDecode] using asciiHexLoop_text h [] (Or.inl rfl) t.length (Nat.le_refl _) []
  · intro rest
    simpa [asciiHexDecode] using asciiHexLoop_text h (62 :: rest) (Or.inr ⟨rest, rfl⟩)
      (t ++ 62 :: rest).length (by simp) []

/-- "4a 6F\n7" is a hex text for `J o p`. -/
example : HexText b!"Jop" b!"4a 6F\n7" :=
  .byte (h := 4) (l := 10) (sp := []) (by simp [IsHexDigit, hexLower, hexUpper])
    (by simp [IsHexDigit, hexLower, hexUpper]) (by simp)
    (.ws (by simp [IsWhite]) (.byte (h := 6) (l := 15) (sp := []) (by simp [IsHexDigit, hexLower, hexUpper])
      (by simp [IsHexDigit, hexLower, hexUpper]) (by simp)
      (.ws (by simp [IsWhite]) (.odd (h := 7) (sp := []) (by simp [IsHexDigit, hexLower, hexUpper]) (by simp)))))

/-- **C30** Whatever runs the data is split into, decoding the runs gives back the data, with or
without the end marker and whatever follows it. -/
theorem C30_runLength_inverts (rs : List Run) (h : ∀ r ∈ rs, r.Valid) :
    runLengthDecode (rs.flatMap Run.encode) = rs.flatMap Run.bytes ∧
    ∀ rest, runLengthDecode (rs.flatMap Run.encode ++ 128 :: rest) = rs.flatMap Run.bytes := by
  constructor
  · obtain ⟨g, _, e⟩ := runLengthLoop_runs rs h [] (rs.flatMap Run.encode).length [] (by simp)
    simp only [List.append_nil] at e
    rw [runLengthDecode, e]
    cases g <;> simp [runLengthLoop]
  · intro rest
    obtain ⟨g, hg, e⟩ := runLengthLoop_runs rs h (128 :: rest)
      (rs.flatMap Run.encode ++ 128 :: rest).length [] (by simp)
    rw [runLengthDecode, e]
    cases g <;> simp [runLengthLoop]

example : ∀ r ∈ [Run.lit b!"ab", Run.rep 100 7], r.Valid := by simp [Run.Valid]

/-- **C30** (size) On any input the output is at most 64 times as long as the input. -/
theorem C30_runLength_bounded (d : Bytes) : (runLengthDecode d).length ≤ 64 * d.length := by
  simpa [runLengthDecode] using runLengthLoop_bound d.length d []

/-! ### C29 -/

/-- **C29, refuted** There is a byte string that ASCII85Decode does not restore from its standard
encoding: the single byte `A`, encoded as `5l`, comes back as `@`. -/
theorem C29_ascii85_inverts_false : ¬ ∀ d : Bytes, ascii85Decode (encode85 d ++ b!"~>") = d := by
  intro h
  exact absurd (h b!"A") (by decide)

/-- **C29, partial** What is missing is the last group when the length is not a multiple of 4. White
space anywhere, `z` groups, with or without the `~` marker and anything after it. The data is restored
exactly when its length is a multiple of 4, or the base-85 digits dropped from the last group are all
zero; and the complete groups are always restored. -/
theorem C29_ascii85_inverts_partial {d s : Bytes} (h : Spaced (encode85 d) s) (tail : Bytes)
    (ht : tail = [] ∨ ∃ r, tail = ch%'~' :: r) :
    let last := d.drop (d.length / 4 * 4)
    (ascii85Decode (s ++ tail)).take (d.length / 4 * 4) = d.take (d.length / 4 * 4) ∧
    (ascii85Decode (s ++ tail)).length = d.length ∧
    (ascii85Decode (s ++ tail) = d ↔
      (d.length % 4 = 0 ∨ beVal (last ++ List.replicate (4 - last.length) 0) % 85 ^ (4 - last.length) = 0)) := by
  intro last
  have e : ascii85Decode (s ++ tail) = d.take (d.length / 4 * 4) ++
      (be32 (padded85 last)).take (d.length % 4) := by
    rw [ascii85Decode, ascii85Loop_spaced h, ascii85Loop_encode ht]; rfl
  have hlast : last.length = d.length % 4 := by simp only [last, List.length_drop]; omega
  have hlen : (d.take (d.length / 4 * 4)).length = d.length / 4 * 4 := by
    rw [List.length_take]; omega
  refine ⟨?_, ?_, ?_⟩
  · rw [e]; exact List.take_left' hlen
  · rw [e, List.length_append, hlen, List.length_take]; simp only [be32, List.length_cons, List.length_nil]; omega
  · rw [e]
    conv => lhs; rhs; rw [← List.take_append_drop (d.length / 4 * 4) d]
    rw [List.append_cancel_left_eq]
    show List.take _ _ = last ↔ _
    by_cases h0 : d.length % 4 = 0
    · have : last = [] := List.eq_nil_of_length_eq_zero (by omega)
      rw [this]; simp [h0]
    · rw [← hlast, last85_ok_iff last (by omega) (by omega)]
      constructor
      · exact Or.inr
      · rintro (h | h)
        · omega
        · exact h

example : Spaced (encode85 [0, 0, 0, 0, 1, 2, 3, 4]) b!"z!<\nN?+" := by
  have : encode85 [0, 0, 0, 0, 1, 2, 3, 4] = b!"z!<N?+" := by decide
  rw [this]
  exact .byte (.byte (.byte (.ws (by simp [IsWhite]) (.byte (.byte (.byte .nil))))))

/-! ### C31 -/

/-- **C31, refuted** RGB data filtered with the Sub algorithm (3 bytes per pixel) is not restored: the
decoder takes the byte before as the left neighbour instead of the byte one pixel before. -/
theorem C31_png_inverts_false : ¬ ∀ (bpc colors columns : Nat) (rows : List (UInt8 × Nat × Bytes)),
    (∀ x ∈ rows, x.1.toNat = x.2.1 ∧ x.2.1 ≤ 4 ∧ x.2.2.length = rowBytes bpc colors columns) →
    reversePredictor (pngFilter ((bpc * colors + 7) / 8) [] rows) 15 bpc colors columns
      = .ok (rows.flatMap (·.2.2)) := by
  intro h
  exact absurd (h 8 3 2 [(1, 1, [1, 2, 3, 4, 5, 6])] (by decide +kernel)) (by decide +kernel)

/-- **C31, partial** What is missing are Sub, Average and Paeth rows for images of more than one byte per
pixel. Everything else is restored: Predictor 15 with a tag per row, or Predictor 10 to 14 whatever the
tags are, all five algorithms for up to one byte per pixel, None and Up for any pixel size. -/
theorem C31_png_inverts_partial (bpc colors columns : Nat) (predictor : Int)
    (rows : List (UInt8 × Nat × Bytes))
    (hbpc : 1 ≤ bpc ∧ bpc ≤ 16) (hcol : 1 ≤ colors ∧ 1 ≤ columns)
    (hsize : bpc * colors * columns < 9223372036854775808)
    (hrows : ∀ x ∈ rows, x.2.1 ≤ 4 ∧ x.2.2.length = rowBytes bpc colors columns ∧
      ((bpc * colors + 7) / 8 = 1 ∨ x.2.1 = 0 ∨ x.2.1 = 2) ∧
      (predictor = 15 ∧ x.1.toNat = x.2.1 ∨ predictor = 10 + x.2.1))
    (hp : 10 ≤ predictor ∧ predictor ≤ 15) :
    reversePredictor (pngFilter ((bpc * colors + 7) / 8) [] rows) predictor bpc colors columns
      = .ok (rows.flatMap (·.2.2)) := by
  have hpos : 0 < rowBytes bpc colors columns := by
    have : 0 < bpc * colors * columns := Nat.mul_pos (Nat.mul_pos hbpc.1 hcol.1) hcol.2
    rw [rowBytes]; omega
  rw [reversePredictor, if_neg (by omega)]
  simp only [rowWidth_eq hsize hcol.2]
  rw [if_neg (by omega), if_neg (by omega), if_neg (by omega), if_pos hp, Int.toNat_natCast]
  have hlen : ∀ (rows : List (UInt8 × Nat × Bytes)) prev, rows.length ≤ (pngFilter ((bpc * colors + 7) / 8) prev rows).length := by
    intro rows
    induction rows with
    | nil => intro _; simp
    | cons x t ih =>
      intro prev
      obtain ⟨tag, alg, cur⟩ := x
      have := ih cur
      simp only [pngFilter, pngFilterRow, List.length_cons, List.length_append]; omega
  have := pngRows_filter (bpp := (bpc * colors + 7) / 8) (w := rowBytes bpc colors columns) (predictor := predictor)
    rows (fun x hx => ?_) 0 (pngFilter ((bpc * colors + 7) / 8) [] rows).length [] [] (by simp) (hlen _ _) (by simp)
  · simpa using this
  · obtain ⟨h1, h2, h3, h4⟩ := hrows x hx
    refine ⟨h1, h3, h2, ?_⟩
    unfold pngMethodOk
    rcases h4 with ⟨h5, h6⟩ | h5
    · rw [if_pos h5]; exact h6
    · rw [if_neg (by omega)]; exact h5

/-- Three rows of two grey pixels using Sub, Paeth and Average. -/
example : ∀ x ∈ [((1 : UInt8), 1, ([1, 2] : Bytes)), (4, 4, [7, 9]), (3, 3, [200, 100])],
    x.2.1 ≤ 4 ∧ x.2.2.length = rowBytes 8 1 2 ∧ ((8 * 1 + 7) / 8 = 1 ∨ x.2.1 = 0 ∨ x.2.1 = 2) ∧
      ((15 : Int) = 15 ∧ x.1.toNat = x.2.1 ∨ (15 : Int) = 10 + x.2.1) := by decide +kernel

/-! ### C56, C32 -/

/-- **C56** For a field of 1 to 24 bits, at any position: GetBits returns the big-endian number of these
bits (zeros past the end of the data); SetBits changes the bits of the field, inside the data, to those
of the value and no other bit, and keeps the length; and reading after writing inside the data gives the
low `n` bits of the value. -/
theorem C56_bits (d : Bytes) (p n v : Nat) (h1 : 1 ≤ n) (h2 : n ≤ 24) :
    getBits d p n = .ok (field d p n) ∧
    ∃ d', setBits d p n v = .ok d' ∧ d'.length = d.length ∧
      (∀ i, bit d' i = if p ≤ i ∧ i < p + n ∧ i < 8 * d.length then v.testBit (p + n - 1 - i) else bit d i) ∧
      (p + n ≤ 8 * d.length → getBits d' p n = .ok (v % 2 ^ n)) := by
  refine ⟨getBits_field d p n h1 (by omega), ?_⟩
  obtain ⟨d', e1, e2, e3⟩ := setBits_spec d p n v h1 (by omega) (by omega)
  refine ⟨d', e1, e2, e3, fun hle => ?_⟩
  rw [getBits_field d' p n h1 (by omega)]
  congr 1
  apply Nat.eq_of_testBit_eq
  intro k
  rw [field_testBit, Nat.testBit_mod_two_pow]
  by_cases hk : k < n
  · rw [e3, if_pos (by omega), show p + n - 1 - (p + (n - 1 - k)) = k by omega]
  · simp [hk]

example : setBits [0xff, 0x00, 0xff] 6 5 0b01101 = .ok [0xfd, 0xa0, 0xff] ∧
    getBits [0xfd, 0xa0, 0xff] 6 5 = .ok 0b01101 := by decide +kernel

/-- **C32** For every image of whole rows with 1 to 16 bits per component, any number of colors and columns,
`ReversePredictor` with Predictor 2 restores it from its horizontally differenced form. (The data must
be shorter than 2^60 bytes, that is, it must fit in memory.) -/
theorem C32_tiff_inverts (bpc colors columns rows : Nat) (D E : Bytes)
    (hbpc : 1 ≤ bpc ∧ bpc ≤ 16) (hcol : 1 ≤ colors ∧ 1 ≤ columns) (hlen : D.length < 2 ^ 60)
    (h : TiffDiff bpc colors columns rows D E) :
    reversePredictor E 2 bpc colors columns = .ok D := by
  have hpos : 0 < rowBytes bpc colors columns := by
    have : 0 < bpc * colors * columns := Nat.mul_pos (Nat.mul_pos hbpc.1 hcol.1) hcol.2
    rw [rowBytes]; omega
  rw [reversePredictor, if_neg (by omega)]
  by_cases hr : rows = 0
  · subst hr
    have hD : D = [] := List.eq_nil_of_length_eq_zero (by rw [h.lenD]; simp)
    subst hD
    have hE : E = [] := List.eq_nil_of_length_eq_zero (by rw [h.lenE]; rfl)
    subst hE
    generalize (wrap64 (wrap64 ((bpc : Int) * colors) * columns)).tdiv 8 +
      (if (wrap64 (wrap64 ((bpc : Int) * colors) * columns)).tmod 8 > 0 then 1 else 0) = w
    simp [tiffRows]
  · have hrow : rowBytes bpc colors columns ≤ D.length := by
      rw [h.lenD]; exact Nat.le_mul_of_pos_left _ (by omega)
    have hsize : bpc * colors * columns < 9223372036854775808 := by
      have : bpc * colors * columns ≤ 8 * rowBytes bpc colors columns := by rw [rowBytes]; omega
      omega
    simp only [rowWidth_eq hsize hcol.2]
    rw [if_neg (by omega), if_neg (by omega)]
    simp only [if_true]
    have hRD : rows ≤ D.length := by rw [h.lenD]; exact Nat.le_mul_of_pos_right _ hpos
    have := tiffRows_spec h hbpc.1 hbpc.2 (by omega) hcol.2 hpos (E.length + 1) 0 E (by omega)
      (by rw [h.lenE]; omega) ⟨h.lenE, fun k _ => by rw [if_neg (by omega)]⟩
    exact this

/-- One row of three 4-bit samples 1, 3, 2 (and 4 padding bits) stored as 1, 2, -1. -/
example : TiffDiff 4 1 3 1 [0x13, 0x2f] [0x12, 0xff] where
  lenD := by decide
  lenE := by decide
  first r i hr hi := by
    obtain rfl : r = 0 := by omega
    obtain rfl : i = 0 := by omega
    decide +kernel
  diff r c i hr hc1 hc hi := by
    obtain rfl : r = 0 := by omega
    obtain rfl : i = 0 := by omega
    rcases (show c = 1 ∨ c = 2 by omega) with rfl | rfl <;> decide +kernel
  pad r k hr h1 h2 := by
    obtain rfl : r = 0 := by omega
    have h2 : k < 16 := h2
    rcases (show k = 12 ∨ k = 13 ∨ k = 14 ∨ k = 15 by omega) with rfl | rfl | rfl | rfl <;> decide +kernel

/-! ### C34 -/

/-- **C34, refuted** Reversing a TIFF predictor panics for some parameters: with
`/Predictor 2 /BitsPerComponent 8 /Colors 1152921504606847232 /Columns 2` a bit position overflows `int`
and becomes a negative index. -/
theorem C34_no_panic_false : ¬ ∀ (data : Bytes) (predictor bpc colors columns : Int),
    ∃ out, reversePredictor data predictor bpc colors columns = .ok out := by
  intro h
  obtain ⟨out, ho⟩ := h [1] 2 8 1152921504606847232 2
  have : reversePredictor [1] 2 8 1152921504606847232 2 = .panic "index out of range" := by
    decide +kernel
  rw [this] at ho; cases ho

/-- **C34, partial** What is missing are TIFF parameters so large that bit positions overflow 64 bits.
Otherwise undoing prediction returns for every data and all parameters (negative and unknown ones
included); with the PNG predictors it always does, even when the row size overflows. -/
theorem C34_no_panic_partial (data : Bytes) (predictor bpc colors columns : Int)
    (hlen : data.length < 2 ^ 60)
    (h : predictor = 2 → 0 < bpc → 0 < colors → 1 < columns → 8 * data.length + bpc * colors * columns < 2 ^ 63) :
    ∃ out, reversePredictor data predictor bpc colors columns = .ok out := by
  rw [reversePredictor]
  split
  · exact ⟨_, rfl⟩
  simp only
  generalize (wrap64 (wrap64 (bpc * colors) * columns)).tdiv 8 +
    (if (wrap64 (wrap64 (bpc * colors) * columns)).tmod 8 > 0 then 1 else 0) = w
  split
  · exact ⟨_, rfl⟩
  split
  · exact ⟨_, rfl⟩
  split
  · obtain ⟨d, e, _⟩ := tiffRows_total bpc colors columns w data.length (by omega) (by omega)
      (fun hK hM => by have := h (by assumption) (by omega) hK hM; omega) (by omega) (data.length + 1) 0 data (by omega) rfl
    exact ⟨d, e⟩
  split
  · exact pngRows_total _ _ (by omega) _ _ _ _ (by simp)
  · exact ⟨_, rfl⟩

end Pdf.Props
