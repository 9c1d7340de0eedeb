import Verif.Model.Bytes
/-!
Specifications for the stream filters, independent of the decoders' code: how the encodings are
defined (ISO 32000-1, 7.4).
-/

namespace Pdf.Spec

/-- The two spellings of a hex digit of value `n < 16`. -/
def hexLower (n : Nat) : UInt8 := if n < 10 then UInt8.ofNat (48 + n) else UInt8.ofNat (87 + n)
def hexUpper (n : Nat) : UInt8 := if n < 10 then UInt8.ofNat (48 + n) else UInt8.ofNat (55 + n)

/-- `c` is a hex digit of value `n`. -/
def IsHexDigit (n : Nat) (c : UInt8) : Prop := n < 16 ∧ (c = hexLower n ∨ c = hexUpper n)

/-- The six white-space bytes of PDF. -/
def IsWhite (b : UInt8) : Prop := b = 0 ∨ b = 9 ∨ b = 10 ∨ b = 12 ∨ b = 13 ∨ b = 32

/-- `HexText d t`: `t` is a hex encoding of the bytes `d`: two digits per byte in any letter case,
white space anywhere; the second digit of the last byte may be left out when it is 0. -/
inductive HexText : Bytes → Bytes → Prop
  | nil : HexText [] []
  | ws {w d t} : IsWhite w → HexText d t → HexText d (w :: t)
  | byte {h l c1 c2 sp d t} : IsHexDigit h c1 → IsHexDigit l c2 → (∀ w ∈ sp, IsWhite w) →
      HexText d t → HexText (UInt8.ofNat (16 * h + l) :: d) (c1 :: (sp ++ c2 :: t))
  | odd {h c sp} : IsHexDigit h c → (∀ w ∈ sp, IsWhite w) →
      HexText [UInt8.ofNat (16 * h)] (c :: sp)

/-- A run of a run-length encoding: 1 to 128 literal bytes, or 2 to 128 copies of one byte. -/
inductive Run where
  | lit (b : Bytes)
  | rep (n : Nat) (b : UInt8)

def Run.Valid : Run → Prop
  | .lit b => 1 ≤ b.length ∧ b.length ≤ 128
  | .rep n _ => 2 ≤ n ∧ n ≤ 128

/-- The bytes a run stands for. -/
def Run.bytes : Run → Bytes
  | .lit b => b
  | .rep n b => List.replicate n b

/-- The encoding of a run: length byte `k - 1` and the bytes, or `257 - n` and the byte. -/
def Run.encode : Run → Bytes
  | .lit b => UInt8.ofNat (b.length - 1) :: b
  | .rep n b => [UInt8.ofNat (257 - n), b]

/-! ### Base 85 -/

/-- Big-endian value of a list of bytes. -/
def beVal (b : Bytes) : Nat := b.foldl (fun v x => v * 256 + x.toNat) 0

/-- The base-85 digit of weight `85^k` as a character. -/
def digit85 (v k : Nat) : UInt8 := UInt8.ofNat (33 + v / 85 ^ k % 85)

/-- Encoding of a complete group of four bytes: `z` for four zero bytes, otherwise five digits. -/
def group85 (a b c d : UInt8) : Bytes :=
  let v := beVal [a, b, c, d]
  if v = 0 then [122] else [digit85 v 4, digit85 v 3, digit85 v 2, digit85 v 1, digit85 v 0]

/-- Encoding of a final group of 1 to 3 bytes: padded with zero bytes, the first `k + 1` digits. -/
def last85 (b : Bytes) : Bytes :=
  let v := beVal (b ++ List.replicate (4 - b.length) 0)
  [digit85 v 4, digit85 v 3, digit85 v 2, digit85 v 1].take (b.length + 1)

/-- Standard ASCII base-85 encoding, without the end marker. -/
def encode85 : Bytes → Bytes
  | a :: b :: c :: d :: t => group85 a b c d ++ encode85 t
  | [] => []
  | b => last85 b

/-- `Spaced t s`: `s` is `t` with white space inserted anywhere. -/
inductive Spaced : Bytes → Bytes → Prop
  | nil : Spaced [] []
  | ws {w t s} : IsWhite w → Spaced t s → Spaced t (w :: s)
  | byte {b t s} : Spaced t s → Spaced (b :: t) (b :: s)

/-! ### PNG prediction (PNG specification, section 9) -/

/-- The Paeth predictor: whichever of `a` (left), `b` (up), `c` (upper left) is closest to
`a + b - c`, ties in that order. -/
def pngPaeth (a b c : Nat) : Nat :=
  let dist (x : Nat) : Nat := ((a : Int) + b - c - x).natAbs
  if dist a ≤ dist b ∧ dist a ≤ dist c then a else if dist b ≤ dist c then b else c

/-- The prediction of algorithm 0 (None), 1 (Sub), 2 (Up), 3 (Average), 4 (Paeth). -/
def pngPredict (alg a b c : Nat) : Nat :=
  match alg with
  | 1 => a
  | 2 => b
  | 3 => (a + b) / 2
  | 4 => pngPaeth a b c
  | _ => 0

/-- Byte `i` of the row, or 0 left of the row's start; `k` bytes to the left. -/
def pngAt (row : Bytes) (i k : Nat) : Nat := if i < k then 0 else (row.getD (i - k) 0).toNat

/-- Filtered byte `i` of row `cur` below row `prev`; `bpp` is the number of bytes per pixel. -/
def pngFilterByte (bpp alg : Nat) (prev cur : Bytes) (i : Nat) : UInt8 :=
  UInt8.ofNat ((cur.getD i 0).toNat + 256
    - pngPredict alg (pngAt cur i bpp) (pngAt prev i 0) (pngAt prev i bpp) % 256)

/-- A filtered row: a tag byte, then the filtered bytes. -/
def pngFilterRow (bpp : Nat) (tag : UInt8) (alg : Nat) (prev cur : Bytes) : Bytes :=
  tag :: (List.range cur.length).map (pngFilterByte bpp alg prev cur)

/-- All rows `(tag, algorithm, bytes)`, each predicted from the one before it. -/
def pngFilter (bpp : Nat) : Bytes → List (UInt8 × Nat × Bytes) → Bytes
  | _, [] => []
  | prev, (tag, alg, cur) :: t => pngFilterRow bpp tag alg prev cur ++ pngFilter bpp cur t

/-! ### Bit fields and TIFF prediction -/

/-- Bit `i` of the data, the most significant bit of each byte first. -/
def bit (d : Bytes) (i : Nat) : Bool := (d.getD (i / 8) 0).toNat.testBit (7 - i % 8)

/-- The `n`-bit big-endian number at bit position `p`. -/
def field (d : Bytes) (p : Nat) : Nat → Nat
  | 0 => 0
  | n + 1 => 2 * field d p n + (bit d (p + n)).toNat

/-- Bytes per row of an image. -/
def rowBytes (bpc colors columns : Nat) : Nat := (bpc * colors * columns + 7) / 8

/-- Component `i` of column `c` in row `r`. -/
def sample (bpc colors columns : Nat) (d : Bytes) (r c i : Nat) : Nat :=
  field d (r * rowBytes bpc colors columns * 8 + (c * colors + i) * bpc) bpc

/-- `E` is the horizontally differenced form of the image `D` of `rows` whole rows (TIFF 6.0,
section 14): the first column is stored as is, every other component as its difference from the same
component of the column before it; padding bits at the end of rows are kept. -/
structure TiffDiff (bpc colors columns rows : Nat) (D E : Bytes) : Prop where
  lenD : D.length = rows * rowBytes bpc colors columns
  lenE : E.length = D.length
  first : ∀ r i, r < rows → i < colors →
    sample bpc colors columns E r 0 i = sample bpc colors columns D r 0 i
  diff : ∀ r c i, r < rows → 1 ≤ c → c < columns → i < colors →
    (sample bpc colors columns E r c i + sample bpc colors columns D r (c - 1) i) % 2 ^ bpc
      = sample bpc colors columns D r c i
  pad : ∀ r k, r < rows → bpc * colors * columns ≤ k → k < rowBytes bpc colors columns * 8 →
    bit E (r * rowBytes bpc colors columns * 8 + k) = bit D (r * rowBytes bpc colors columns * 8 + k)

end Pdf.Spec
