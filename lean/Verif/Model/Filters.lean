import Verif.Model.Bytes
/-!
filters.go and utility.go. zlib (compress/zlib) and LZW (compress/lzw, x/image/tiff/lzw) are
parameters (`Codecs`).
-/

namespace Pdf

/-- filters.go:49-97, inner loop (70-85): the second digit of a pair and what remains; '0' when the
data or the pair ends first. -/
def hexSecond : Bytes → UInt8 × Bytes
  | [] => (ch%'0', [])
  | b :: t => if isWs b then hexSecond t else if b == ch%'>' then (ch%'0', b :: t) else (b, t)

/-- filters.go:54-96, outer loop of `ASCIIHexDecode`. List recursion replaces the index `i`; the
fuel is the data length. -/
def asciiHexLoop : Nat → Bytes → Bytes → Bytes
  | 0, _, out => out
  | _ + 1, [], out => out
  | f + 1, b1 :: t, out =>
    if isWs b1 then asciiHexLoop f t out
    else if b1 == ch%'>' then out
    else
      let (b2, t) := hexSecond t
      match parseHex2 b1 b2 with
      | none => asciiHexLoop f t out
      | some v => asciiHexLoop f t (out ++ [v])

/-- filters.go:49-97 `ASCIIHexDecode` -/
def asciiHexDecode (data : Bytes) : Bytes := asciiHexLoop data.length data []

/-- `binary.BigEndian.PutUint32` (filters.go:117, 155) -/
def be32 (v : Nat) : Bytes :=
  [UInt8.ofNat (v / 16777216), UInt8.ofNat (v / 65536), UInt8.ofNat (v / 256), UInt8.ofNat v]

/-- `uint32` arithmetic -/
def u32 (v : Nat) : Nat := v % 4294967296

/-- filters.go:111-113: `for m := n; m < 5; m++ { v *= 85 }` -/
def pad85 : Nat → Nat → Nat
  | 0, v => v
  | k + 1, v => pad85 k (u32 (v * 85))

/-- filters.go:108-122: end of data or '~' -/
def ascii85Finish (v n : Nat) (out : Bytes) : Bytes :=
  if n > 1 then out ++ (be32 (pad85 (5 - n) v)).take (n - 1) else out

/-- filters.go:106-162, loop of `ASCII85Decode` -/
def ascii85Loop : Bytes → Nat → Nat → Bytes → Bytes
  | [], v, n, out => ascii85Finish v n out
  | b :: t, v, n, out =>
    if b == ch%'~' then ascii85Finish v n out
    else if isWs b then ascii85Loop t v n out
    else if b == ch%'z' then
      if n ≠ 0 then ascii85Loop t v n out else ascii85Loop t v n (out ++ [0, 0, 0, 0])
    else if b < ch%'!' || ch%'u' < b then ascii85Loop t v n out
    else
      let n := n + 1
      let v := u32 (u32 (v * 85) + (b.toNat - 33))
      if n ≥ 5 then ascii85Loop t 0 0 (out ++ be32 v) else ascii85Loop t v n out

/-- filters.go:99-163 `ASCII85Decode` -/
def ascii85Decode (data : Bytes) : Bytes := ascii85Loop data 0 0 []

/-- filters.go:165-208, loop of `RunLengthDecode` (list recursion replaces the index) -/
def runLengthLoop : Nat → Bytes → Bytes → Bytes
  | 0, _, out => out
  | _ + 1, [], out => out
  | f + 1, l :: t, out =>
    let length := l.toNat
    if length = 128 then out
    else if length < 128 then
      let length := length + 1
      if t.isEmpty then out
      else if t.length < length then out ++ t
      else runLengthLoop f (t.drop length) (out ++ t.take length)
    else
      match t with
      | [] => out
      | b :: t => runLengthLoop f t (out ++ List.replicate (257 - length) b)

/-- filters.go:165-208 `RunLengthDecode` -/
def runLengthDecode (data : Bytes) : Bytes := runLengthLoop data.length data []

/-- Go shift `x << n` / `x >> n` on uint32 with an unsigned count converted from a possibly negative
`int` (a negative count becomes huge, so the result is 0). -/
def shl32 (v : Nat) (n : Int) : Nat := if n < 0 ∨ 32 ≤ n then 0 else u32 (v * 2 ^ n.toNat)
def shr32 (v : Nat) (n : Int) : Nat := if n < 0 ∨ 32 ≤ n then 0 else v / 2 ^ n.toNat

/-- utility.go:36-41: four bytes of `d` from byte index `q`, 0 past the end; index panic below 0 -/
def getBitsLoop (d : Bytes) (q : Int) : Nat → Nat → Nat → Res Nat
  | 0, _, v => .ok v
  | k + 1, i, v =>
    let v := u32 (v * 256)
    if q + i < d.length then
      if q + i < 0 then .panic "index out of range"
      else getBitsLoop d q k (i + 1) (u32 (v + (d.getD (q + i).toNat 0).toNat))
    else getBitsLoop d q k (i + 1) v

/-- utility.go:34-45 `GetBits` -/
def getBits (d : Bytes) (p n : Int) : Res Nat :=
  getBitsLoop d (p.tdiv 8) 4 0 0 >>= fun v =>
    .ok (shr32 (shl32 v (p.tmod 8)) (32 - n))

/-- utility.go:54-56: writes the bytes of `dv` back -/
def setBitsLoop (dv : Nat) (q : Int) : Nat → Nat → Bytes → Res Bytes
  | 0, _, d => .ok d
  | k + 1, i, d =>
    if q + i < d.length then
      if q + i < 0 then .panic "index out of range"
      else setBitsLoop dv q k (i + 1) (d.set (q + i).toNat (UInt8.ofNat (shr32 dv (32 - (i + 1) * 8))))
    else .ok d

/-- utility.go:48-57 `SetBits` (the slice is mutated in place; here the new contents are returned) -/
def setBits (d : Bytes) (p n : Int) (v : Nat) : Res Bytes :=
  getBits d (p.tdiv 8 * 8) 32 >>= fun dv =>
    let s : Int := 32 - n - p.tmod 8
    let max := shl32 1 n
    let m := u32 (max + 4294967295)
    let dv := u32 (dv + shl32 (v % max) s + (4294967296 - (dv &&& shl32 m s)))
    setBitsLoop dv (p.tdiv 8) 4 0 d

/-- filters.go:298-306: the components of one column; the Boolean says "return data now" -/
def tiffComps (bpc colors rowStart : Int) (c : Int) : Nat → Int → Bytes → Res (Bytes × Bool)
  | 0, _, d => .ok (d, false)
  | k + 1, i, d =>
    let pos := wrap64 (rowStart + wrap64 (wrap64 (wrap64 (c * colors) + i) * bpc))
    if pos ≥ d.length * 8 then .ok (d, true)
    else
      getBits d (wrap64 (pos - wrap64 (colors * bpc))) bpc >>= fun prev =>
      getBits d pos bpc >>= fun value =>
      setBits d pos bpc (u32 (value + prev)) >>= fun d =>
      tiffComps bpc colors rowStart c k (i + 1) d

/-- filters.go:297-307: the columns of one row -/
def tiffCols (bpc colors rowStart : Int) : Nat → Int → Bytes → Res (Bytes × Bool)
  | 0, _, d => .ok (d, false)
  | k + 1, c, d =>
    tiffComps bpc colors rowStart c colors.toNat 0 d >>= fun (d, stop) =>
      if stop then .ok (d, true) else tiffCols bpc colors rowStart k (c + 1) d

/-- filters.go:295-309: the rows -/
def tiffRows (bpc colors columns rowWidth : Int) : Nat → Int → Bytes → Res Bytes
  | 0, _, d => .ok d
  | k + 1, r, d =>
    if r * rowWidth < d.length then
      tiffCols bpc colors (wrap64 (r * rowWidth * 8)) (columns - 1).toNat 1 d >>= fun (d, stop) =>
        if stop then .ok d else tiffRows bpc colors columns rowWidth k (r + 1) d
    else .ok d

/-- `decoded_data[i]` (filters.go:346 etc.): panics outside the slice -/
def idx (d : Bytes) (i : Int) : Res Nat :=
  if i < 0 then .panic "index out of range"
  else match d[i.toNat]? with
    | some b => .ok b.toNat
    | none => .panic "index out of range"

/-- filters.go:382-392, Paeth's choice -/
def paeth (left up upLeft : Nat) : Nat :=
  let p : Int := left + up - upLeft
  let pLeft := (p - left).natAbs
  let pUp := (p - up).natAbs
  let pUpLeft := (p - upLeft).natAbs
  if pLeft ≤ pUp ∧ pLeft ≤ pUpLeft then left else if pUp ≤ pUpLeft then up else upLeft

/-- filters.go:335-397, body of the column loop: the decoded byte for raw byte `x` at column `dc` of
the row starting at `dr`, `w` being `d_row_width`. -/
def pngByte (dec : Bytes) (method : Int) (w dr dc : Int) (x : Nat) : Res UInt8 :=
  let left : Res Nat := if dc > 0 then idx dec (dr + dc - 1) else .ok 0
  let up : Res Nat := if dr + dc - w ≥ 0 then idx dec (dr + dc - w) else .ok 0
  let upLeft : Res Nat := if dr + dc - w - 1 ≥ 0 ∧ dc > 0 then idx dec (dr + dc - w - 1) else .ok 0
  if method = 0 then .ok (UInt8.ofNat x)
  else if method = 1 then left >>= fun l => .ok (UInt8.ofNat ((x + l) % 256))
  else if method = 2 then up >>= fun u => .ok (UInt8.ofNat ((x + u) % 256))
  else if method = 3 then
    left >>= fun l => up >>= fun u => .ok (UInt8.ofNat ((x + (l + u) / 2) % 256))
  else if method = 4 then
    left >>= fun l => up >>= fun u => upLeft >>= fun ul => .ok (UInt8.ofNat ((x + paeth l u ul) % 256))
  else .ok (UInt8.ofNat x)

/-- filters.go:335-397, column loop; `rest` is `data[r+c:]`, `k` the columns left in the row -/
def pngCols (method : Int) (w dr : Int) : Nat → Int → Bytes → Bytes → Res Bytes
  | 0, _, _, dec => .ok dec
  | _ + 1, _, [], dec => .ok dec
  | k + 1, dc, x :: rest, dec =>
    pngByte dec method w dr dc x.toNat >>= fun b => pngCols method w dr k (dc + 1) rest (dec ++ [b])

/-- filters.go:325-398, row loop; `data` is `data[r:]`, `row` counts rows, `w = d_row_width` -/
def pngRows (predictor : Int) (w : Nat) : Nat → Nat → Bytes → Bytes → Res Bytes
  | 0, _, _, dec => .ok dec
  | _ + 1, _, [], dec => .ok dec
  | f + 1, row, tag :: rest, dec =>
    let method : Int := if predictor = 15 then tag.toNat else predictor - 10
    pngCols method w (row * w : Nat) w 0 rest dec >>= fun dec =>
      pngRows predictor w f (row + 1) (rest.drop w) dec

/-- filters.go:255-404 `ReversePredictor` with the four parameters already looked up
(filters.go:257-272) -/
def reversePredictor (data : Bytes) (predictor bpc colors columns : Int) : Res Bytes :=
  if bpc ≤ 0 ∨ bpc > 16 then .ok data
  else
    let bits := wrap64 (wrap64 (bpc * colors) * columns)
    let rowWidth : Int := bits.tdiv 8 + (if bits.tmod 8 > 0 then 1 else 0)
    if rowWidth ≤ 0 then .ok data
    else if predictor = 1 then .ok data
    else if predictor = 2 then tiffRows bpc colors columns rowWidth (data.length + 1) 0 data
    else if predictor ≥ 10 ∧ predictor ≤ 15 then
      pngRows predictor rowWidth.toNat data.length 0 data []
    else .ok data

/-- The external decoders: `zlib.NewReader` + `ReadFrom` (`none`: NewReader failed; otherwise the
bytes produced and whether an error ended them) and the LZW readers (filters.go:230-250; the flag
selects compress/lzw for EarlyChange 0). -/
structure Codecs where
  zlib : Bytes → Option (Bytes × Bool)
  lzw : Bool → Bytes → Bytes × Bool

end Pdf
