import Verif.Model.Filters
/-!
The two LZW readers that `LZWDecode` uses (filters.go:230-250): `compress/lzw` of the Go standard library and
`golang.org/x/image/tiff/lzw`, both with most significant bits first and literals of 8 bits. Neither is part of /repo; this
is a model of their method `decode`. Simplified: the 32 bit accumulator of `readMSB` is the list of bits not yet read, and
the output buffer, which is flushed when it is half full, is a list.
-/

namespace Pdf

/-- The bits of a byte, the most significant first (`readMSB`, called through filters.go:238 and 240). -/
def byteBits (b : UInt8) : List Bool := (List.range 8).map fun i => b.toNat.testBit (7 - i)

/-- The bits of data (`readMSB`, called through filters.go:238 and 240). -/
def dataBits (d : Bytes) : List Bool := d.flatMap byteBits

/-- The number that bits stand for (`readMSB`, called through filters.go:238 and 240). -/
def bitsVal (bs : List Bool) : Nat := bs.foldl (fun n b => 2 * n + b.toNat) 0

/-- Fields of `lzw.Reader` (filters.go:238 and 240): `last` is `none` for `decoderInvalidCode`. -/
structure LzwState where
  width : Nat
  hi : Nat
  overflow : Nat
  last : Option Nat
  suffix : Nat → UInt8
  pref : Nat → Nat

/-- `NewReader(_, MSB, 8)` (filters.go:238 and 240) -/
def lzwInit : LzwState := ⟨9, 257, 512, none, fun _ => 0, fun _ => 0⟩

/-- `for c >= r.clear { r.output[i] = r.suffix[c]; i--; c = r.prefix[c] }` of `decode` (filters.go:238 and 240): the
last `c`, and what has been written. Every prefix is less than its code, so that 4096 steps are enough. -/
def lzwWalk (s : LzwState) : Nat → Nat → Bytes → Nat × Bytes
  | 0, c, acc => (c, acc)
  | f + 1, c, acc => if c < 256 then (c, acc) else lzwWalk s f (s.pref c) (s.suffix c :: acc)

/-- `r.suffix[r.hi] = uint8(c); r.prefix[r.hi] = r.last`, if there is a last code (`decode`, filters.go:238 and 240) -/
def lzwSave (s : LzwState) (c : Nat) : LzwState :=
  match s.last with
  | none => s
  | some l => { s with suffix := fun j => if j = s.hi then UInt8.ofNat c else s.suffix j, pref := fun j => if j = s.hi then l else s.pref j }

/-- `r.last, r.hi = code, r.hi+1` and the change of width after it (`decode`, filters.go:238 and 240). The TIFF reader
(`early`) compares `hi + 1` with the limit, and does not take back the addition when the table is full; `hi` is a uint16. -/
def lzwNext (early : Bool) (s : LzwState) (code : Nat) : LzwState :=
  let hi := (s.hi + 1) % 65536
  if hi + early.toNat ≥ s.overflow then
    if s.width = 12 then { s with last := none, hi := if early then hi else s.hi }
    else { s with last := some code, hi := hi, width := s.width + 1, overflow := 2 * s.overflow }
  else { s with last := some code, hi := hi }

/-- The string of a code that is in the table, as its first byte and the others; the code after the last one is a special
case, which stands for the string of the last code and its first byte (`decode`, filters.go:238 and 240). -/
def lzwString (s : LzwState) (code : Nat) : Nat × Bytes :=
  match s.last with
  | none => lzwWalk s 4096 code []
  | some l => if code = s.hi then lzwWalk s 4096 l [UInt8.ofNat (lzwWalk s 4096 l []).1] else lzwWalk s 4096 code []

/-- What `decode` (filters.go:238 and 240) does with a code. -/
inductive LzwStep
  | out (d : Bytes) (s : LzwState)
  | eof
  | invalid

/-- One turn of the loop of `decode` (filters.go:238 and 240), after the code has been read. -/
def lzwStep (early : Bool) (s : LzwState) (code : Nat) : LzwStep :=
  if code < 256 then .out [UInt8.ofNat code] (lzwNext early (lzwSave s code) code)
  else if code = 256 then .out [] { s with width := 9, hi := 257, overflow := 512, last := none }
  else if code = 257 then .eof
  else if code ≤ s.hi then
    .out (UInt8.ofNat (lzwString s code).1 :: (lzwString s code).2) (lzwNext early (lzwSave s (lzwString s code).1) code)
  else .invalid

/-- The loop of `decode` (filters.go:238 and 240): what the reader returns, and whether an error ended it. Every turn takes
at least nine bits. -/
def lzwLoop (early : Bool) : Nat → LzwState → List Bool → Bytes × Bool
  | 0, _, _ => ([], true)
  | f + 1, s, bs =>
    if bs.length < s.width then ([], true)
    else match lzwStep early s (bitsVal (bs.take s.width)) with
      | .eof => ([], false)
      | .invalid => ([], true)
      | .out d s' =>
        let (out, failed) := lzwLoop early f s' (bs.drop s.width)
        (d ++ out, failed)

/-- `ReadFrom` of a new reader (filters.go:245-246): `compress/lzw` or, if `early`, `tiff/lzw`. -/
def lzwReader (early : Bool) (data : Bytes) : Bytes × Bool := lzwLoop early (8 * data.length + 1) lzwInit (dataBits data)

end Pdf
