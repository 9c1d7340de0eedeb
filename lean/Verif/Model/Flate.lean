import Verif.Model.Filters
/-!
The reader of zlib data that `FlateDecode` uses (filters.go:210-228): `compress/zlib` and `compress/flate` of the Go standard
library. Neither is part of /repo; this is a model of their methods. Simplified: the bit buffer is the list of bits not yet
read, the sliding window is the whole output (in reverse), and instead of looking up bits in tables `huffSym` compares with
the codes of one length after the other.
-/

namespace Pdf

/-- The bits of a byte in the order in which `moreBits` and shifts of `f.b` give them (through filters.go:221). -/
def lowBits (b : UInt8) : List Bool := (List.range 8).map fun i => b.toNat.testBit i

/-- The number that bits stand for, the first being the lowest (`f.b & (1<<n - 1)`, through filters.go:221). -/
def lowVal : List Bool → Nat
  | [] => 0
  | b :: bs => b.toNat + 2 * lowVal bs

/-- `n` bits as a number, and the bits after them (`for f.nb < n { f.moreBits() }`, through filters.go:221). -/
def takeBits (n : Nat) (bits : List Bool) : Option (Nat × List Bool) :=
  if (bits.take n).length < n then none else some (lowVal (bits.take n), bits.drop n)

/-- `code` of `huffmanDecoder.init` after the codes of `k` bits have been given out (through filters.go:221). -/
def codeEnd (lens : List Nat) : Nat → Nat
  | 0 => 0
  | k + 1 => 2 * codeEnd lens k + lens.count (k + 1)

/-- The result of `huffmanDecoder.init`: the code is complete, or has one code of one bit, or none (through filters.go:221). -/
def huffInit (lens : List Nat) : Bool :=
  let most := lens.foldl max 0
  most == 0 || codeEnd lens most == 2 ^ most || (codeEnd lens most == 1 && most == 1)

/-- Symbol number `i` of those with codes of `k` bits; the first length is that of symbol `s`
(the loop over `lengths` of `huffmanDecoder.init`, through filters.go:221). -/
def symbolAt (k : Nat) : List Nat → Nat → Nat → Nat
  | [], _, s => s
  | l :: ls, i, s => if l = k then (if i = 0 then s else symbolAt k ls (i - 1) (s + 1)) else symbolAt k ls i (s + 1)

/-- `huffSym`, after `k - 1` bits with the value `code`; `first` is one more than the last code of that many bits
(through filters.go:221). Codes have at most 15 bits. -/
def huffLoop (lens : List Nat) : Nat → Nat → Nat → Nat → List Bool → Option (Nat × List Bool)
  | 0, _, _, _, _ => none
  | _ + 1, _, _, _, [] => none
  | f + 1, k, code, first, b :: bs =>
    if 2 * code + b.toNat < 2 * first + lens.count k then some (symbolAt k lens (2 * code + b.toNat - 2 * first) 0, bs)
    else huffLoop lens f (k + 1) (2 * code + b.toNat) (2 * first + lens.count k) bs

/-- `huffSym`: the next symbol, and the bits after it; at least `least` bits are needed (`h.min`; through filters.go:221). -/
def huffSym (lens : List Nat) (least : Nat) (bits : List Bool) : Option (Nat × List Bool) :=
  if (bits.take least).length < least then none else huffLoop lens 15 1 0 0 bits

/-- The length of a match in `huffmanBlock`, for the symbol `v > 256`: its least value and how many bits are to be added
(through filters.go:221). -/
def lengthCode (v : Nat) : Option (Nat × Nat) :=
  if v < 265 then some (v - (257 - 3), 0)
  else if v < 269 then some (v * 2 - (265 * 2 - 11), 1)
  else if v < 273 then some (v * 4 - (269 * 4 - 19), 2)
  else if v < 277 then some (v * 8 - (273 * 8 - 35), 3)
  else if v < 281 then some (v * 16 - (277 * 16 - 67), 4)
  else if v < 285 then some (v * 32 - (281 * 32 - 131), 5)
  else if v < 286 then some (258, 0)
  else none

/-- The distance of a match in `huffmanBlock`, as `lengthCode` (through filters.go:221). -/
def distCode (v : Nat) : Option (Nat × Nat) :=
  if v < 4 then some (v + 1, 0)
  else if v < 30 then some (2 ^ ((v - 2) / 2 + 1) + 1 + v % 2 * 2 ^ ((v - 2) / 2), (v - 2) / 2)
  else none

/-- A value with its added bits (`huffmanBlock`, through filters.go:221). -/
def withExtra (c : Option (Nat × Nat)) (bits : List Bool) : Option (Nat × List Bool) :=
  c.bind fun p => (takeBits p.2 bits).map fun q => (p.1 + q.1, q.2)

/-- The rest of a match after its symbol `v`: length, distance and the bits after them (`huffmanBlock`, through filters.go:221). -/
def matchOf (dist : List Nat) (v : Nat) (bits : List Bool) : Option (Nat × Nat × List Bool) :=
  (withExtra (lengthCode v) bits).bind fun l => (huffSym dist 0 l.2).bind fun c => (withExtra (distCode c.1) c.2).map fun d => (l.1, d.1, d.2)

/-- `dict.writeCopy`: `n` bytes, each the one `d` bytes before; the output is in reverse (through filters.go:221). -/
def copyBack (d : Nat) : Nat → Bytes → Bytes
  | 0, out => out
  | n + 1, out => copyBack d n (out.getD (d - 1) 0 :: out)

/-- `huffmanBlock` (through filters.go:221): the output in reverse, and the bits after the block, if there was no error. -/
def huffmanBlock (lit dist : List Nat) : Nat → Bytes → List Bool → Bytes × Option (List Bool)
  | 0, out, _ => (out, none)
  | f + 1, out, bits =>
    match huffSym lit (lit.getD 256 0) bits with
    | none => (out, none)
    | some (v, bits) =>
      if v < 256 then huffmanBlock lit dist f (UInt8.ofNat v :: out) bits
      else if v = 256 then (out, some bits)
      else match matchOf dist v bits with
        | none => (out, none)
        | some (n, d, bits) => if out.length < d then (out, none) else huffmanBlock lit dist f (copyBack d n out) bits

/-- `copyData` (through filters.go:221): as many bytes as there are, at most `n`. -/
def copyData : Nat → Bytes → List Bool → Bytes × Option (List Bool)
  | 0, out, bits => (out, some bits)
  | n + 1, out, bits =>
    match takeBits 8 bits with
    | none => (out, none)
    | some (v, bits) => copyData n (UInt8.ofNat v :: out) bits

/-- The bits from the next whole byte on (`f.nb = 0; f.b = 0`, through filters.go:221). -/
def wholeBytes (bits : List Bool) : List Bool := bits.drop (bits.length % 8)

/-- The length of an uncompressed block, and the bits after it (`dataBlock`, through filters.go:221). -/
def dataLength (bits : List Bool) : Option (Nat × List Bool) :=
  (takeBits 16 (wholeBytes bits)).bind fun n => (takeBits 16 n.2).bind fun m => if m.1 = 65535 - n.1 then some (n.1, m.2) else none

/-- `dataBlock` (through filters.go:221) -/
def dataBlock (out : Bytes) (bits : List Bool) : Bytes × Option (List Bool) :=
  match dataLength bits with
  | none => (out, none)
  | some (n, bits) => copyData n out bits

/-- `codeOrder` (through filters.go:221) -/
def codeOrder : List Nat := [16, 17, 18, 0, 8, 7, 9, 6, 10, 5, 11, 4, 12, 3, 13, 2, 14, 1, 15]

/-- `n` numbers of three bits (`readHuffman`, through filters.go:221) -/
def readTriples : Nat → List Bool → Option (List Nat × List Bool)
  | 0, bits => some ([], bits)
  | n + 1, bits => (takeBits 3 bits).bind fun v => (readTriples n v.2).map fun r => (v.1 :: r.1, r.2)

/-- `f.codebits[codeOrder[i]]` (`readHuffman`, through filters.go:221): the lengths for the symbols 0 to 18. -/
def codeBitsOf (ts : List Nat) : List Nat := (List.range 19).map fun s => ts.getD (codeOrder.idxOf s) 0

/-- One or more lengths: the symbol `x`, the lengths before in reverse, the bits after it (`readHuffman`, through filters.go:221). -/
def lengthsOf (x : Nat) (acc : List Nat) (bits : List Bool) : Option (List Nat × List Bool) :=
  if x < 16 then some ([x], bits)
  else if x = 16 then acc.head?.bind fun b => (takeBits 2 bits).map fun v => (List.replicate (3 + v.1) b, v.2)
  else if x = 17 then (takeBits 3 bits).map fun v => (List.replicate (3 + v.1) 0, v.2)
  else (takeBits 7 bits).map fun v => (List.replicate (11 + v.1) 0, v.2)

/-- The loop of `readHuffman` that reads `n` lengths (through filters.go:221); `acc` has those read, in reverse. -/
def readLengths (lens : List Nat) (n : Nat) : Nat → List Nat → List Bool → Option (List Nat × List Bool)
  | 0, _, _ => none
  | f + 1, acc, bits =>
    if n ≤ acc.length then some (acc.reverse, bits)
    else (huffSym lens 0 bits).bind fun x => (lengthsOf x.1 acc x.2).bind fun r =>
      if n < acc.length + r.1.length then none else readLengths lens n f (r.1 ++ acc) r.2

/-- `readHuffman` (through filters.go:221): the two codes, and the bits after them. -/
def readHuffman (bits : List Bool) : Option (List Nat × List Nat × List Bool) :=
  (takeBits 5 bits).bind fun l => if 286 < l.1 + 257 then none else
  (takeBits 5 l.2).bind fun d => if 30 < d.1 + 1 then none else
  (takeBits 4 d.2).bind fun c => (readTriples (c.1 + 4) c.2).bind fun ts =>
  if !huffInit (codeBitsOf ts.1) then none else
  (readLengths (codeBitsOf ts.1) (l.1 + 257 + (d.1 + 1)) 400 [] ts.2).bind fun r =>
  if huffInit (r.1.take (l.1 + 257)) && huffInit (r.1.drop (l.1 + 257)) then some (r.1.take (l.1 + 257), r.1.drop (l.1 + 257), r.2) else none

/-- The lengths of `fixedHuffmanDecoderInit` (through filters.go:221) -/
def fixedLit : List Nat := List.replicate 144 8 ++ List.replicate 112 9 ++ List.replicate 24 7 ++ List.replicate 8 8

/-- The distances of a block with fixed codes are five bits (`f.hd == nil` in `huffmanBlock`, through filters.go:221); they are
a code in which every length is 5. -/
def fixedDist : List Nat := List.replicate 32 5

/-- The block after its three first bits (`nextBlock`, through filters.go:221). -/
def blockOf (kind : Nat) (out : Bytes) (bits : List Bool) : Bytes × Option (List Bool) :=
  if kind = 0 then dataBlock out bits
  else if kind = 1 then huffmanBlock fixedLit fixedDist (bits.length + 1) out bits
  else if kind = 2 then match readHuffman bits with
    | none => (out, none)
    | some (lit, dist, bits) => huffmanBlock lit dist (bits.length + 1) out bits
  else (out, none)

/-- `nextBlock`, again and again until the final block (through filters.go:221). -/
def inflate : Nat → Bytes → List Bool → Bytes × Option (List Bool)
  | 0, out, _ => (out, none)
  | f + 1, out, bits =>
    match takeBits 3 bits with
    | none => (out, none)
    | some (h, bits) =>
      match blockOf (h / 2) out bits with
      | (out, none) => (out, none)
      | (out, some bits) => if h % 2 = 1 then (out, some bits) else inflate f out bits

/-- One byte in `adler32.update` (through filters.go:221) -/
def adlerStep (s : Nat × Nat) (b : UInt8) : Nat × Nat :=
  let a := (s.1 + b.toNat) % 65521
  (a, (s.2 + a) % 65521)

/-- `adler32.Checksum` (through filters.go:221) -/
def adler32 (d : Bytes) : Nat :=
  let s := d.foldl adlerStep (1, 0)
  s.2 * 65536 + s.1

/-- `zlib.reader.Read` until its end (filters.go:221): the data, and whether there was an error. -/
def zlibBody (body : Bytes) : Bytes × Bool :=
  let bits := body.flatMap lowBits
  match inflate (bits.length + 1) [] bits with
  | (out, none) => (out.reverse, true)
  | (out, some rest) =>
    match copyData 4 [] (wholeBytes rest) with
    | (_, none) => (out.reverse, true)
    | (sum, some _) => (out.reverse, decide (sum.reverse.foldl (fun n b => 256 * n + b.toNat) 0 ≠ adler32 out.reverse))

/-- `zlib.NewReader` (filters.go:213) and reading all data: `none` if the header is wrong. A dictionary is accepted only
if its check sum is that of no data. -/
def zlibReader : Bytes → Option (Bytes × Bool)
  | cmf :: flg :: body =>
    if cmf.toNat % 16 ≠ 8 || 7 < cmf.toNat / 16 || (256 * cmf.toNat + flg.toNat) % 31 ≠ 0 then none
    else if flg.toNat.testBit 5 then
      match body with
      | 0 :: 0 :: 0 :: 1 :: body => some (zlibBody body)
      | _ => none
    else some (zlibBody body)
  | _ => none

end Pdf
