import Verif.Model.Crypt
import Verif.Model.Lzw
import Verif.Model.Flate
/-!
A concrete MD5 (RFC 1321) and a concrete `Ext`, used to run the model and to show that hypotheses
about external functions can be met. The theorems hold for every `Ext`; nothing here is part of the
model of the repository.
-/

namespace Pdf.Concrete

/-- RFC 1321 table T -/
def md5K : List Nat := [3614090360, 3905402710, 606105819, 3250441966, 4118548399, 1200080426, 2821735955, 4249261313, 1770035416, 2336552879, 4294925233, 2304563134, 1804603682, 4254626195, 2792965006, 1236535329, 4129170786, 3225465664, 643717713, 3921069994, 3593408605, 38016083, 3634488961, 3889429448, 568446438, 3275163606, 4107603335, 1163531501, 2850285829, 4243563512, 1735328473, 2368359562, 4294588738, 2272392833, 1839030562, 4259657740, 2763975236, 1272893353, 4139469664, 3200236656, 681279174, 3936430074, 3572445317, 76029189, 3654602809, 3873151461, 530742520, 3299628645, 4096336452, 1126891415, 2878612391, 4237533241, 1700485571, 2399980690, 4293915773, 2240044497, 1873313359, 4264355552, 2734768916, 1309151649, 4149444226, 3174756917, 718787259, 3951481745]
/-- RFC 1321 rotation amounts -/
def md5R : List Nat := [7, 12, 17, 22, 7, 12, 17, 22, 7, 12, 17, 22, 7, 12, 17, 22, 5, 9, 14, 20, 5, 9, 14, 20, 5, 9, 14, 20, 5, 9, 14, 20, 4, 11, 16, 23, 4, 11, 16, 23, 4, 11, 16, 23, 4, 11, 16, 23, 6, 10, 15, 21, 6, 10, 15, 21, 6, 10, 15, 21, 6, 10, 15, 21]

/-- 32-bit rotation -/
def rotl (x n : Nat) : Nat := ((x <<< n) ||| (x >>> (32 - n))) % 4294967296

/-- little-endian 32-bit word at byte `i` -/
def leWord (b : Bytes) (i : Nat) : Nat :=
  (b.getD i 0).toNat + (b.getD (i+1) 0).toNat * 256 + (b.getD (i+2) 0).toNat * 65536
    + (b.getD (i+3) 0).toNat * 16777216

/-- one of the 64 steps -/
def md5Step (blk : Bytes) (i : Nat) (st : Nat × Nat × Nat × Nat) : Nat × Nat × Nat × Nat :=
  let (a, b, c, d) := st
  let nb := 4294967295 - b
  let nd := 4294967295 - d
  let (f, g) :=
    if i < 16 then ((b &&& c) ||| (nb &&& d), i)
    else if i < 32 then ((d &&& b) ||| (nd &&& c), (5 * i + 1) % 16)
    else if i < 48 then (b ^^^ c ^^^ d, (3 * i + 5) % 16)
    else (c ^^^ (b ||| nd), (7 * i) % 16)
  let f := (f + a + md5K.getD i 0 + leWord blk (4 * g)) % 4294967296
  (d, (b + rotl f (md5R.getD i 0)) % 4294967296, b, c)

/-- one 64-byte block -/
def md5Block (st : Nat × Nat × Nat × Nat) (blk : Bytes) : Nat × Nat × Nat × Nat :=
  let (a, b, c, d) := (List.range 64).foldl (fun s i => md5Step blk i s) st
  ((st.1 + a) % 4294967296, (st.2.1 + b) % 4294967296, (st.2.2.1 + c) % 4294967296,
   (st.2.2.2 + d) % 4294967296)

/-- all blocks -/
def md5Blocks : Nat → Bytes → Nat × Nat × Nat × Nat → Nat × Nat × Nat × Nat
  | 0, _, st => st
  | k + 1, b, st => md5Blocks k (b.drop 64) (md5Block st (b.take 64))

/-- little-endian bytes of a word -/
def leBytes (v : Nat) : Bytes :=
  [UInt8.ofNat v, UInt8.ofNat (v / 256), UInt8.ofNat (v / 65536), UInt8.ofNat (v / 16777216)]

/-- RFC 1321 MD5 -/
def md5 (d : Bytes) : Bytes :=
  let pad := (119 - d.length % 64) % 64
  let m := d ++ [0x80] ++ List.replicate pad 0 ++ leBytes (8 * d.length % 4294967296)
    ++ leBytes (8 * d.length / 4294967296)
  let (a, b, c, d) := md5Blocks (m.length / 64) m (1732584193, 4023233417, 2562383102, 271733878)
  leBytes a ++ leBytes b ++ leBytes c ++ leBytes d

theorem md5_length (d : Bytes) : (md5 d).length = 16 := rfl

/-- External functions for runs: real MD5, the readers of zlib and LZW data, an AES stand-in that returns its
(padded) input block. -/
def ext : Ext where
  zlib := zlibReader
  lzw := lzwReader
  md5 := md5
  md5_length := md5_length
  aesBlock := fun _ b => (b ++ List.replicate 16 0).take 16
  aesBlock_length := by intro _ b; simp

end Pdf.Concrete
