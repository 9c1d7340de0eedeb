import Verif.Spec.Lzw
/-!
zlib data (RFC 1950) with deflate (RFC 1951), as a relation between data and bits.
-/

namespace Pdf.Spec
open Pdf

/-- Bytes as bits, the least significant first (RFC 1951, 3.1.1). -/
def lowFirst (d : Bytes) : List Bool := d.flatMap fun b => (numBits 8 b.toNat).reverse

/-- A number in `w` bits, the least significant first. -/
def lowNum (w n : Nat) : List Bool := (numBits w n).reverse

/-- The first code of `k` bits (RFC 1951, 3.2.2, step 2). The symbols are 0, 1, ... and `lens` has the number of bits of the
code of each, 0 if it has none. -/
def firstCode (lens : List Nat) : Nat → Nat
  | 0 => 0
  | k + 1 => 2 * (firstCode lens k + if k = 0 then 0 else lens.count k)

/-- `c` is the code of the symbol `s` (RFC 1951, 3.2.2, step 3): codes of the same length are in the order of the symbols. The
most significant bit is first. -/
def HasCode (lens : List Nat) (s : Nat) (c : List Bool) : Prop :=
  ∃ l, lens[s]? = some l ∧ l ≠ 0 ∧ c = numBits l (firstCode lens l + (lens.take s).count l)

/-- Codes have at most 15 bits, and nothing is left over: the part of all sequences of bits that begin with one of the codes
is the whole (in units of 2⁻¹⁵); or there is a single code, of one bit; or none. -/
def ProperCode (lens : List Nat) : Prop :=
  (∀ l ∈ lens, l ≤ 15) ∧
  ((lens.map fun l => if l = 0 then 0 else 2 ^ (15 - l)).sum = 2 ^ 15 ∨ (∀ l ∈ lens, l ≤ 1) ∧ lens.count 1 ≤ 1)

/-- Lengths of matches, symbols 257 to 285: the least and how many bits are added (RFC 1951, 3.2.5). -/
def lengthTable : List (Nat × Nat) :=
  [(3, 0), (4, 0), (5, 0), (6, 0), (7, 0), (8, 0), (9, 0), (10, 0), (11, 1), (13, 1), (15, 1), (17, 1), (19, 2), (23, 2), (27, 2), (31, 2),
   (35, 3), (43, 3), (51, 3), (59, 3), (67, 4), (83, 4), (99, 4), (115, 4), (131, 5), (163, 5), (195, 5), (227, 5), (258, 0)]

/-- Distances of matches, symbols 0 to 29 (RFC 1951, 3.2.5). -/
def distTable : List (Nat × Nat) :=
  [(1, 0), (2, 0), (3, 0), (4, 0), (5, 1), (7, 1), (9, 2), (13, 2), (17, 3), (25, 3), (33, 4), (49, 4), (65, 5), (97, 5), (129, 6), (193, 6),
   (257, 7), (385, 7), (513, 8), (769, 8), (1025, 9), (1537, 9), (2049, 10), (3073, 10), (4097, 11), (6145, 11), (8193, 12), (12289, 12),
   (16385, 13), (24577, 13)]

/-- `bs` stands for the number `n`: the code of a symbol of the table, whose first entry is for the symbol `base`, and what is
added. -/
def TableBits (lens : List Nat) (base : Nat) (table : List (Nat × Nat)) (n : Nat) (bs : List Bool) : Prop :=
  ∃ i least w v c, table[i]? = some (least, w) ∧ v < 2 ^ w ∧ n = least + v ∧ HasCode lens (base + i) c ∧ bs = c ++ lowNum w v

/-- `w` is what a match of distance `d` after the data `before` gives: every byte is the one `d` bytes earlier. -/
def Repeats (before w : Bytes) (d : Nat) : Prop :=
  1 ≤ d ∧ d ≤ before.length ∧ ∀ i, i < w.length → w[i]? = (before ++ w)[before.length + i - d]?

/-- The compressed data of a block, after the data `before`: literal bytes and matches, and the symbol 256. -/
inductive Symbols (lit dist : List Nat) : Bytes → Bytes → List Bool → Prop
  | done {before c} : HasCode lit 256 c → Symbols lit dist before [] c
  | literal {before b data c bs} : HasCode lit b.toNat c → Symbols lit dist (before ++ [b]) data bs → Symbols lit dist before (b :: data) (c ++ bs)
  | copy {before w d data l r bs} : TableBits lit 257 lengthTable w.length l → TableBits dist 0 distTable d r → Repeats before w d →
      Symbols lit dist (before ++ w) data bs → Symbols lit dist before (w ++ data) (l ++ (r ++ bs))

/-- The lengths of the fixed codes (RFC 1951, 3.2.6). -/
def fixedLengths : List Nat := List.replicate 144 8 ++ List.replicate 112 9 ++ List.replicate 24 7 ++ List.replicate 8 8

/-- The order in which the lengths of the code for lengths are given (RFC 1951, 3.2.7). -/
def lengthOrder : List Nat := [16, 17, 18, 0, 8, 7, 9, 6, 10, 5, 11, 4, 12, 3, 13, 2, 14, 1, 15]

/-- Lengths in the code for lengths, after the lengths `before` (RFC 1951, 3.2.7). -/
inductive LengthBits (cl : List Nat) : List Nat → List Nat → List Bool → Prop
  | nil {before} : LengthBits cl before [] []
  | one {before l ls c bs} : l < 16 → HasCode cl l c → LengthBits cl (before ++ [l]) ls bs → LengthBits cl before (l :: ls) (c ++ bs)
  | again {before l n ls c bs} : n < 4 → before.getLast? = some l → HasCode cl 16 c →
      LengthBits cl (before ++ List.replicate (3 + n) l) ls bs → LengthBits cl before (List.replicate (3 + n) l ++ ls) (c ++ (lowNum 2 n ++ bs))
  | zeros {before n ls c bs} : n < 8 → HasCode cl 17 c →
      LengthBits cl (before ++ List.replicate (3 + n) 0) ls bs → LengthBits cl before (List.replicate (3 + n) 0 ++ ls) (c ++ (lowNum 3 n ++ bs))
  | manyZeros {before n ls c bs} : n < 128 → HasCode cl 18 c →
      LengthBits cl (before ++ List.replicate (11 + n) 0) ls bs → LengthBits cl before (List.replicate (11 + n) 0 ++ ls) (c ++ (lowNum 7 n ++ bs))

/-- The description of two codes at the start of a block (RFC 1951, 3.2.7). -/
def CodesBits (lit dist : List Nat) (bs : List Bool) : Prop :=
  ∃ (cl ts : List Nat) (ls : List Bool), 257 ≤ lit.length ∧ lit.length ≤ 286 ∧ 1 ≤ dist.length ∧ dist.length ≤ 30 ∧ 4 ≤ ts.length ∧ ts.length ≤ 19 ∧ (∀ t ∈ ts, t < 8) ∧
    cl.length = 19 ∧ (∀ i s, lengthOrder[i]? = some s → cl[s]? = some (ts.getD i 0)) ∧
    ProperCode cl ∧ ProperCode lit ∧ ProperCode dist ∧ LengthBits cl [] (lit ++ dist) ls ∧
    bs = lowNum 5 (lit.length - 257) ++ (lowNum 5 (dist.length - 1) ++ (lowNum 4 (ts.length - 4) ++ (ts.flatMap (lowNum 3) ++ ls)))

/-- A block of data after its first three bits, after the data `before`; `rest` are all bits after it. -/
inductive BlockBits (before data : Bytes) (rest : List Bool) : Nat → List Bool → Prop
  | stored {pad} : data.length < 2 ^ 16 → pad.length < 8 → rest.length % 8 = 0 →
      BlockBits before data rest 0 (pad ++ (lowNum 16 data.length ++ (lowNum 16 (2 ^ 16 - 1 - data.length) ++ lowFirst data)))
  | fixed {bs} : Symbols fixedLengths (List.replicate 32 5) before data bs → BlockBits before data rest 1 bs
  | dynamic {lit dist hs bs} : CodesBits lit dist hs → Symbols lit dist before data bs → BlockBits before data rest 2 (hs ++ bs)

/-- Deflated data, after the data `before`; `rest` are all bits after it. -/
inductive Deflated (rest : List Bool) : Bytes → Bytes → List Bool → Prop
  | last {before data kind bs} : BlockBits before data rest kind bs → Deflated rest before data (true :: (lowNum 2 kind ++ (bs ++ rest)))
  | more {before d data kind bs more} : BlockBits before d more kind bs → Deflated rest (before ++ d) data more →
      Deflated rest before (d ++ data) (false :: (lowNum 2 kind ++ (bs ++ more)))

/-- The sum of all bytes, and 1 (RFC 1950, 8.2: s1). -/
def sumOne (d : Bytes) : Nat := 1 + (d.map UInt8.toNat).sum

/-- The check sum (RFC 1950, 8.2): the sums after each byte, and their sum. -/
def checkSum (d : Bytes) : Nat := ((List.range d.length).map fun i => sumOne (d.take (i + 1))).sum % 65521 * 65536 + sumOne d % 65521

/-- `enc` is data compressed as in RFC 1950, without a preset dictionary: two bytes, the deflated data, filled up to a whole
byte, the check sum, and anything after it. -/
def IsZlib (data enc : Bytes) : Prop :=
  ∃ (cmf flg : UInt8) (body : Bytes) (pad : List Bool) (b3 b2 b1 b0 : UInt8) (tail : Bytes), enc = cmf :: flg :: body ∧
    cmf.toNat % 16 = 8 ∧ cmf.toNat / 16 ≤ 7 ∧ (256 * cmf.toNat + flg.toNat) % 31 = 0 ∧ flg.toNat.testBit 5 = false ∧
    pad.length < 8 ∧ ((b3.toNat * 256 + b2.toNat) * 256 + b1.toNat) * 256 + b0.toNat = checkSum data ∧
    Deflated (pad ++ lowFirst (b3 :: b2 :: b1 :: b0 :: tail)) [] data (lowFirst body)

end Pdf.Spec
