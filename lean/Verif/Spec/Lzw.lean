import Verif.Model.Bytes
/-!
LZW encodings (ISO 32000-1, 7.4.4), as a relation between data and bits. The data after a clear code is cut into phrases;
each phrase is a single byte or an earlier phrase with the first byte of the one after it.
-/

namespace Pdf.Spec
open Pdf

/-- `c` is the code of phrase number `k`: its only byte, or 258 and the number of an earlier phrase, if that one followed by
the first byte of the next is phrase `k`. -/
inductive CodeOf (ps : List Bytes) (k : Nat) : Nat → Prop
  | literal {b : UInt8} : ps[k]? = some [b] → CodeOf ps k b.toNat
  | entry {i p b q} : i < k → ps[i]? = some p → ps[i + 1]? = some (b :: q) → ps[k]? = some (p ++ [b]) → CodeOf ps k (258 + i)

/-- How many bits a code takes that comes after `k` others: enough for the numbers of the entries of the table, and one code
early with EarlyChange 1. -/
def codeWidth (early : Bool) (k : Nat) : Nat :=
  let n := 257 + k + early.toNat
  if n < 512 then 9 else if n < 1024 then 10 else if n < 2048 then 11 else 12

/-- A number in `w` bits, the most significant first. -/
def numBits (w n : Nat) : List Bool := (List.range w).map fun i => n.testBit (w - 1 - i)

/-- The codes of the phrases from number `k` on. -/
inductive PhraseBits (early : Bool) (ps : List Bytes) : Nat → List Bool → Prop
  | nil : PhraseBits early ps ps.length []
  | cons {k c bs} : CodeOf ps k c → PhraseBits early ps (k + 1) bs → PhraseBits early ps k (numBits (codeWidth early k) c ++ bs)

/-- The codes of data, with the code for the end of data and anything after it. Before the table has more than 4096 entries
there is a clear code. -/
inductive LzwBits (early : Bool) : Bytes → List Bool → Prop
  | last {ps bs rest} : ps.length ≤ 3838 → PhraseBits early ps 0 bs → LzwBits early ps.flatten (bs ++ (numBits (codeWidth early ps.length) 257 ++ rest))
  | clear {ps bs data more} : ps.length ≤ 3838 → PhraseBits early ps 0 bs → LzwBits early data more →
      LzwBits early (ps.flatten ++ data) (bs ++ (numBits (codeWidth early ps.length) 256 ++ more))

/-- Bytes as bits, the most significant first. -/
def toBits (d : Bytes) : List Bool := d.flatMap fun b => numBits 8 b.toNat

/-- `enc` is an LZW encoding of `data`. -/
def IsLzw (early : Bool) (data enc : Bytes) : Prop := LzwBits early data (toBits enc)

end Pdf.Spec
