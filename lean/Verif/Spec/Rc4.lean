import Verif.Model.Bytes
/-!
The RC4 cipher, with the state as a function on bytes and the two phases counted from the start.
-/

namespace Pdf.Spec
open Pdf

/-- The values at `i` and `j` exchanged. -/
def exchanged (S : UInt8 → UInt8) (i j : UInt8) : UInt8 → UInt8 := fun x => if x = j then S i else if x = i then S j else S x

/-- The index `j` and the permutation after `n` steps of key scheduling. -/
def scheduled (key : Bytes) : Nat → UInt8 × (UInt8 → UInt8)
  | 0 => (0, fun x => x)
  | n + 1 =>
    let j := (scheduled key n).1 + (scheduled key n).2 (UInt8.ofNat n) + key.getD (n % key.length) 0
    (j, exchanged (scheduled key n).2 (UInt8.ofNat n) j)

/-- The index `j` and the permutation after `n` bytes of key stream. -/
def generated (key : Bytes) : Nat → UInt8 × (UInt8 → UInt8)
  | 0 => (0, (scheduled key 256).2)
  | n + 1 =>
    let j := (generated key n).1 + (generated key n).2 (UInt8.ofNat (n + 1))
    (j, exchanged (generated key n).2 (UInt8.ofNat (n + 1)) j)

/-- Byte number `n` of the key stream. -/
def streamByte (key : Bytes) (n : Nat) : UInt8 :=
  let S := (generated key (n + 1)).2
  S (S (UInt8.ofNat (n + 1)) + S (generated key (n + 1)).1)

/-- `c` is `p` encrypted with RC4 (or `p` is `c` encrypted). -/
def IsRc4 (key p c : Bytes) : Prop := c.length = p.length ∧ ∀ n (h : n < p.length) (h' : n < c.length), c[n] = p[n] ^^^ streamByte key n

end Pdf.Spec
