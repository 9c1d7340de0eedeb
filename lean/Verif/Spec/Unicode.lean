import Verif.Spec.Syntax
/-!
Characters and line breaks: UTF-16 and UTF-8, text strings (ISO 32000-1, 7.9.2.2), and literal strings with
line breaks (7.3.4.2).
-/

namespace Pdf.Spec

/-- Two bytes, high byte first. -/
def twoBytes (n : Nat) : Bytes := [UInt8.ofNat (n / 256), UInt8.ofNat n]

/-- A character in UTF-16BE. -/
def utf16Char (c : Char) : Bytes :=
  if c.toNat < 65536 then twoBytes c.toNat
  else twoBytes (55296 + (c.toNat - 65536) / 1024) ++ twoBytes (56320 + (c.toNat - 65536) % 1024)

/-- Characters in UTF-16BE. -/
def utf16 (cs : List Char) : Bytes := cs.flatMap utf16Char

/-- Characters in UTF-8. -/
def utf8 (cs : List Char) : Bytes := cs.flatMap String.utf8EncodeChar

/-- `TextString cs b`: the string `b` stands for the characters `cs`, in UTF-16BE after a byte order mark, or one
byte for each. Of the one-byte encoding only the part that agrees with ASCII is described. -/
inductive TextString (cs : List Char) : Bytes → Prop
  | wide : TextString cs (254 :: 255 :: utf16 cs)
  | ascii : (∀ c ∈ cs, c.toNat < 128) → TextString cs (cs.map fun c => UInt8.ofNat c.toNat)

/-- `StringText n v t`: as ISO 32000-1 has it, `t` between parentheses spells the string `v`; a line break without
a backslash, in any of its forms, stands for a line feed. `n` is the number of those that are written with CR. -/
inductive StringText : Nat → Bytes → Bytes → Prop
  | nil : StringText 0 [] []
  | plain {n b v t} : b ≠ 40 → b ≠ 41 → b ≠ 92 → b ≠ 13 → StringText n v t → StringText n (b :: v) (b :: t)
  | breakCr {n v t} : (∀ u, t ≠ 10 :: u) → StringText n v t → StringText (n + 1) (10 :: v) (13 :: t)
  | breakCrLf {n v t} : StringText n v t → StringText (n + 1) (10 :: v) (13 :: 10 :: t)
  | parens {n v t m v' t'} : StringText n v t → StringText m v' t' → StringText (n + m) (40 :: v ++ 41 :: v') (40 :: t ++ 41 :: t')
  | letter {n c b v t} : Letter c b → StringText n v t → StringText n (b :: v) (92 :: c :: t)
  | self {n c v t} : (¬ ∃ b, Letter c b) → ¬ (48 ≤ c.toNat ∧ c.toNat ≤ 55) → c ≠ 10 → c ≠ 13 → StringText n v t → StringText n (c :: v) (92 :: c :: t)
  | oct3 {n x y z v t} : x ≤ 3 → y ≤ 7 → z ≤ 7 → StringText n v t →
      StringText n (UInt8.ofNat (64 * x + 8 * y + z) :: v) (92 :: octDigit x :: octDigit y :: octDigit z :: t)
  | oct2 {n y z v t} : y ≤ 7 → z ≤ 7 → NoOctal t → StringText n v t → StringText n (UInt8.ofNat (8 * y + z) :: v) (92 :: octDigit y :: octDigit z :: t)
  | oct1 {n z v t} : z ≤ 7 → NoOctal t → StringText n v t → StringText n (UInt8.ofNat z :: v) (92 :: octDigit z :: t)
  | lf {n v t} : StringText n v t → StringText n v (92 :: 10 :: t)
  | crlf {n v t} : StringText n v t → StringText n v (92 :: 13 :: 10 :: t)
  | cr {n v t} : (∀ u, t ≠ 10 :: u) → StringText n v t → StringText n v (92 :: 13 :: t)

end Pdf.Spec
