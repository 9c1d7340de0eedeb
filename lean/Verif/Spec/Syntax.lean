import Verif.Spec.Filters
import Verif.Model.Object
/-!
PDF syntax (ISO 32000-1, 7.2 and 7.3), independent of the parser's code. In `…Text v t e`, `t` is a
legal spelling of the value `v`; `e` lists the abnormalities README.md documents for spellings that
are legal but suspicious (escapes that were not necessary).
-/

namespace Pdf.Spec

/-- The delimiters `( ) < > [ ] / %`. -/
def IsDelimiter (b : UInt8) : Prop :=
  b = 40 ∨ b = 41 ∨ b = 60 ∨ b = 62 ∨ b = 91 ∨ b = 93 ∨ b = 47 ∨ b = 37

/-- Neither white space nor a delimiter. -/
def IsRegular (b : UInt8) : Prop := ¬ IsWhite b ∧ ¬ IsDelimiter b

instance (b : UInt8) : Decidable (IsWhite b) := by unfold IsWhite; infer_instance
instance (b : UInt8) : Decidable (IsDelimiter b) := by unfold IsDelimiter; infer_instance
instance (b : UInt8) : Decidable (IsRegular b) := by unfold IsRegular; infer_instance

/-- White space and complete comments. -/
inductive Blank : Bytes → Prop
  | nil : Blank []
  | ws {b t} : IsWhite b → Blank t → Blank (b :: t)
  | comment {c e t} : (∀ b ∈ c, b ≠ 10 ∧ b ≠ 13) → e = 10 ∨ e = 13 → Blank t → Blank (37 :: c ++ e :: t)

/-- A comment that the end of the file cuts off, or nothing. -/
def OpenComment (t : Bytes) : Prop := t = [] ∨ ∃ c, t = 37 :: c ∧ ∀ b ∈ c, b ≠ 10 ∧ b ≠ 13

/-- `r` cannot continue a name or keyword. -/
def Stops (r : Bytes) : Prop := ∀ b t, r = b :: t → ¬ IsRegular b

/-! ### Literal strings -/

/-- An octal digit of value `n`. -/
def octDigit (n : Nat) : UInt8 := UInt8.ofNat (48 + n)

/-- `r` does not start with an octal digit. -/
def NoOctal (r : Bytes) : Prop := ∀ b t, r = b :: t → ¬ (48 ≤ b.toNat ∧ b.toNat ≤ 55)

/-- The escapes with a letter. -/
def Letter (c v : UInt8) : Prop :=
  (c = 110 ∧ v = 10) ∨ (c = 114 ∧ v = 13) ∨ (c = 116 ∧ v = 9) ∨ (c = 98 ∧ v = 8) ∨ (c = 102 ∧ v = 12)

/-- README: an octal escape is unnecessary for a printable character other than `(`, `)`, `\`. -/
def strNote (v : UInt8) : List Err :=
  if 33 ≤ v.toNat ∧ v.toNat ≤ 126 ∧ v ≠ 40 ∧ v ≠ 41 ∧ v ≠ 92 then [.unnecessaryEscapeString] else []

/-- Contents of a literal string, between the outer parentheses. -/
inductive StrText : Bytes → Bytes → List Err → Prop
  | nil : StrText [] [] []
  | plain {b v t e} : b ≠ 40 → b ≠ 41 → b ≠ 92 → StrText v t e → StrText (b :: v) (b :: t) e
  | parens {v t e v' t' e'} : StrText v t e → StrText v' t' e' →
      StrText (40 :: v ++ 41 :: v') (40 :: t ++ 41 :: t') (e ++ e')
  | letter {c b v t e} : Letter c b → StrText v t e → StrText (b :: v) (92 :: c :: t) e
  /-- a backslash before any other byte is ignored; in particular `\(`, `\)`, `\\` -/
  | self {c v t e} : (¬ ∃ b, Letter c b) → ¬ (48 ≤ c.toNat ∧ c.toNat ≤ 55) → c ≠ 10 → c ≠ 13 →
      StrText v t e → StrText (c :: v) (92 :: c :: t) e
  | oct3 {x y z v t e} : x ≤ 3 → y ≤ 7 → z ≤ 7 → StrText v t e →
      StrText (UInt8.ofNat (64 * x + 8 * y + z) :: v)
        (92 :: octDigit x :: octDigit y :: octDigit z :: t) (strNote (UInt8.ofNat (64 * x + 8 * y + z)) ++ e)
  | oct2 {y z v t e} : y ≤ 7 → z ≤ 7 → NoOctal t → StrText v t e →
      StrText (UInt8.ofNat (8 * y + z) :: v) (92 :: octDigit y :: octDigit z :: t)
        (strNote (UInt8.ofNat (8 * y + z)) ++ e)
  | oct1 {z v t e} : z ≤ 7 → NoOctal t → StrText v t e →
      StrText (UInt8.ofNat z :: v) (92 :: octDigit z :: t) (strNote (UInt8.ofNat z) ++ e)
  | lf {v t e} : StrText v t e → StrText v (92 :: 10 :: t) e
  | crlf {v t e} : StrText v t e → StrText v (92 :: 13 :: 10 :: t) e
  | cr {v t e} : (∀ u, t ≠ 10 :: u) → StrText v t e → StrText v (92 :: 13 :: t) e

/-- The text ends in what may be an incomplete escape sequence: a backslash and CR, or a backslash and
one or two octal digits. -/
def EndsEsc (t : Bytes) : Prop :=
  (∃ u, t = u ++ [92, 13]) ∨ (∃ u x, x ≤ 7 ∧ t = u ++ [92, octDigit x]) ∨
    ∃ u x y, x ≤ 7 ∧ y ≤ 7 ∧ t = u ++ [92, octDigit x, octDigit y]

/-- The usual spelling: a backslash in front of `(`, `)` and `\`. -/
def escapeStr (v : Bytes) : Bytes := v.flatMap fun b => if b = 40 ∨ b = 41 ∨ b = 92 then [92, b] else [b]

/-! ### Hex strings -/

/-- Digits taken in pairs; a missing last digit is 0. -/
def hexPairs : List Nat → Bytes
  | [] => []
  | [h] => [UInt8.ofNat (16 * h)]
  | h :: l :: t => UInt8.ofNat (16 * h + l) :: hexPairs t

/-- `HexBody ds t k`: between `<` and `>`, `t` holds the digits `ds` and `k` bytes that do not belong
there. -/
inductive HexBody : List Nat → Bytes → Nat → Prop
  | nil : HexBody [] [] 0
  | digit {n c ds t k} : IsHexDigit n c → HexBody ds t k → HexBody (n :: ds) (c :: t) k
  | ws {b ds t k} : IsWhite b → HexBody ds t k → HexBody ds (b :: t) k
  | comment {c e ds t k} : (∀ b ∈ c, b ≠ 10 ∧ b ≠ 13) → e = 10 ∨ e = 13 → HexBody ds t k →
      HexBody ds (37 :: c ++ e :: t) k
  | junk {b ds t k} : (¬ ∃ n, IsHexDigit n b) → ¬ IsWhite b → b ≠ 37 → b ≠ 62 → HexBody ds t k →
      HexBody ds (b :: t) (k + 1)

/-! ### Names -/

/-- README: a name escape is unnecessary for a printable regular character other than `#`. -/
def nameNote (v : UInt8) : List Err :=
  if 33 ≤ v.toNat ∧ v.toNat ≤ 126 ∧ v ≠ 35 ∧ ¬ IsDelimiter v then [.unnecessaryEscapeName] else []

/-- A name, after the slash. -/
inductive NameText : Bytes → Bytes → List Err → Prop
  | nil : NameText [] [] []
  | plain {b v t e} : IsRegular b → b ≠ 35 → NameText v t e → NameText (b :: v) (b :: t) e
  | esc {h l c1 c2 v t e} : IsHexDigit h c1 → IsHexDigit l c2 → NameText v t e →
      NameText (UInt8.ofNat (16 * h + l) :: v) (35 :: c1 :: c2 :: t) (nameNote (UInt8.ofNat (16 * h + l)) ++ e)

/-- The usual spelling: `#xx` for `#` and every byte that is not a printable regular character. -/
def escapeName (v : Bytes) : Bytes :=
  v.flatMap fun b => if IsRegular b ∧ b ≠ 35 ∧ 33 ≤ b.toNat ∧ b.toNat ≤ 126 then [b]
    else [35, hexLower (b.toNat / 16), hexLower (b.toNat % 16)]

/-! ### Numbers -/

/-- A decimal digit of value `n`. -/
def decDigit (n : Nat) : UInt8 := UInt8.ofNat (48 + n)

/-- Value of a digit string. -/
def decVal (ds : List Nat) : Nat := ds.foldl (fun v d => v * 10 + d) 0

/-- `r` does not start with a decimal digit. -/
def NoDigit (r : Bytes) : Prop := ∀ b t, r = b :: t → ¬ (48 ≤ b.toNat ∧ b.toNat ≤ 57)

/-- An optional sign, and whether it is negative. -/
inductive Sign : Bool → Bytes → Prop
  | none : Sign false []
  | plus : Sign false [43]
  | minus : Sign true [45]

/-- Two's complement value of `x` in 64 bits: the number congruent to it modulo 2^64 in [-2^63, 2^63). -/
def IsInt64Of (x y : Int) : Prop := -2 ^ 63 ≤ y ∧ y < 2 ^ 63 ∧ ∃ k : Int, x = y + 2 ^ 64 * k

end Pdf.Spec
