import Verif.Spec.Syntax
import Mathlib.Algebra.Order.Field.Rat
/-!
IEEE 754 binary64 by its definition: which numbers are doubles, and what rounding to the nearest double is, ties to even.
-/

namespace Pdf.Spec
open Pdf

/-- The non-negative finite doubles: `m * 2^(k - 1074)` with a significand `m` of 53 bits, where `k ≤ 2045`. -/
def IsDouble (x : Rat) : Prop := ∃ m k : Nat, m < 2 ^ 53 ∧ k ≤ 2045 ∧ x * 2 ^ 1074 = m * 2 ^ k

/-- The significand of `x` is even. (The significand has 53 bits unless the exponent is the least.) -/
def EvenDouble (x : Rat) : Prop := ∀ m k : Nat, m < 2 ^ 53 → 2 ^ 52 ≤ m ∨ k = 0 → x * 2 ^ 1074 = m * 2 ^ k → m % 2 = 0

/-- `x` is the double nearest to `q`, and has an even significand when another one is as near. -/
structure Nearest (q x : Rat) : Prop where
  double : IsDouble x
  closest : ∀ y, IsDouble y → |q - x| ≤ |q - y|
  even : ∀ y, IsDouble y → y ≠ x → |q - x| = |q - y| → EvenDouble x

/-- What a non-negative number is rounded to. From the middle between the largest double and 2^1024 on, that is infinity. -/
def Rounded (q : Rat) : F64 → Prop
  | .fin x => q < 2 ^ 1024 - 2 ^ 970 ∧ Nearest q x
  | .inf neg => neg = false ∧ 2 ^ 1024 - 2 ^ 970 ≤ q
  | .negZero => False

/-- The sum of two non-negative doubles, of which the second is given as the number it was rounded from. -/
def Sum (x : F64) (q : Rat) (z : F64) : Prop :=
  (∃ a b, x = .fin a ∧ Rounded q (.fin b) ∧ Rounded (a + b) z) ∨ (x = .inf false ∨ Rounded q (.inf false)) ∧ z = .inf false

/-- Ten times a double. -/
def Tenfold (x z : F64) : Prop := (∃ a, x = .fin a ∧ Rounded (10 * a) z) ∨ x = .inf false ∧ z = .inf false

/-- The double computed from a string of digits: ten times what was computed before, plus the digit. -/
inductive WholeDouble : List Nat → F64 → Prop
  | nil : WholeDouble [] (.fin 0)
  | snoc {ds x y z} {d : Nat} : WholeDouble ds x → Tenfold x y → Sum y d z → WholeDouble (ds ++ [d]) z

/-- The double computed from `x` and fraction digits: digit number `i` adds `d / (10 * i)` (it should be `d / 10 ^ i`, see
`C06_fraction_false`). -/
inductive FractionDouble (x : F64) : List Nat → F64 → Prop
  | nil : FractionDouble x [] x
  | snoc {ds y z} {d : Nat} : FractionDouble x ds y → Sum y ((d : Rat) / (10 * (ds.length + 1))) z → FractionDouble x (ds ++ [d]) z

/-- The double with the opposite sign. -/
inductive Opposite : F64 → F64 → Prop
  | zero : Opposite (.fin 0) .negZero
  | fin {q} : 0 < q → Opposite (.fin q) (.fin (-q))
  | inf : Opposite (.inf false) (.inf true)

/-- The digits of a number: whole digits, and fraction digits if there is a point. -/
def numberText (ds : List Nat) : Option (List Nat) → Bytes
  | none => ds.map decDigit
  | some fs => ds.map decDigit ++ 46 :: fs.map decDigit

end Pdf.Spec
