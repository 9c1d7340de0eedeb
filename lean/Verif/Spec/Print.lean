import Verif.Spec.Grammar
/-!
Objects whose `String()` text needs no quoting.
-/

namespace Pdf.Spec

mutual
/-- Values that print as a spelling of themselves: words, integers below one million, doubles nearest to a number below one million with one fraction digit, names of regular
characters other than `#`, strings with balanced parentheses and no backslash, references, and arrays
and dictionaries of these. -/
inductive Plain : Obj → Prop
  | kw {b k} : IsRegular b → ¬ (48 ≤ b.toNat ∧ b.toNat ≤ 57) → b ≠ 43 → b ≠ 45 → b ≠ 46 → (∀ c ∈ k, IsRegular c) → b :: k ≠ [82] →
      Plain (.kw (b :: k))
  | int {neg n} : n < 1000000 → Plain (.num (intNum neg n))
  | tenth {neg : Bool} {n d : Nat} {q : Rat} : n < 1000000 → 0 < d → d < 10 → Rounded (n + (d : Rat) / 10) (.fin q) →
      Plain (.num (.fin (if neg then -q else q)))
  | name {v} : NameText v v [] → Plain (.name v)
  | str {v} : StrText v v [] → Plain (.str v)
  | ref {n g : Nat} : n < 2 ^ 53 → g < 2 ^ 63 → Plain (.ref n g)
  | arr {os} : PlainArr os → Plain (.arr os)
  | dict {es} : PlainDict es → (es.map (·.1)).Nodup → Plain (.dict es)
inductive PlainArr : List Obj → Prop
  | nil : PlainArr []
  | cons {o os} : Plain o → PlainArr os → PlainArr (o :: os)
inductive PlainDict : List (Bytes × Obj) → Prop
  | nil : PlainDict []
  | cons {k o es} : NameText k k [] → Plain o → PlainDict es → PlainDict ((k, o) :: es)
end

/-- The number in decimal, with a sign if it is negative, and with no more digits than it needs. -/
inductive Decimal : Int → Bytes → Prop
  | nonneg {ds : List Nat} : (∀ d ∈ ds, d < 10) → ds ≠ [] → (1 < ds.length → 10 ^ (ds.length - 1) ≤ decVal ds) → Decimal (decVal ds) (ds.map decDigit)
  | neg {ds : List Nat} : (∀ d ∈ ds, d < 10) → ds ≠ [] → 0 < decVal ds → 10 ^ (ds.length - 1) ≤ decVal ds → Decimal (-(decVal ds)) (ch%'-' :: ds.map decDigit)

end Pdf.Spec
