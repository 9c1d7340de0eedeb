/-!
Bytes, byte classes, Go's 64-bit `int`/`int64`, and the result type of the modelled Go functions.
-/

namespace Pdf

/-- A Go `[]byte` / `string` value (contents only; aliasing is modelled where it is observable). -/
abbrev Bytes := List UInt8

/-- `b!"xref"` is the list of the UTF-8 bytes of the literal, as numerals. -/
macro:max "b!" s:str : term => do
  let elems ← s.getString.toUTF8.toList.mapM fun b => `(($(Lean.quote b.toNat) : UInt8))
  `(([$(elems.toArray),*] : List UInt8))

/-- `ch%'/'` is the byte of an ASCII character, as a numeral. -/
macro:max "ch%" c:char : term => `(($(Lean.quote c.getChar.toNat) : UInt8))

/-- parser.go:17 `var whitespace = []byte("\x00\t\n\f\r ")` -/
def whitespace : Bytes := [0x00, 0x09, 0x0A, 0x0C, 0x0D, 0x20]

/-- parser.go:18 `var delimiters = []byte("()<>[]/%")` -/
def delimiters : Bytes := b!"()<>[]/%"

/-- `bytes.IndexByte(whitespace, b) >= 0` (parser.go:766, 800, 1146; filters.go:59, 72, 125) -/
def isWs (b : UInt8) : Bool := whitespace.contains b

/-- `bytes.IndexByte(delimiters, b) >= 0` (parser.go:766, 800, 827) -/
def isDelim (b : UInt8) : Bool := delimiters.contains b

/-- `b >= '0' && b <= '9'` (parser.go:548, 723, 739, 855, 871, 889) -/
def isDigit (b : UInt8) : Bool := ch%'0' ≤ b && b ≤ ch%'9'

/-- `b >= '0' && b <= '7'` (parser.go:1067, 1081) -/
def isOctal (b : UInt8) : Bool := ch%'0' ≤ b && b ≤ ch%'7'

/-- utility.go:29-31 `IsHex` -/
def isHex (b : UInt8) : Bool :=
  (ch%'0' ≤ b && b ≤ ch%'9') || (ch%'a' ≤ b && b ≤ ch%'f') || (ch%'A' ≤ b && b ≤ ch%'F')

/-- The digit value used by `strconv.ParseUint(_, 16, 8)` (parser.go:690, 704, 823; filters.go:88);
`none` where ParseUint reports a syntax error. -/
def hexVal? (b : UInt8) : Option Nat :=
  if ch%'0' ≤ b && b ≤ ch%'9' then some (b.toNat - 48)
  else if ch%'a' ≤ b && b ≤ ch%'f' then some (b.toNat - 87)
  else if ch%'A' ≤ b && b ≤ ch%'F' then some (b.toNat - 55)
  else none

/-- `strconv.ParseUint(string([]byte{hi, lo}), 16, 8)`: `none` on a syntax error. Two digits always
fit in 8 bits. -/
def parseHex2 (hi lo : UInt8) : Option UInt8 :=
  match hexVal? hi, hexVal? lo with
  | some h, some l => some (UInt8.ofNat (h * 16 + l))
  | _, _ => none

/-- Wrap-around of a Go `int`/`int64` (two's complement, 64 bits; amd64/arm64). -/
def wrap64 (x : Int) : Int :=
  (x + 9223372036854775808) % 18446744073709551616 - 9223372036854775808

/-- Outcome of a modelled Go call: a value, a run-time panic, or "more fuel needed" (the call has
not returned within the given number of nested calls). -/
inductive Res (α : Type) where
  | ok (a : α)
  | panic (why : String)
  | oof
deriving Repr, DecidableEq

namespace Res

/-- Sequencing of Go statements: a panic (or divergence) stops everything. -/
protected def bind {α β : Type} (x : Res α) (f : α → Res β) : Res β :=
  match x with
  | ok a => f a
  | panic w => panic w
  | oof => oof

instance : Monad Res where
  pure := ok
  bind := Res.bind

@[simp] theorem bind_ok {α β : Type} (a : α) (f : α → Res β) : (ok a >>= f) = f a := rfl
@[simp] theorem bind_panic {α β : Type} (w : String) (f : α → Res β) : (panic w >>= f) = panic w := rfl
@[simp] theorem bind_oof {α β : Type} (f : α → Res β) : ((oof : Res α) >>= f) = oof := rfl
@[simp] theorem pure_eq {α : Type} (a : α) : (pure a : Res α) = ok a := rfl

end Res

/-- A Go map with comparable keys: association list with at most one entry per key. Iteration order
is unspecified in Go; list order here carries no meaning (see the permutation theorems). -/
abbrev Assoc (κ α : Type) := List (κ × α)

namespace Assoc
variable {κ α : Type} [DecidableEq κ]

/-- `v, ok := m[k]` -/
def get? (m : Assoc κ α) (k : κ) : Option α :=
  match m with
  | [] => none
  | (k', v) :: t => if k' = k then some v else get? t k

/-- `m[k] = v` -/
def set (m : Assoc κ α) (k : κ) (v : α) : Assoc κ α :=
  match m with
  | [] => [(k, v)]
  | (k', v') :: t => if k' = k then (k, v) :: t else (k', v') :: set t k v

/-- `for k, v := range m2 { m[k] = v }` -/
def merge (m m2 : Assoc κ α) : Assoc κ α := m2.foldl (fun acc kv => set acc kv.1 kv.2) m

/-- The keys. -/
def keys (m : Assoc κ α) : List κ := m.map (·.1)

end Assoc

end Pdf
