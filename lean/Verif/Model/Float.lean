import Verif.Model.Bytes
/-!
Software model of the part of IEEE-754 binary64 that the parser uses (`type Number float64`,
number.go; arithmetic in parser.go:839-905). Values are exact rationals; every operation rounds to
nearest, ties to even. NaN cannot arise from the operations used. amd64 semantics: no fused
multiply-add; `int(f)` out of range gives -2^63.
-/

namespace Pdf

/-- A `float64` value reachable in the parser. `fin q` is the finite value `q` (`+0` for `q = 0`). -/
inductive F64 where
  | fin (q : Rat)
  | negZero
  | inf (neg : Bool)
deriving DecidableEq, Repr

/-- Integer nearest to `a / b`, ties to even. -/
def roundHalfEven (a b : Nat) : Nat :=
  let q := a / b
  let r := a % b
  if 2 * r < b then q else if b < 2 * r then q + 1 else q + q % 2

/-- `floor (log2 (n / d))` for `n, d > 0`. -/
def floorLog2 (n d : Nat) : Int :=
  let l : Int := (Nat.log2 n : Int) - (Nat.log2 d : Int)
  let ge := if 0 ≤ l then d * 2 ^ l.toNat ≤ n else d ≤ n * 2 ^ (-l).toNat
  if ge then l else l - 1

/-- Round the non-negative rational `n / d` to binary64 (53-bit significand, minimum exponent
-1074, overflow to infinity from 2^1024). -/
def roundNN (n d : Nat) : F64 :=
  if n = 0 then .fin 0
  else
    let e : Int := max (floorLog2 n d - 52) (-1074)
    if 0 ≤ e then
      let v := roundHalfEven n (d * 2 ^ e.toNat) * 2 ^ e.toNat
      if 2 ^ 1024 ≤ v then .inf false else .fin (v : Rat)
    else
      .fin (mkRat (roundHalfEven (n * 2 ^ (-e).toNat) d) (2 ^ (-e).toNat))

/-- Rounding of a non-negative rational. -/
def roundQ (q : Rat) : F64 := roundNN q.num.toNat q.den

namespace F64

/-- parser.go:856, 872 `Number(float64(number) * 10 + float64(b - '0'))`, for a non-negative number -/
def mul10Add (x : F64) (d : Nat) : F64 :=
  match x with
  | .fin q => match roundQ (q * 10) with
    | .fin q' => roundQ (q' + (d : Rat))
    | y => y
  | y => y

/-- parser.go:890 `Number(float64(number) + float64(b - '0') / (10 * float64(i)))`, for a
non-negative number; `10 * float64(i)` is exact for the `i` that occur (`i < 2^49`). -/
def addFrac (x : F64) (d i : Nat) : F64 :=
  match x with
  | .fin q => match roundQ (mkRat d (10 * i)) with
    | .fin q' => roundQ (q + q')
    | y => y
  | y => y

/-- parser.go:900 `-number` -/
def neg : F64 → F64
  | .fin q => if q = 0 then .negZero else .fin (-q)
  | .negZero => .fin 0
  | .inf b => .inf !b

/-- `int(number)`, `int64(number)` on amd64 (truncation; -2^63 when out of range). -/
def toInt : F64 → Int
  | .fin q =>
    let t := q.num.tdiv q.den
    if -9223372036854775808 ≤ t ∧ t < 9223372036854775808 then t else -9223372036854775808
  | .negZero => 0
  | .inf _ => -9223372036854775808

/-- `Number(n)` for an integer constant -/
def ofInt (n : Int) : F64 := .fin (n : Rat)

end F64

/-- Decimal digits of a natural number, most significant first, as ASCII bytes (`%d`). -/
def natDigitsAux : Nat → Nat → Bytes → Bytes
  | 0, _, acc => acc
  | f + 1, n, acc =>
    let acc := UInt8.ofNat (48 + n % 10) :: acc
    if n / 10 = 0 then acc else natDigitsAux f (n / 10) acc

/-- `%d` of a non-negative integer -/
def natDigits (n : Nat) : Bytes := natDigitsAux (n + 1) n []

/-- `%d` of a Go `int` (reference.go:19, object.go:25) -/
def intDigits (n : Int) : Bytes :=
  if n < 0 then ch%'-' :: natDigits n.natAbs else natDigits n.natAbs

/-- Decimal point position of `q > 0`: the `k` with `10^(k-1) ≤ q < 10^k`. -/
def decimalPoint (q : Rat) : Int :=
  let l : Int := ((natDigits q.num.toNat).length : Int) - ((natDigits q.den).length : Int)
  -- 10^(l-1) < q < 10^(l+1)
  let ge := if 0 ≤ l then q.den * 10 ^ l.toNat ≤ q.num.toNat else q.den ≤ q.num.toNat * 10 ^ (-l).toNat
  if ge then l + 1 else l

/-- `q * 10^k` rounded to an integer, half to even -/
def scale10 (q : Rat) (k : Int) : Nat :=
  if 0 ≤ k then roundHalfEven (q.num.toNat * 10 ^ k.toNat) q.den
  else roundHalfEven q.num.toNat (q.den * 10 ^ (-k).toNat)

/-- `m * 10^k` as a binary64 -/
def ofDecimal (m : Nat) (k : Int) : F64 :=
  if 0 ≤ k then roundNN (m * 10 ^ k.toNat) 1 else roundNN m (10 ^ (-k).toNat)

/-- Shortest decimal significand (at most 17 digits) that reads back as `q`: returns `(m, k)` with
value `m * 10^k`. -/
def shortestAux (q : Rat) (dp : Int) : Nat → Nat → Nat × Int
  | 0, nd => (scale10 q (nd - dp), dp - nd)
  | f + 1, nd =>
    let m := scale10 q (nd - dp)
    if ofDecimal m (dp - nd) = .fin q then (m, dp - nd) else shortestAux q dp f (nd + 1)

/-- Remove trailing decimal zeros from the significand. -/
def stripZeros : Nat → Nat → Int → Nat × Int
  | 0, m, k => (m, k)
  | f + 1, m, k => if m % 10 = 0 ∧ m ≠ 0 then stripZeros f (m / 10) (k + 1) else (m, k)

/-- `strconv.FormatFloat(q, 'g', -1, 64)` for `q > 0` (what `fmt.Sprint` uses): shortest digits; `%e`
form when `exp < -4 || exp >= eprec`, with `eprec = 6` for the shortest format, so 1000000 prints
as `1e+06`. -/
def formatPos (q : Rat) : Bytes :=
  let dp0 := decimalPoint q
  let (m, k) := shortestAux q dp0 16 1
  let (m, k) := stripZeros 20 m k
  let digs := natDigits m
  let nd : Int := digs.length
  let dp : Int := nd + k
  let exp := dp - 1
  if exp < -4 ∨ 6 ≤ exp then
    let mant := match digs with
      | [] => []
      | d :: ds => if ds.isEmpty then [d] else d :: ch%'.' :: ds
    let ed := natDigits exp.natAbs
    mant ++ [ch%'e', if exp < 0 then ch%'-' else ch%'+'] ++ (if ed.length < 2 then ch%'0' :: ed else ed)
  else if dp ≤ 0 then
    b!"0." ++ List.replicate (-dp).toNat ch%'0' ++ digs
  else if nd ≤ dp then
    digs ++ List.replicate (dp - nd).toNat ch%'0'
  else
    digs.take dp.toNat ++ [ch%'.'] ++ digs.drop dp.toNat

/-- number.go:9-11 `Number.String`: `fmt.Sprint(float64(number))` -/
def F64.toBytes : F64 → Bytes
  | .fin q => if q = 0 then b!"0" else if q < 0 then ch%'-' :: formatPos (-q) else formatPos q
  | .negZero => b!"-0"
  | .inf true => b!"-Inf"
  | .inf false => b!"+Inf"

end Pdf
