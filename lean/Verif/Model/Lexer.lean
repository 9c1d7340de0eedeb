import Verif.Model.Reader
/-!
The token readers of parser.go, byte by byte. Loops take a fuel argument; the callers pass
`file.length + 1`, which is always enough because every iteration consumes a byte
(proved: results meet list-level specifications that do not mention fuel).
-/

namespace Pdf

/-- parser.go:1153-1179 `consumeComment` -/
def consumeComment (file : Bytes) : Nat → PS → PS
  | 0, s => s
  | f + 1, s =>
    match readByte file s with
    | (none, s) => s
    | (some b, s) =>
      if b == 0x0A then s
      else if b == 0x0D then
        match readByte file s with
        | (none, s) => s
        | (some b, s) => if b != 0x0A then unreadByte s else s
      else consumeComment file f s

/-- parser.go:1135-1151 `consumeWhitespace` (loop) -/
def consumeWsLoop (file : Bytes) : Nat → PS → PS
  | 0, s => s
  | f + 1, s =>
    match readByte file s with
    | (none, s) => s
    | (some b, s) =>
      if b == ch%'%' then consumeWsLoop file f (consumeComment file (file.length + 1) s)
      else if isWs b then consumeWsLoop file f s
      else unreadByte s

/-- parser.go:1135-1151 `consumeWhitespace` -/
def consumeWs (file : Bytes) (s : PS) : PS := consumeWsLoop file (file.length + 1) s

/-- parser.go:732-746, digit loop of `ReadInt64` -/
def readIntLoop (file : Bytes) : Nat → PS → Int → Int × PS
  | 0, s, v => (v, s)
  | f + 1, s, v =>
    match readByte file s with
    | (none, s) => (v, s)
    | (some b, s) =>
      if isDigit b then readIntLoop file f s (wrap64 (v * 10 + (b.toNat - 48 : Nat)))
      else (v, unreadByte s)

/-- parser.go:714-749 `ReadInt64`; parser.go:709-712 `ReadInt` (`int` is 64 bits wide). At end of
file the byte read before is pushed back (`UnreadByte` after a failed `ReadByte`). -/
def readInt (file : Bytes) (s : PS) : (Int × Bool) × PS :=
  let s := consumeWs file s
  match readByte file s with
  | (none, s) => ((0, false), unreadByte s)
  | (some b, s) =>
    if isDigit b then
      let (v, s) := readIntLoop file (file.length + 1) s ((b.toNat - 48 : Nat) : Int)
      ((v, true), s)
    else ((0, false), unreadByte s)

/-- parser.go:758-773, loop of `ReadKeyword` -/
def readKeywordLoop (file : Bytes) : Nat → PS → Bytes → Bytes × PS
  | 0, s, acc => (acc, s)
  | f + 1, s, acc =>
    match readByte file s with
    | (none, s) => (acc, s)
    | (some b, s) =>
      if isWs b || isDelim b then (acc, unreadByte s)
      else readKeywordLoop file f s (acc ++ [b])

/-- parser.go:751-777 `ReadKeyword` (`NewKeyword`, keyword.go:29-31, is the identity) -/
def readKeyword (file : Bytes) (s : PS) : Bytes × PS :=
  readKeywordLoop file (file.length + 1) (consumeWs file s) []

/-- parser.go:808-820: reads up to two hex digits of a name escape; `code` starts as "00". -/
def readNameCode (file : Bytes) : Nat → PS → Bytes → Bytes × PS
  | 0, s, code => (code, s)
  | n + 1, s, code =>
    match readByte file s with
    | (none, s) => (code, s)
    | (some b, s) =>
      if isHex b then readNameCode file n s (code ++ [b])
      else (code, unreadByte (logErr s .invalidNameEscapeChar))

/-- parser.go:823-824: value of the (at most two digit) code, missing digits being '0'. -/
def nameCodeVal (code : Bytes) : UInt8 :=
  match code with
  | [] => 0
  | [h] => (parseHex2 h ch%'0').getD 0
  | h :: l :: _ => (parseHex2 h l).getD 0

/-- parser.go:827 `b >= '!' && b <= '~' && b != '#' && bytes.IndexByte(delimiters, b) < 0` -/
def nameEscapeUnneeded (b : UInt8) : Bool :=
  ch%'!' ≤ b && b ≤ ch%'~' && b != ch%'#' && !isDelim b

/-- parser.go:792-834, loop of `ReadName` -/
def readNameLoop (file : Bytes) : Nat → PS → Bytes → Bytes × PS
  | 0, s, acc => (acc, s)
  | f + 1, s, acc =>
    match readByte file s with
    | (none, s) => (acc, s)
    | (some b, s) =>
      if isDelim b || isWs b then (acc, unreadByte s)
      else if b == ch%'#' then
        let (code, s) := readNameCode file 2 s []
        let b := nameCodeVal code
        let s := if nameEscapeUnneeded b then logErr s .unnecessaryEscapeName else s
        readNameLoop file f s (acc ++ [b])
      else readNameLoop file f s (acc ++ [b])

/-- parser.go:779-837 `ReadName` -/
def readName (file : Bytes) (s : PS) : Bytes × PS :=
  let s := consumeWs file s
  match readByte file s with
  | (none, s) => ([], s)
  | (some b, s) =>
    if b != ch%'/' then ([], s)
    else readNameLoop file (file.length + 1) s []

/-- parser.go:883-895, fraction digits -/
def readFracLoop (file : Bytes) : Nat → PS → F64 → Nat → F64 × PS
  | 0, s, x, _ => (x, s)
  | f + 1, s, x, i =>
    match readByte file s with
    | (none, s) => (x, s)
    | (some b, s) =>
      if isDigit b then readFracLoop file f s (x.addFrac (b.toNat - 48) i) (i + 1)
      else (x, unreadByte s)

/-- parser.go:865-879, integer digits; the Boolean is `isReal` -/
def readWholeLoop (file : Bytes) : Nat → PS → F64 → (F64 × Bool) × PS
  | 0, s, x => ((x, false), s)
  | f + 1, s, x =>
    match readByte file s with
    | (none, s) => ((x, false), s)
    | (some b, s) =>
      if isDigit b then readWholeLoop file f s (x.mul10Add (b.toNat - 48))
      else if b == ch%'.' then ((x, true), s)
      else ((x, false), unreadByte s)

/-- parser.go:839-905 `ReadNumber` -/
def readNumber (file : Bytes) (s : PS) : F64 × PS :=
  let s := consumeWs file s
  match readByte file s with
  | (none, s) => (.fin 0, s)
  | (some b, s) =>
    if b == ch%'-' || isDigit b || b == ch%'.' || b == ch%'+' then
      let isNegative := b == ch%'-'
      let x : F64 := if isDigit b then F64.mul10Add (.fin 0) (b.toNat - 48) else .fin 0
      let ((x, isReal), s) :=
        if b == ch%'.' then ((x, true), s) else readWholeLoop file (file.length + 1) s x
      let (x, s) := if isReal then readFracLoop file (file.length + 1) s x 1 else (x, s)
      (if isNegative then x.neg else x, s)
    else (.fin 0, unreadByte s)

/-- parser.go:680-706, loop of `ReadHexString`; `pend` is the first digit of a pair already read
(`i > 0`). Returns the bytes before decryption. -/
def readHexLoop (file : Bytes) : Nat → PS → Option UInt8 → Bytes → Bytes × PS
  | 0, s, _, acc => (acc, s)
  | f + 1, s, pend, acc =>
    let s := consumeWs file s
    let fin (acc : Bytes) : Bytes := match pend with
      | some h => acc ++ [(parseHex2 h ch%'0').getD 0]
      | none => acc
    match readByte file s with
    | (none, s) => (fin acc, logErr s .unclosedHexString)
    | (some b, s) =>
      if b == ch%'>' then (fin acc, s)
      else if !isHex b then readHexLoop file f (logErr s .invalidHexStringChar) pend acc
      else match pend with
        | none => readHexLoop file f s (some b) acc
        | some h => readHexLoop file f s none (acc ++ [(parseHex2 h b).getD 0])

/-- parser.go:666-707 `ReadHexString` up to the decryption of the collected bytes -/
def readHexRaw (file : Bytes) (s : PS) : Bytes × PS :=
  let s := consumeWs file s
  match readByte file s with
  | (none, s) => ([], s)
  | (some b, s) =>
    if b != ch%'<' then ([], s) else readHexLoop file (file.length + 1) s none []

/-- parser.go:1072-1089: up to two more octal digits -/
def readOctalMore (file : Bytes) : Nat → PS → Bytes → Bytes × PS
  | 0, s, code => (code, s)
  | n + 1, s, code =>
    match readByte file s with
    | (none, s) => (code, logErr s .unclosedStringOctal)
    | (some b, s) =>
      if isOctal b then readOctalMore file n s (code ++ [b])
      else (code, unreadByte s)

/-- Value of a string of octal digits (`strconv.ParseUint(code, 8, _)` without the size limit). -/
def octalVal (code : Bytes) : Nat := code.foldl (fun v b => v * 8 + (b.toNat - 48)) 0

/-- parser.go:1102 `b >= '!' && b <= '~' && b != '\\' && b != '(' && b != ')'` -/
def stringEscapeUnneeded (b : UInt8) : Bool :=
  ch%'!' ≤ b && b ≤ ch%'~' && b != 0x5C && b != ch%'(' && b != ch%')'

/-- parser.go:1066-1105: octal character code starting with digit `b` -/
def readOctal (file : Bytes) (s : PS) (b : UInt8) : UInt8 × PS :=
  let (code, s) := readOctalMore file 2 s [b]
  let v := octalVal code
  let (b, s) :=
    if v < 256 then (UInt8.ofNat v, s)
    else (UInt8.ofNat (octalVal code.dropLast), unreadByte (logErr s .invalidOctal))
  (b, if stringEscapeUnneeded b then logErr s .unnecessaryEscapeString else s)

/-- parser.go:1054-1064: named escapes -/
def namedEscape (b : UInt8) : UInt8 :=
  if b == ch%'n' then 0x0A
  else if b == ch%'r' then 0x0D
  else if b == ch%'t' then 0x09
  else if b == ch%'b' then 0x08
  else if b == ch%'f' then 0x0C
  else b

/-- parser.go:1011-1126, loop of `ReadString`. Returns the bytes before decryption. -/
def readStringLoop (file : Bytes) : Nat → PS → Nat → Bytes → Bytes × PS
  | 0, s, _, acc => (acc, s)
  | f + 1, s, opens, acc =>
    match readByte file s with
    | (none, s) => (acc, logErr s .unclosedString)
    | (some b, s) =>
      if b == 0x5C then
        match readByte file s with
        | (none, s) => (acc ++ [0x5C], logErr s .unclosedStringEscape)
        | (some b, s) =>
          if b == 0x0A then readStringLoop file f s opens acc
          else if b == 0x0D then
            match readByte file s with
            | (none, s) => (acc, logErr s .unclosedStringEscape)
            | (some b, s) =>
              readStringLoop file f (if b != 0x0A then unreadByte s else s) opens acc
          else
            let b := namedEscape b
            if isOctal b then
              let (b, s) := readOctal file s b
              readStringLoop file f s opens (acc ++ [b])
            else readStringLoop file f s opens (acc ++ [b])
      else
        let opens := if b == ch%'(' then opens + 1 else if b == ch%')' then opens - 1 else opens
        if opens = 0 then (acc, s)
        else readStringLoop file f s opens (acc ++ [b])

/-- parser.go:994-1132 `ReadString` up to the decryption of the collected bytes -/
def readStringRaw (file : Bytes) (s : PS) : Bytes × PS :=
  let s := consumeWs file s
  match readByte file s with
  | (none, s) => ([], s)
  | (some b, s) =>
    if b != ch%'(' then ([], s) else readStringLoop file (file.length + 1) s 1 []

/-- parser.go:912-935: skips to the start of the stream data; `false` when the file ends first -/
def skipToStreamData (file : Bytes) : Nat → PS → Bool × PS
  | 0, s => (false, s)
  | f + 1, s =>
    match readByte file s with
    | (none, s) => (false, s)
    | (some b, s) =>
      if b == 0x0A then (true, s)
      else if b == 0x0D then
        match readByte file s with
        | (none, s) => (false, s)
        | (some b, s) => (true, if b != 0x0A then unreadByte s else s)
      else skipToStreamData file f s

/-- parser.go:949-958: drops one trailing line break -/
def trimEol (data : Bytes) : Bytes :=
  if data.getLast? = some 0x0A then
    if data.dropLast.getLast? = some 0x0D then data.dropLast.dropLast else data.dropLast
  else if data.getLast? = some 0x0D then data.dropLast
  else data

/-- parser.go:946-977: sliding window over the data, looking for "endstream" -/
def streamLoop (file : Bytes) : Nat → PS → Bytes → Bytes → Bytes × PS
  | 0, s, _, acc => (acc, s)
  | f + 1, s, win, acc =>
    if win = b!"endstream" then (trimEol acc, s)
    else match win with
      | [] => (acc, s)
      | b :: win =>
        match readByte file s with
        | (none, s) => (acc ++ [b] ++ win, logErr s .unclosedStream)
        | (some c, s) => streamLoop file f s (win ++ [c]) (acc ++ [b])

/-- parser.go:907-977 `ReadStream` before decryption and decoding; `none` is the early return of
empty data when the file ends before the data starts. -/
def readStreamRaw (file : Bytes) (s : PS) : Option Bytes × PS :=
  match skipToStreamData file (file.length + 1) s with
  | (false, s) => (none, s)
  | (true, s) =>
    let (win, s) := readN file s 9
    let (data, s) := streamLoop file (file.length + 2) s win []
    (some data, s)

end Pdf
