import Verif.Model.Lexer
import Verif.Model.Object
/-!
`ReadObject`, `ReadArray`, `ReadDictionary`, `ReadString`, `ReadHexString`, `ReadCommand`,
`ReadObjectHeader` (parser.go:475-664).

`dec` is the effect of `decryptor.Decrypt` on the bytes of a string (identity for `noDecryptor`);
it may panic (AES with an unset `Verbose`, see `Crypt`).
-/

namespace Pdf

/-- errors.go:12-16, the error values `ReadObject` returns (`nil` = no error) -/
inductive RErr where
  | nil | readError | endOfArray | endOfString | endOfDictionary | endOfHexString
deriving DecidableEq, Repr

/-- parser.go:994-1132 `ReadString` -/
def readString (file : Bytes) (dec : Bytes → Res Bytes) (s : PS) : Res (Bytes × PS) :=
  let (raw, s) := readStringRaw file s
  dec raw >>= fun d => .ok (d, s)

/-- parser.go:666-707 `ReadHexString` -/
def readHexString (file : Bytes) (dec : Bytes → Res Bytes) (s : PS) : Res (Bytes × PS) :=
  let (raw, s) := readHexRaw file s
  dec raw >>= fun d => .ok (d, s)

/-- parser.go:547-569: a number, or a reference when an integer and `R` follow -/
def readNumOrRef (file : Bytes) (s : PS) : Obj × PS :=
  let (x, s) := readNumber file s
  let off := currentOffset s
  match readInt file s with
  | ((_, false), s) => (.num x, seek s off)
  | ((g, true), s) =>
    let (kw, s) := readKeyword file s
    if kw ≠ b!"R" then (.num x, seek s off) else (.ref x.toInt g, s)

/-- parser.go:576-586: start of `ReadArray` -/
def readArrayHead (file : Bytes) (s : PS) : Bool × PS :=
  match readByte file (consumeWs file s) with
  | (some b, s) => (b == ch%'[', s)
  | (none, s) => (false, s)

/-- parser.go:621-632: start of `ReadDictionary`. `Read` may return a single byte when the buffer
holds only one; then the comparison with "<<" fails. -/
def readDictHead (file : Bytes) (s : PS) : Bool × PS :=
  let (b, s) := readN file (consumeWs file s) 2
  (b == b!"<<", s)

mutual

/-- parser.go:496-573 `ReadObject` -/
def readObject (file : Bytes) (dec : Bytes → Res Bytes) : Nat → PS → Res ((Obj × RErr) × PS)
  | 0, _ => .oof
  | f + 1, s =>
    let s := consumeWs file s
    let (b, s) := peek2 file s
    match b with
    | [] => .ok ((Obj.null, .readError), s)
    | b0 :: _ =>
      if b0 == ch%'/' then
        let (n, s) := readName file s
        .ok ((.name n, .nil), s)
      else if b0 == ch%'[' then
        match readArrayHead file s with
        | (false, s) => .ok ((.arr [], .nil), s)
        | (true, s) => arrLoop file dec f s [] >>= fun (a, s) => .ok ((.arr a, .nil), s)
      else if b0 == ch%']' then .ok ((Obj.null, .endOfArray), discard s 1)
      else if b0 == ch%'(' then
        readString file dec s >>= fun (b, s) => .ok ((.str b, .nil), s)
      else if b0 == ch%')' then .ok ((Obj.null, .endOfString), discard s 1)
      else if b == b!"<<" then
        match readDictHead file s with
        | (false, s) => .ok ((.dict [], .nil), s)
        | (true, s) => dictLoop file dec f s [] >>= fun (d, s) => .ok ((.dict d, .nil), s)
      else if b == b!">>" then .ok ((Obj.null, .endOfDictionary), discard s 2)
      else if b0 == ch%'<' then
        readHexString file dec s >>= fun (b, s) => .ok ((.str b, .nil), s)
      else if b0 == ch%'>' then .ok ((Obj.null, .endOfHexString), discard s 1)
      else if isDigit b0 || b0 == ch%'+' || b0 == ch%'-' || b0 == ch%'.' then
        let (o, s) := readNumOrRef file s
        .ok ((o, .nil), s)
      else
        let (k, s) := readKeyword file s
        .ok ((.kw k, .nil), s)

/-- parser.go:589-602: elements of an array -/
def arrLoop (file : Bytes) (dec : Bytes → Res Bytes) : Nat → PS → List Obj → Res (List Obj × PS)
  | 0, _, _ => .oof
  | f + 1, s, acc =>
    readObject file dec f s >>= fun ((e, err), s) =>
      if err = .readError then .ok (acc, logErr s .unclosedArray)
      else if err = .endOfArray then .ok (acc, s)
      else arrLoop file dec f s (acc ++ [e])

/-- parser.go:635-663: entries of a dictionary -/
def dictLoop (file : Bytes) (dec : Bytes → Res Bytes) : Nat → PS → Dict → Res (Dict × PS)
  | 0, _, _ => .oof
  | f + 1, s, d =>
    readObject file dec f s >>= fun ((name, err), s) =>
      if err = .readError then .ok (d, logErr s .unclosedDictionary)
      else if err = .endOfDictionary then .ok (d, s)
      else match name with
        | .name key =>
          readObject file dec f s >>= fun ((value, err), s) =>
            if err = .readError ∨ err = .endOfDictionary then .ok (d, logErr s .missingDictionaryValue)
            else dictLoop file dec f s (d.set key value)
        | _ => dictLoop file dec f (logErr s .invalidDictionaryKeyType) d

end

/-- Fuel that is always enough for reading one object (theorem `readObject_total`). -/
def objFuel (file : Bytes) : Nat := 2 * file.length + 4

/-- parser.go:496-573 `ReadObject`, as called -/
def readObj (file : Bytes) (dec : Bytes → Res Bytes) (s : PS) : Res ((Obj × RErr) × PS) :=
  readObject file dec (objFuel file) s

/-- parser.go:575-603 `ReadArray`, as called -/
def readArray (file : Bytes) (dec : Bytes → Res Bytes) (s : PS) : Res (List Obj × PS) :=
  match readArrayHead file s with
  | (false, s) => .ok ([], s)
  | (true, s) => arrLoop file dec (objFuel file) s []

/-- parser.go:620-664 `ReadDictionary`, as called (also directly by findObjects and loadXrefTable) -/
def readDictionary (file : Bytes) (dec : Bytes → Res Bytes) (s : PS) : Res (Dict × PS) :=
  match readDictHead file s with
  | (false, s) => .ok ([], s)
  | (true, s) => dictLoop file dec (objFuel file) s []

/-- encryption.go:31 `DecryptorNone.Decrypt` -/
def noDec : Bytes → Res Bytes := .ok

/-- parser.go:605-618 `ReadCommand` (loop) -/
def readCommandLoop (file : Bytes) : Nat → PS → List Obj → Res ((Bytes × List Obj × RErr) × PS)
  | 0, _, _ => .oof
  | f + 1, s, operands =>
    readObj file noDec s >>= fun ((operand, err), s) =>
      if err ≠ .nil then .ok ((b!"null", operands, err), s)
      else match operand with
        | .kw k => .ok ((k, operands, .nil), s)
        | o => readCommandLoop file f s (operands ++ [o])

/-- parser.go:605-618 `ReadCommand` -/
def readCommand (file : Bytes) (s : PS) : Res ((Bytes × List Obj × RErr) × PS) :=
  readCommandLoop file (file.length + 1) s []

/-- parser.go:476-494 `ReadObjectHeader` -/
def readObjectHeader (file : Bytes) (s : PS) : (Int × Int × Bool) × PS :=
  match readInt file s with
  | ((n, false), s) => ((n, 0, false), s)
  | ((n, true), s) =>
    match readInt file s with
    | ((g, false), s) => ((n, g, false), s)
    | ((g, true), s) =>
      let (k, s) := readKeyword file s
      ((n, g, k == b!"obj"), s)

end Pdf
