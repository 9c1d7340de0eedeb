import Verif.Model.Float
/-!
`bufio.Reader` (default buffer of 4096 bytes) on top of a seekable file, as embedded in
`pdf.Parser` (parser.go:20-31), and the parser's error log.

`pos` is the offset of the next byte `ReadByte` returns; `lim` is the offset of the underlying
seeker, i.e. the end of the buffered region (`Buffered() = lim - pos`); `last` says whether
`UnreadByte` would succeed (`lastByte >= 0`). The file is passed separately and never changes.
Assumption: the underlying `Read(p)` returns `min(len(p), remaining)` bytes (regular files,
`bytes.Reader`).
-/

namespace Pdf

/-- errors.go:19-32, the abnormalities passed to `log_error` -/
inductive Err where
  | invalidDictionaryKeyType | invalidHexStringChar | invalidNameEscapeChar | invalidOctal
  | missingDictionaryValue | unclosedArray | unclosedDictionary | unclosedHexString
  | unclosedStream | unclosedString | unclosedStringEscape | unclosedStringOctal
  | unnecessaryEscapeName | unnecessaryEscapeString
deriving DecidableEq, Repr

/-- errors.go:19-32, the message texts -/
def Err.message : Err → Bytes
  | .invalidDictionaryKeyType => b!"invalid dictionary key type"
  | .invalidHexStringChar => b!"invalid hex string character"
  | .invalidNameEscapeChar => b!"invalid name escape character"
  | .invalidOctal => b!"invalid octal in string"
  | .missingDictionaryValue => b!"missing dictionary value"
  | .unclosedArray => b!"unclosed array"
  | .unclosedDictionary => b!"unclosed dictionary"
  | .unclosedHexString => b!"unclosed hex string"
  | .unclosedStream => b!"unclosed stream"
  | .unclosedString => b!"unclosed string"
  | .unclosedStringEscape => b!"unclosed escape in string"
  | .unclosedStringOctal => b!"unclosed octal in string"
  | .unnecessaryEscapeName => b!"unnecessary espace sequence in name"
  | .unnecessaryEscapeString => b!"unnecessary espace sequence in string"

/-- Reader state and error log of a `Parser` (parser.go:20-27). -/
structure PS where
  pos : Nat
  lim : Nat
  last : Bool
  log : List Err
deriving DecidableEq, Repr

/-- parser.go:29-31 `NewParser`: fresh buffer, reader at offset 0. -/
def PS.init : PS := ⟨0, 0, false, []⟩

/-- Size of the buffer of `bufio.NewReader`. -/
def bufSize : Nat := 4096

/-- `bufio.Reader.ReadByte`; `none` is the error (end of file). At end of file the previously read
byte stays unreadable-back (`lastByte` is not reset). -/
def readByte (file : Bytes) (s : PS) : Option UInt8 × PS :=
  match file[s.pos]? with
  | none => (none, s)
  | some b =>
    (some b, { s with
      pos := s.pos + 1
      lim := if s.pos < s.lim then s.lim else min (s.pos + bufSize) file.length
      last := true })

/-- `bufio.Reader.UnreadByte` (its error is ignored everywhere). -/
def unreadByte (s : PS) : PS :=
  if s.last then { s with pos := s.pos - 1, last := false } else s

/-- `bufio.Reader.Peek(2)`: the next at most two bytes; refills the buffer when it holds fewer. -/
def peek2 (file : Bytes) (s : PS) : Bytes × PS :=
  ((file.drop s.pos).take 2,
   { s with
      lim := if s.lim < s.pos + 2 ∧ s.lim < file.length then min (s.pos + bufSize) file.length else s.lim
      last := false })

/-- `bufio.Reader.Discard(n)` after a successful `Peek` of at least `n` bytes. -/
def discard (s : PS) (n : Nat) : PS := { s with pos := s.pos + n, last := false }

/-- `bufio.Reader.Read(p)` with `0 < len(p) < 4096`: at most one refill, and only when the buffer is
empty; copies what the buffer then holds, which may be less than `len(p)`. The returned list is the
prefix of `p` that was written; empty means an error (end of file). -/
def readN (file : Bytes) (s : PS) (n : Nat) : Bytes × PS :=
  if s.pos < s.lim then
    let k := min n (s.lim - s.pos)
    ((file.drop s.pos).take k, { s with pos := s.pos + k, last := true })
  else if s.pos < file.length then
    let lim := min (s.pos + bufSize) file.length
    let k := min n (lim - s.pos)
    ((file.drop s.pos).take k, { s with pos := s.pos + k, lim := lim, last := true })
  else ([], s)

/-- parser.go:462-465 `Parser.Seek(offset, io.SeekStart)`: the buffer is dropped; a negative offset
makes the underlying seek fail, leaving the file offset at the end of what had been buffered. -/
def seek (s : PS) (offset : Int) : PS :=
  if offset < 0 then { s with pos := s.lim, last := false }
  else { s with pos := offset.toNat, lim := offset.toNat, last := false }

/-- parser.go:467-473 `Parser.CurrentOffset`: seeker offset minus buffered bytes. -/
def currentOffset (s : PS) : Int := (s.lim : Int) - ((s.lim : Int) - (s.pos : Int))

/-- parser.go:1181-1185 `log_error` (for a parser with an output; parsers without one discard it) -/
def logErr (s : PS) (e : Err) : PS := { s with log := s.log ++ [e] }

end Pdf
