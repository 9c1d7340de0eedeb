import Verif.Model.Crypt
/-!
`GetObject`, `ReadStream`, `DecodeStream` and reference resolution (parser.go:370-460, 907-992;
filters.go:14-47, 210-272; reference.go).
-/

namespace Pdf

/-- xref.go:9-19 `XrefEntry`; `typ` 0 free, 1 indirect object, 2 compressed -/
structure XrefEntry where
  offset : Int
  generation : Int
  typ : Int
  isEncrypted : Bool := true
  isXrefStream : Bool := false
deriving DecidableEq, Repr

/-- The parts of a `Parser` (parser.go:20-27) that `GetObject` reads, and the process-wide
surroundings. -/
structure Env where
  file : Bytes
  xref : Assoc Int XrefEntry
  sh : SecHandler
  ext : Ext
  /-- logger.go:8 `Verbose`; `none` is a nil pointer -/
  verbose : Option Bool

/-- filters.go:255-272: parameters of `ReversePredictor`, then the computation -/
def reversePredictorM (rs : Resolver) (data : Bytes) (parms : Dict) : M Bytes := do
  let predictor := (← Dict.getInt rs parms b!"Predictor").getD 1
  let bpc := (← Dict.getInt rs parms b!"BitsPerComponent").getD 8
  let colors := (← Dict.getInt rs parms b!"Colors").getD 1
  let columns := (← Dict.getInt rs parms b!"Columns").getD 1
  St.ofRes (reversePredictor data predictor bpc colors columns)

/-- filters.go:210-228 `FlateDecode` -/
def flateDecode (cd : Codecs) (rs : Resolver) (data : Bytes) (parms : Dict) : M Bytes :=
  match cd.zlib data with
  | none => pure data
  | some (out, failed) =>
    if out.isEmpty && failed then pure data else reversePredictorM rs out parms

/-- filters.go:230-253 `LZWDecode` -/
def lzwDecode (cd : Codecs) (rs : Resolver) (data : Bytes) (parms : Dict) : M Bytes := do
  let early := (← Dict.getInt rs parms b!"EarlyChange").getD 1
  let (out, failed) := cd.lzw (early ≠ 0) data
  if out.isEmpty && failed then pure data else reversePredictorM rs out parms

/-- filters.go:14-47 `DecodeStream`; `none` is a nil slice (produced by `RunLengthDecode` without
output) -/
def decodeStream (cd : Codecs) (rs : Resolver) (filter : Bytes) (data : Option Bytes)
    (parms : Dict) : M (Option Bytes) :=
  match data with
  | none => pure none
  | some [] => pure (some [])
  | some data =>
    if filter = b!"ASCIIHexDecode" then pure (some (asciiHexDecode data))
    else if filter = b!"ASCII85Decode" then pure (some (ascii85Decode data))
    else if filter = b!"RunLengthDecode" then
      let out := runLengthDecode data
      pure (if out.isEmpty then none else some out)
    else if filter = b!"FlateDecode" then flateDecode cd rs data parms >>= fun d => pure (some d)
    else if filter = b!"LZWDecode" then lzwDecode cd rs data parms >>= fun d => pure (some d)
    else pure (some data)

/-- parser.go:984-988: filters `i`, `i+1`, ... in order; `n` filters remain -/
def decodeLoop (cd : Codecs) (rs : Resolver) (filters parms : List Obj) :
    Nat → Int → Option Bytes → M (Option Bytes)
  | 0, _, data => pure data
  | n + 1, i, data => do
    let filter := (← Arr.getName rs filters i).getD []
    let parm := (← Arr.getDict rs parms i).getD []
    let data ← decodeStream cd rs filter data parm
    decodeLoop cd rs filters parms n (i + 1) data

/-- parser.go:907-992 `ReadStream` -/
def readStream (file : Bytes) (cd : Codecs) (rs : Resolver) (dec : Bytes → Res Bytes)
    (filters parms : List Obj) : M (Option Bytes) := do
  match ← St.ofFun (readStreamRaw file) with
  | none => pure (some [])
  | some raw =>
    let data ← St.ofRes (dec raw)
    decodeLoop cd rs filters parms filters.length 0 (some data)

/-- parser.go:403-410: the list of filters -/
def filterList (rs : Resolver) (d : Dict) : M (List Obj) := do
  match ← Dict.getArray rs d b!"Filter" with
  | some l => pure l
  | none =>
    match ← Dict.getName rs d b!"Filter" with
    | some n => pure [.name n]
    | none => pure []

/-- parser.go:413-420: the list of decode parameters -/
def parmsList (rs : Resolver) (d : Dict) : M (List Obj) := do
  match ← Dict.getArray rs d b!"DecodeParms" with
  | some l => pure l
  | none =>
    match ← Dict.getDict rs d b!"DecodeParms" with
    | some p => pure [.dict p]
    | none => pure []

/-- parser.go:423-450: crypt filter of a stream, and the filters and parameters that remain -/
def streamCrypt (rs : Resolver) (sh : SecHandler) (isEncrypted : Bool) (d : Dict)
    (filters parms : List Obj) : M (CryptFilter × List Obj × List Obj) := do
  if isEncrypted = false then pure (.none, filters, parms)
  else
    let t ← Dict.getName rs d b!"Type"
    let cf := if t = some b!"EmbeddedFile" then sh.fileFilter else sh.streamFilter
    if filters.length = 0 then pure (cf, filters, parms)
    else
      let f0 := (← Arr.getName rs filters 0).getD []
      if f0 = b!"Crypt" then
        let dp := (← Arr.getDict rs parms 0).getD []
        let name := (← Dict.getName rs dp b!"Name").getD b!"Identity"
        pure ((sh.cryptFilters.get? name).getD cf, filters.drop 1, parms.drop 1)
      else pure (cf, filters, parms)

/-- parser.go:395-455: the stream, if the keyword `stream` follows the value -/
def getStreamF (env : Env) (rs : Resolver) (n : Int) (e : XrefEntry) (v : Obj) : M (Option Bytes) := do
  let kw ← St.ofFun (readKeyword env.file)
  if kw = b!"stream" then
    let d := (Obj.asDict? v).getD []
    let fl ← filterList rs d
    let pl ← parmsList rs d
    let (cf, fl, pl) ← streamCrypt rs env.sh e.isEncrypted d fl pl
    readStream env.file env.ext.toCodecs rs
      (decrypt env.ext env.verbose (newDecryptor env.ext cf n e.generation)) fl pl
  else pure none

/-- parser.go:370-460 `GetObject`, given how nested references resolve -/
def getObjectF (env : Env) (rs : Resolver) (n : Int) : M IndObj :=
  match env.xref.get? n with
  | none => pure (newIndObj n)
  | some e =>
    if e.typ = 1 then do
      seekM e.offset
      let _ ← St.ofFun (readObjectHeader env.file)
      let cf := if e.isEncrypted then env.sh.stringFilter else .none
      let (v, _) ← readObj env.file (decrypt env.ext env.verbose (newDecryptor env.ext cf n e.generation))
      let st ← getStreamF env rs n e v
      pure ⟨n, e.generation, v, st⟩
    else pure (newIndObj n)

/-- reference.go:22-48: run and return to the offset the reader had before -/
def keepOffset {α : Type} (x : M α) : M α := fun s =>
  x s >>= fun p => .ok (p.1, seek p.2 (currentOffset s))

/-- reference.go:50-67 `resolve`, with the set of references already followed. The fuel bounds the
depth of nested calls: `.oof` for every fuel means that the Go code does not return. -/
def resolve (env : Env) : Nat → List Int → Int → M IndObj
  | 0, _, _ => fun _ => .oof
  | f + 1, seen, n =>
    if n ∈ seen then pure (newIndObj n)
    else do
      let o ← getObjectF env (fun m => keepOffset (resolve env f [] m)) n
      match o.value with
      | .ref m _ => resolve env f (n :: seen) m
      | _ => pure o

/-- reference.go:22-48 `Resolve`, `ResolveStream` -/
def resolver (env : Env) (f : Nat) : Resolver := fun n => keepOffset (resolve env f [] n)

/-- parser.go:370-460 `GetObject` -/
def getObject (env : Env) (f : Nat) (n : Int) : M IndObj := getObjectF env (resolver env f) n

end Pdf
