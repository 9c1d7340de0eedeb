import Verif.Model.GetObject
/-!
Loading a file: scanning for cross reference sections and objects, cross reference tables and
streams, repair, encryption set-up (parser.go:13-368).

The four regular expressions are modelled on bytes; the patterns only ever test ASCII bytes, and
`[^\r\n]` accepts every other rune, so matching runes (Go) and bytes (here) agree.
-/

namespace Pdf

/-! ### Regular expressions: each matcher lists what may remain, preferred alternative first -/

/-- `\d+` (greedy) -/
def reDigits : Bytes → List Bytes
  | [] => []
  | b :: t => if isDigit b then reDigits t ++ [t] else []

/-- `[^\r\n]*` (greedy) -/
def reNoEol : Bytes → List Bytes
  | [] => [[]]
  | b :: t => if b = 0x0D ∨ b = 0x0A then [b :: t] else reNoEol t ++ [b :: t]

/-- `[\s\x00]|(%[^\r\n]*)` -/
def reGapUnit : Bytes → List Bytes
  | [] => []
  | b :: t => if isWs b then [t] else if b = ch%'%' then reNoEol t else []

/-- `([\s\x00]|(%[^\r\n]*))+` (greedy); every round consumes a byte -/
def reGap : Nat → Bytes → List Bytes
  | 0, _ => []
  | f + 1, s => (reGapUnit s).flatMap fun t => reGap f t ++ [t]

/-- a literal -/
def reLit (lit s : Bytes) : List Bytes := if lit.isPrefixOf s then [s.drop lit.length] else []

/-- parser.go:15 `start_obj_regexp`, anchored: what remains after each possible match -/
def objRe (s : Bytes) : List Bytes :=
  (reDigits s).flatMap fun s => (reGap s.length s).flatMap fun s =>
    (reDigits s).flatMap fun s => (reGap s.length s).flatMap fun s => reLit b!"obj" s

/-- parser.go:16 `xref_regexp`, anchored -/
def xrefRe (s : Bytes) : List Bytes := reLit b!"xref" s

/-- `FindReaderIndex`: leftmost match, preferred alternative: start and end, counted from `i` -/
def findRe (re : Bytes → List Bytes) : Nat → Bytes → Option (Nat × Nat)
  | i, s =>
    match (re s).head? with
    | some rest => some (i, i + (s.length - rest.length))
    | none => match s with
      | [] => none
      | _ :: t => findRe re (i + 1) t

/-- `\s` -/
def isSpace (b : UInt8) : Bool := b == 0x09 || b == 0x0A || b == 0x0C || b == 0x0D || b == 0x20

/-- parser.go:14 `start_xref_regexp`, anchored (deterministic): the digits and what remains -/
def startXrefRe (s : Bytes) : Option (Bytes × Bytes) :=
  if (b!"startxref").isPrefixOf s then
    let s := (s.drop 9).dropWhile isSpace
    let digits := s.takeWhile isDigit
    let s := (s.dropWhile isDigit).dropWhile isSpace
    if digits.isEmpty then none
    else if (b!"%%EOF").isPrefixOf s then some (digits, s.drop 5) else none
  else none

/-- `FindAllSubmatch` and the last element (parser.go:172, 178) -/
def lastStartXref : Nat → Bytes → Option Bytes → Option Bytes
  | 0, _, acc => acc
  | _ + 1, [], acc => acc
  | f + 1, b :: t, acc =>
    match startXrefRe (b :: t) with
    | some (digits, rest) => lastStartXref f rest (some digits)
    | none => lastStartXref f t acc

/-- decimal value of ASCII digits -/
def decVal (ds : Bytes) : Nat := ds.foldl (fun v b => v * 10 + (b.toNat - 48)) 0

/-- parser.go:171-184: the offset in the last match, `none` when there is none or it is not an `int64` -/
def startOffset (buffer : Bytes) : Option Int :=
  match lastStartXref (buffer.length + 1) buffer none with
  | none => none
  | some ds => if decVal ds < 9223372036854775808 then some (decVal ds : Int) else none

/-- parser.go:156-185 `getStartXrefOffset`: the last 256 bytes (zero-filled when the file is
shorter) -/
def getStartXrefOffset (file : Bytes) (s : PS) : Option Int × PS :=
  let s := seek s file.length
  let off := file.length - 256
  let (b, s) := readN file (seek s off) 256
  let buffer := b ++ List.replicate (256 - b.length) 0
  (startOffset buffer, s)

/-- parser.go:101-113: loop of `findXrefOffsets` -/
def findXrefLoop (file : Bytes) : Nat → Nat → List Int → List Int
  | 0, _, acc => acc
  | f + 1, offset, acc =>
    match findRe xrefRe 0 (file.drop offset) with
    | none => acc
    | some (i, j) => findXrefLoop file f (offset + j) (acc ++ [((offset + i : Nat) : Int)])

/-- parser.go:95-116 `findXrefOffsets`; the reader ends at the end of the file -/
def findXrefOffsets (file : Bytes) (s : PS) : List Int × PS :=
  (findXrefLoop file (file.length + 1) 0 [], seek s file.length)

/-! ### The parser during `Load` -/

/-- What does not change during a run: the file, external functions, `Verbose`. -/
structure Cfg where
  file : Bytes
  ext : Ext
  verbose : Option Bool

/-- parser.go:20-27 `Parser` -/
structure LS where
  ps : PS
  xref : Assoc Int XrefEntry
  trailer : Dict
  sh : SecHandler

/-- parser.go:29-31 `NewParser` -/
def LS.init : LS := ⟨PS.init, [], [], newSecurityHandler⟩

/-- what `GetObject` sees -/
def LS.env (cfg : Cfg) (s : LS) : Env := ⟨cfg.file, s.xref, s.sh, cfg.ext, cfg.verbose⟩

/-- computations on the whole parser -/
abbrev L := St LS

/-- a reader computation, which may depend on the parser -/
def liftM {α : Type} (x : LS → M α) : L α := fun s =>
  x s s.ps >>= fun p => .ok (p.1, { s with ps := p.2 })

/-- `parser.Xref[n] = e` -/
def setXref (n : Int) (e : XrefEntry) : L Unit := fun s => .ok ((), { s with xref := s.xref.set n e })

/-- parser.go:268-270, 296-298: merge the trailer -/
def mergeTrailer (d : Dict) : L Unit := fun s => .ok ((), { s with trailer := s.trailer.merge d })

/-- parser.go:273-275: merge a section's entries -/
def mergeXref (x : Assoc Int XrefEntry) : L Unit := fun s => .ok ((), { s with xref := s.xref.merge x })

/-- parser.go:228-253: entries of a subsection; `n` entries remain, `num` is the next object number -/
def tableEntries (file : Bytes) : Nat → Int → PS → Assoc Int XrefEntry → Assoc Int XrefEntry × PS
  | 0, _, s, x => (x, s)
  | n + 1, num, s, x =>
    match readInt file s with
    | ((_, false), s) => (x, s)
    | ((offset, true), s) =>
      match readInt file s with
      | ((_, false), s) => (x, s)
      | ((generation, true), s) =>
        let (flag, s) := readKeyword file s
        let typ : Int := if flag = b!"n" then 1 else 0
        tableEntries file n (wrap64 (num + 1)) s (x.set num ⟨offset, generation, typ, true, false⟩)

/-- parser.go:214-254: subsections -/
def tableSections (file : Bytes) : Nat → PS → Assoc Int XrefEntry → Assoc Int XrefEntry × PS
  | 0, s, x => (x, s)
  | f + 1, s, x =>
    match readInt file s with
    | ((_, false), s) => (x, s)
    | ((start, true), s) =>
      match readInt file s with
      | ((_, false), s) => (x, s)
      | ((len, true), s) =>
        let (x, s) := tableEntries file len.toNat start s x
        tableSections file f s x

/-- utility.go:14-26 `ReadInt64` (and 8-11 `ReadInt`) from the stream data `d`: `make` panics for a
negative or impossible width -/
def readBE (d : Bytes) (width : Int) : Res (Option Int × Bytes) :=
  if width < 0 ∨ 281474976710656 < width then .panic "makeslice: len out of range"
  else if d.length < width.toNat then .ok (none, [])
  else .ok (some ((d.take width.toNat).foldl (fun v b => wrap64 (v * 256 + b.toNat)) 0),
            d.drop width.toNat)

/-- parser.go:343-362: entries of a subsection of an xref stream; `n` remain. The result is the data
left, or `none` for the `return`s. -/
def streamEntries (w0 w1 w2 : Int) : Nat → Int → Bytes → L (Option Bytes)
  | 0, _, d => pure (some d)
  | n + 1, num, d => do
    match ← St.ofRes (readBE d w0) with
    | (none, _) => pure none
    | (some typ, d) =>
      match ← St.ofRes (readBE d w1) with
      | (none, _) => pure none
      | (some offset, d) =>
        match ← St.ofRes (readBE d w2) with
        | (none, _) => pure none
        | (some generation, d) =>
          setXref num ⟨offset, generation, typ, true, false⟩
          streamEntries w0 w1 w2 n (wrap64 (num + 1)) d

section
/- how `GetObject` and `Resolve` run; instantiated in `load` -/
variable (cfg : Cfg) (get : Env → Int → M IndObj) (rs : Env → Resolver)

/-- parser.go:331-363: subsections of an xref stream; `k` pairs remain. `false`: returned early. -/
def streamSections (index : List Obj) (w0 w1 w2 : Int) : Nat → Int → Bytes → L Bool
  | 0, _, _ => pure true
  | k + 1, i, d => do
    match ← liftM (fun s => Arr.getInt (rs (s.env cfg)) index i) with
    | none => pure false
    | some start =>
      match ← liftM (fun s => Arr.getInt (rs (s.env cfg)) index (i + 1)) with
      | none => pure false
      | some len =>
        match ← streamEntries w0 w1 w2 len.toNat start d with
        | none => pure false
        | some d => streamSections index w0 w1 w2 k (i + 2) d

/-- parser.go:301-309: the /Index array, by default [0 Size] -/
def streamIndex (trailer : Dict) : L (Option (List Obj)) := do
  match ← liftM (fun s => Dict.getArray (rs (s.env cfg)) trailer b!"Index") with
  | some l => pure (some l)
  | none =>
    match ← liftM (fun s => Dict.getNumber (rs (s.env cfg)) trailer b!"Size") with
    | some x => pure (some [.num (.fin 0), .num x])
    | none => pure none

/-- parser.go:300-367: the entries of an xref stream object read at offset `off` -/
def streamBody (object : IndObj) (trailer : Dict) (off : Int) : L Unit := do
  match ← streamIndex cfg rs trailer with
  | none => pure ()
  | some index =>
  match ← liftM (fun s => Dict.getArray (rs (s.env cfg)) trailer b!"W") with
  | none => pure ()
  | some width =>
  match ← liftM (fun s => Arr.getInt (rs (s.env cfg)) width 0) with
  | none => pure ()
  | some w0 =>
  match ← liftM (fun s => Arr.getInt (rs (s.env cfg)) width 1) with
  | none => pure ()
  | some w1 =>
  match ← liftM (fun s => Arr.getInt (rs (s.env cfg)) width 2) with
  | none => pure ()
  | some w2 =>
  if ← streamSections cfg rs index w0 w1 w2 (index.length / 2) 0 (object.stream.getD []) then
    setXref object.number ⟨off, object.generation, 1, false, false⟩
  else pure ()

/-- parser.go:187-368 `loadXref`, `loadXrefTable`, `loadXrefStream`; `seen` is the set of offsets
already loaded in this call, returned because the Go map is shared. The fuel bounds the depth of
/Prev chains. -/
def loadXref : Nat → Int → List Int → L (List Int)
  | 0, _, _ => fun _ => .oof
  | f + 1, offset, seen => do
    if offset ∈ seen then pure seen
    else
      let seen := offset :: seen
      liftM (fun _ => seekM offset)
      let kw ← liftM (fun _ => St.ofFun (readKeyword cfg.file))
      if kw = b!"xref" then
        -- loadXrefTable
        let xrefs ← liftM (fun _ => St.ofFun fun s => tableSections cfg.file (cfg.file.length + 1) s [])
        let _ ← liftM (fun _ => St.ofFun (readKeyword cfg.file))
        let trailer ← liftM (fun _ => readDictionary cfg.file noDec)
        let prev ← liftM (fun s => Dict.getInt (rs (s.env cfg)) trailer b!"Prev")
        let seen ← match prev with
          | some p => loadXref f p seen
          | none => pure seen
        mergeTrailer trailer
        mergeXref xrefs
        pure seen
      else
        liftM (fun _ => seekM offset)
        let (n, g, ok) ← liftM (fun _ => St.ofFun (readObjectHeader cfg.file))
        if ok then
          setXref n ⟨offset, g, 1, false, false⟩
          -- loadXrefStream
          let off ← liftM (fun _ => St.ofFun fun s => (currentOffset s, s))
          let object ← liftM (fun s => get (s.env cfg) n)
          match object.value with
          | .dict trailer =>
            let prev ← liftM (fun s => Dict.getInt (rs (s.env cfg)) trailer b!"Prev")
            let seen ← match prev with
              | some p => loadXref f p seen
              | none => pure seen
            mergeTrailer trailer
            streamBody cfg rs object trailer off
            pure seen
          | _ => pure seen
        else pure seen

/-- parser.go:53-56: load all sections, each with its own set of visited offsets -/
def loadAll (fuel : Nat) : List Int → L Unit
  | [] => pure ()
  | o :: t => do
    let _ ← loadXref cfg get rs fuel o []
    loadAll fuel t

/-- parser.go:126-151: loop of `findObjects` -/
def findObjectsLoop : Nat → Nat → Assoc Int XrefEntry → L (Assoc Int XrefEntry)
  | 0, _, objs => pure objs
  | f + 1, offset, objs => do
    match findRe objRe 0 (cfg.file.drop offset) with
    | none => pure objs
    | some (i, j) =>
      liftM (fun _ => seekM ((offset + i : Nat) : Int))
      let (n, g, _) ← liftM (fun _ => St.ofFun (readObjectHeader cfg.file))
      let d ← liftM (fun _ => readDictionary cfg.file noDec)
      let t ← liftM (fun s => Dict.getName (rs (s.env cfg)) d b!"Type")
      let isX := t = some b!"XRef"
      let objs := objs.set n ⟨((offset + i : Nat) : Int), g, 1, !isX, isX⟩
      findObjectsLoop f (offset + j) objs

/-- parser.go:119-154 `findObjects` -/
def findObjects : L (Assoc Int XrefEntry) := findObjectsLoop cfg rs (cfg.file.length + 1) 0 []

/-- parser.go:59-70: repair of one entry -/
def repairOne (n : Int) (object : XrefEntry) : L Unit := fun s =>
  match s.xref.get? n with
  | some e =>
    let ((n', _, ok), ps) := readObjectHeader cfg.file (seek s.ps e.offset)
    if ok ∨ n' ≠ n then
      .ok ((), { s with ps := ps, xref := s.xref.set n { e with offset := object.offset } })
    else .ok ((), { s with ps := ps })
  | none => .ok ((), { s with xref := s.xref.set n object })

/-- parser.go:59-70: repair of all scanned objects -/
def repairAll : List (Int × XrefEntry) → L Unit
  | [] => pure ()
  | (n, e) :: t => repairOne cfg n e >>= fun _ => repairAll t

/-- parser.go:75-79: the encryption dictionary itself is not decrypted -/
def markEncrypt (encrypt : Obj) : L Unit := fun s =>
  match encrypt with
  | .ref n _ => match s.xref.get? n with
    | some e => .ok ((), { s with xref := s.xref.set n { e with isEncrypted := false } })
    | none => .ok ((), s)
  | _ => .ok ((), s)

/-- parser.go:90-92 `SetPassword` -/
def setPassword (ord : Order) (password : Bytes) : L (Option EncErr) := fun s =>
  secInit cfg.ext (fun sh => rs { s.env cfg with sh := sh }) ord password s.trailer s.sh s.ps >>= fun p =>
    .ok (p.1.1, { s with sh := p.1.2, ps := p.2 })

/-- insertion into a sorted list, for parser.go:46 `sort.Slice` -/
def insertSorted (x : Int) : List Int → List Int
  | [] => [x]
  | y :: t => if x ≤ y then x :: y :: t else y :: insertSorted x t

/-- parser.go:46: ascending offsets -/
def sortInts (l : List Int) : List Int := l.foldr insertSorted []

/-- parser.go:34-51: the sections to load, in order, and the scanned objects -/
def loadPlan : L (List Int × Assoc Int XrefEntry) := do
  let xrefOffsets ← liftM (fun _ => St.ofFun (findXrefOffsets cfg.file))
  let objects ← findObjects cfg rs
  let streams := (objects.filter fun o => o.2.isXrefStream).map fun o => o.2.offset
  let start ← liftM (fun _ => St.ofFun (getStartXrefOffset cfg.file))
  pure (sortInts (xrefOffsets ++ streams) ++ start.toList, objects)

/-- parser.go:33-88 `Load`; `ord` gives the order of the loop of line 59, then that of the
loop over the crypt filters -/
def loadF (ord : Order) (fuel : Nat) (password : Bytes) : L (Option EncErr) := do
  let (offsets, objects) ← loadPlan cfg rs
  loadAll cfg get rs fuel offsets
  repairAll cfg (ord.visit objects)
  let encrypt : Option Obj ← fun s => .ok (s.trailer.get? b!"Encrypt", s)
  match encrypt with
  | some e =>
    markEncrypt e
    setPassword cfg rs ord.next password
  | none => pure none

end

/-- parser.go:33-88 `Load`; `f` bounds the depth of reference resolution, `fx` that of /Prev chains -/
def load (cfg : Cfg) (ord : Order) (f fx : Nat) (password : Bytes) : L (Option EncErr) :=
  loadF cfg (fun env => getObject env f) (fun env => resolver env f) ord fx password

end Pdf
