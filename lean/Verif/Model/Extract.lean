import Verif.Model.Xref
/-!
Extraction: fonts, page text, actions, file specifications, trees and the object walker
(font.go, page.go, action.go, file.go, object.go, dictionary.go:77-106, 127-155).
-/

namespace Pdf

/-! ### Fonts (font.go) -/

/-- utility.go:59-66 `BytesToInt` -/
def bytesToInt (b : Bytes) : Int := b.foldl (fun v x => wrap64 (v * 256 + x.toNat)) 0

/-- font.go:10-13 `Font`. The Go map is represented by the ranges of keys assigned, latest first
(`lo`, `hi`, value): the value of a key is that of the first range containing it. -/
structure Font where
  cmap : List (Int × Int × Bytes) := []
  width : Nat := 1
deriving DecidableEq, Repr

/-- `v, ok := font.Cmap[k]` -/
def Font.lookup (font : Font) (k : Int) : Option Bytes :=
  (font.cmap.find? fun r => decide (r.1 ≤ k ∧ k ≤ r.2.1)).map fun r => r.2.2

/-- font.go:8 `FontDefault` -/
def fontDefault : Font := {}

/-- What a getter sees in an operand of a stream-local parser: that parser has no cross reference
entries, so references resolve to null (font.go:23, page.go:37: `NewParser(…, nil)`). -/
def operand (a : List Obj) (i : Int) : Option Obj :=
  if i < 0 then none
  else match a[i.toNat]? with
    | some (.ref _ _) => some Obj.null
    | o => o

/-- font.go:33, 58 `count, _ := operands.GetInt(len(operands) - 1)` -/
def operandCount (operands : List Obj) : Nat :=
  (((operand operands (operands.length - 1)).bind Obj.asNum?).map fun x => x.toInt.toNat).getD 0

/-- font.go:34-56: `beginbfrange` entries; `n` remain. A range ending at the largest `int` makes
the loop of lines 53-55 run forever. -/
def bfRange (cmap : Bytes) : Nat → PS → Font → Res (Font × PS)
  | 0, s, font => .ok (font, s)
  | n + 1, s, font =>
    let (startB, s) := readHexRaw cmap s
    if startB.isEmpty then .ok (font, s)
    else
      let font := { font with width := startB.length }
      let start := bytesToInt startB
      let (endB, s) := readHexRaw cmap s
      if endB.isEmpty then .ok (font, s)
      else
        let end_ := bytesToInt endB
        let (value, s) := readHexRaw cmap s
        if value.isEmpty then .ok (font, s)
        else if end_ = 9223372036854775807 then .oof
        else bfRange cmap n s { font with cmap := (start, end_, value) :: font.cmap }

/-- font.go:59-73: `beginbfchar` entries; `n` remain -/
def bfChar (cmap : Bytes) : Nat → PS → Font → Font × PS
  | 0, s, font => (font, s)
  | n + 1, s, font =>
    let (keyB, s) := readHexRaw cmap s
    if keyB.isEmpty then (font, s)
    else
      let font := { font with width := keyB.length }
      let key := bytesToInt keyB
      let (value, s) := readHexRaw cmap s
      if value.isEmpty then (font, s)
      else bfChar cmap n s { font with cmap := (key, key, value) :: font.cmap }

/-- font.go:25-75: commands of the character map -/
def fontLoop (cmap : Bytes) : Nat → PS → Font → Res Font
  | 0, _, _ => .oof
  | f + 1, s, font =>
    readCommand cmap s >>= fun ((command, operands, err), s) =>
      if err = .readError then .ok font
      else if command = b!"beginbfrange" then
        bfRange cmap (operandCount operands) s font >>= fun (font, s) => fontLoop cmap f s font
      else if command = b!"beginbfchar" then
        let (font, s) := bfChar cmap (operandCount operands) s font
        fontLoop cmap f s font
      else fontLoop cmap f s font

/-- font.go:15-78 `NewFont`, from the bytes of the /ToUnicode stream -/
def newFont (cmap : Bytes) : Res Font := fontLoop cmap (cmap.length + 1) PS.init {}

/-- font.go:82-90: loop of `Decode` (`w` = width, at least 1) -/
def decodeLoopFont (font : Font) : Nat → Bytes → Bytes
  | 0, _ => []
  | f + 1, b =>
    if b.length < font.width then []
    else
      let bs := b.take font.width
      (font.lookup (bytesToInt bs)).getD bs ++ decodeLoopFont font f (b.drop font.width)

/-- font.go:80-92 `Font.Decode`; a width of 0 (never produced by `NewFont`) would loop forever -/
def Font.decode (font : Font) (b : Bytes) : Res Bytes :=
  if font.width = 0 then .oof else .ok (decodeLoopFont font (b.length + 1) b)

/-! ### Page text (page.go) -/

/-- page.go:75-78: every other element of the operand of `TJ` -/
def tjString : List Obj → Bytes
  | [] => []
  | [o] => ((operand [o] 0).bind Obj.asStr?).getD []
  | o :: _ :: t => ((operand [o] 0).bind Obj.asStr?).getD [] ++ tjString t

/-- page.go:39-84: the text of a content stream. `mode` is `none` outside a text block, otherwise the
current font (the inner loop). -/
def pageLoop (contents : Bytes) (fonts : Assoc Bytes Font) :
    Nat → PS → Option Font → Bytes → Res Bytes
  | 0, _, _, _ => .oof
  | f + 1, s, mode, out =>
    readCommand contents s >>= fun ((command, operands, err), s) =>
      match mode with
      | none =>
        if err = .readError then .ok out
        else if command = b!"BT" then pageLoop contents fonts f s (some fontDefault) out
        else pageLoop contents fonts f s none out
      | some font =>
        if err = .readError ∨ command = b!"ET" then pageLoop contents fonts f s none out
        else if command = b!"Tf" then
          let name := ((operand operands (operands.length - 2)).bind Obj.asName?).getD []
          pageLoop contents fonts f s (some ((fonts.get? name).getD fontDefault)) out
        else if command = b!"Tj" ∨ command = b!"'" ∨ command = b!"\"" then
          let str := ((operand operands (operands.length - 1)).bind Obj.asStr?).getD []
          font.decode str >>= fun t => pageLoop contents fonts f s mode (out ++ t ++ b!"\n")
        else if command = b!"TJ" then
          let a := ((operand operands (operands.length - 1)).bind Obj.asArr?).getD []
          font.decode (tjString a) >>= fun t => pageLoop contents fonts f s mode (out ++ t ++ b!"\n")
        else pageLoop contents fonts f s mode out

/-- page.go:35-85 `Page.extract` -/
def pageText (fonts : Assoc Bytes Font) (contents : Bytes) : Res Bytes :=
  pageLoop contents fonts (contents.length + 3) PS.init none []

/-! ### Output files (output.go) -/

/-- Contents of the output directory: the six text files written during extraction, and the files
written by `DumpFile` (output.go:93-104). `errors.txt` is the log of the reader state. -/
structure Out where
  commands : Bytes := []
  files : Bytes := []
  javascript : Bytes := []
  raw : Bytes := []
  text : Bytes := []
  urls : Bytes := []
  dumped : Assoc Bytes Bytes := []
deriving DecidableEq, Repr

/-- State during extraction; `order` is the order of the loops over maps still to come. -/
structure XS where
  ps : PS
  out : Out
  order : Order := Order.default

/-- extraction computations -/
abbrev X := St XS

/-- a reader computation -/
def liftX {α : Type} (x : M α) : X α := fun s => x s.ps >>= fun p => .ok (p.1, { s with ps := p.2 })

/-- the entries of a map as a `range` loop visits them -/
def shuffle {α : Type} (l : List α) : X (List α) := fun s =>
  .ok (s.order.visit l, { s with order := s.order.next })

/-- `hex.EncodeToString` -/
def hexDigit (n : Nat) : UInt8 := if n < 10 then UInt8.ofNat (48 + n) else UInt8.ofNat (87 + n)
/-- `hex.EncodeToString` -/
def hexEncode (b : Bytes) : Bytes := b.flatMap fun x => [hexDigit (x.toNat / 16), hexDigit (x.toNat % 16)]

/-- file.go:7 `unknownHash` -/
def unknownHash : Bytes := List.replicate 32 ch%'0'

/-- a line of javascript.js -/
def putJs (b : Bytes) : X Unit := fun s =>
  .ok ((), { s with out := { s.out with javascript := s.out.javascript ++ b ++ b!"\n" } })
/-- a line of urls.txt -/
def putUrl (b : Bytes) : X Unit := fun s =>
  .ok ((), { s with out := { s.out with urls := s.out.urls ++ b ++ b!"\n" } })
/-- a line of files.txt -/
def putFile (hash name : Bytes) : X Unit := fun s =>
  .ok ((), { s with out := { s.out with files := s.out.files ++ hash ++ b!":" ++ name ++ b!"\n" } })
/-- a line of commands.txt -/
def putCommand (f p : Bytes) : X Unit := fun s =>
  .ok ((), { s with out := { s.out with commands := s.out.commands ++ f ++ b!" " ++ p ++ b!"\n" } })
/-- text in contents.txt -/
def putText (b : Bytes) : X Unit := fun s =>
  .ok ((), { s with out := { s.out with text := s.out.text ++ b } })

mutual
/-- dictionary.go:9-20: the value as `String` prints it, where the entries of each dictionary are in the
order in which that loop visits them. The loops are numbered from the inside out. -/
def reorder (ord : Order) : Obj → Obj × Order
  | .arr l => let (l', ord) := reorderList ord l; (.arr l', ord)
  | .dict d =>
    let (d', ord) := reorderEntries ord d
    (.dict (ord.visit d'), ord.next)
  | .kw b => (.kw b, ord)
  | .num x => (.num x, ord)
  | .name b => (.name b, ord)
  | .str b => (.str b, ord)
  | .ref n g => (.ref n g, ord)
/-- array.go:9-20: the elements -/
def reorderList (ord : Order) : List Obj → List Obj × Order
  | [] => ([], ord)
  | o :: t =>
    let (o', ord) := reorder ord o
    let (t', ord) := reorderList ord t
    (o' :: t', ord)
/-- dictionary.go:12-17: the values -/
def reorderEntries (ord : Order) : List (Bytes × Obj) → List (Bytes × Obj) × Order
  | [] => ([], ord)
  | (k, v) :: t =>
    let (v', ord) := reorder ord v
    let (t', ord) := reorderEntries ord t
    ((k, v') :: t', ord)
end

/-- pdf.go:38: an object in raw.pdf -/
def putRaw (o : IndObj) : X Unit := fun s =>
  let (v, order) := reorder s.order o.value
  .ok ((), { s with out := { s.out with raw := s.out.raw ++ { o with value := v }.toBytes ++ b!"\n" }, order := order })

/-- output.go:93-104 `DumpFile` -/
def dumpFile (ext : Ext) (name data : Bytes) : X Unit := do
  let sum := hexEncode (ext.md5 data)
  putFile sum name
  fun s => .ok ((), { s with out := { s.out with dumped := s.out.dumped.set sum data } })

section
variable (ext : Ext) (rs : Resolver)

/-! ### Trees (dictionary.go:77-155) -/

mutual
/-- dictionary.go:84-106 `getNameTreeMap`; the set of kids already visited is shared, hence returned.
The fuel bounds the nesting. -/
def nameTree : Nat → Dict → List Int → M (List Obj × List Int)
  | 0, _, _ => fun _ => .oof
  | f + 1, d, seen => do
    let names := (← Dict.getArray rs d b!"Names").getD []
    match ← Dict.getArray rs d b!"Kids" with
    | none => pure (names, seen)
    | some kids => nameTreeKids f kids names seen
/-- dictionary.go:91-103: the kids -/
def nameTreeKids : Nat → List Obj → List Obj → List Int → M (List Obj × List Int)
  | 0, _, _, _ => fun _ => .oof
  | _ + 1, [], acc, seen => pure (acc, seen)
  | f + 1, kid :: kids, acc, seen => do
    match kid with
    | .ref n _ =>
      if n ∈ seen then nameTreeKids f kids acc seen
      else
        let o ← rs n
        let (l, seen) ← nameTree f ((Obj.asDict? o.value).getD []) (n :: seen)
        nameTreeKids f kids (acc ++ l) seen
    | o =>
      let (l, seen) ← nameTree f ((Obj.asDict? o).getD []) seen
      nameTreeKids f kids (acc ++ l) seen
end

/-- dictionary.go:77-82 `GetNameTreeMap` -/
def getNameTreeMap (fuel : Nat) (d : Dict) (key : Bytes) : M (List Obj) := do
  match ← Dict.getDict rs d key with
  | some root => nameTree rs fuel root [] >>= fun p => pure p.1
  | none => pure []

mutual
/-- dictionary.go:134-155 `ResolveKids` -/
def resolveKids : Nat → Dict → List Int → M (List Dict × List Int)
  | 0, _, _ => fun _ => .oof
  | f + 1, d, seen => do
    match ← Dict.getArray rs d b!"Kids" with
    | none => pure ([d], seen)
    | some kids => resolveKidsLoop f kids [d] seen
/-- dictionary.go:137-152: the kids; only references are followed -/
def resolveKidsLoop : Nat → List Obj → List Dict → List Int → M (List Dict × List Int)
  | 0, _, _, _ => fun _ => .oof
  | _ + 1, [], acc, seen => pure (acc, seen)
  | f + 1, kid :: kids, acc, seen => do
    match kid with
    | .ref n _ =>
      if n ∈ seen then resolveKidsLoop f kids acc seen
      else
        let o ← rs n
        match o.value with
        | .dict kd =>
          let (l, seen) ← resolveKids f kd (n :: seen)
          resolveKidsLoop f kids (acc ++ l) seen
        | _ => resolveKidsLoop f kids acc (n :: seen)
    | _ => resolveKidsLoop f kids acc seen
end

/-- dictionary.go:127-132 `GetPageTree` -/
def getPageTree (fuel : Nat) (d : Dict) (key : Bytes) : M (Option (List Dict)) := do
  match ← Dict.getDict rs d key with
  | some root => resolveKids rs fuel root [] >>= fun p => pure (some p.1)
  | none => pure none

/-! ### Pages, files, actions -/

/-- page.go:18-21: the fonts of a page -/
def pageFonts (fonts : Dict) : List Bytes → Assoc Bytes Font → M (Assoc Bytes Font)
  | [], acc => pure acc
  | k :: t, acc => do
    let info := (← Dict.getDict rs fonts k).getD []
    let cmap := ((← Dict.getStream rs info b!"ToUnicode").getD none).getD []
    let font ← St.ofRes (newFont cmap)
    pageFonts fonts t (acc.set k font)

/-- page.go:27-31: the parts of a /Contents array -/
def pageParts (fonts : Assoc Bytes Font) (a : List Obj) : Nat → Int → X Unit
  | 0, _ => pure ()
  | n + 1, i => do
    match ← liftX (Arr.getStream rs a i) with
    | some d =>
      putText (← St.ofRes (pageText fonts (d.getD [])))
      pageParts fonts a n (i + 1)
    | none => pageParts fonts a n (i + 1)

/-- page.go:11-33 `Page.Extract` -/
def pageExtract (d : Dict) : X Unit := do
  let resources := (← liftX (Dict.getDict rs d b!"Resources")).getD []
  let fonts := (← liftX (Dict.getDict rs resources b!"Font")).getD []
  let keys ← shuffle fonts.keys
  let fontMap ← liftX (pageFonts rs fonts keys [])
  match ← liftX (Dict.getStream rs d b!"Contents") with
  | some c => putText (← St.ofRes (pageText fontMap (c.getD [])))
  | none =>
    match ← liftX (Dict.getArray rs d b!"Contents") with
    | some a => pageParts rs fontMap a a.length 0
    | none => pure ()

/-- page trees: object.go:93-95 -/
def pagesExtract : List Dict → X Unit
  | [] => pure ()
  | d :: t => pageExtract rs d >>= fun _ => pagesExtract t

/-- file.go:11-43 `File.Extract` -/
def fileExtract (d : Dict) (isCommand : Bool) : X Unit := do
  let fs := (← liftX (Dict.getString rs d b!"FS")).getD []
  if fs = b!"URL" then
    match ← liftX (Dict.getString rs d b!"F") with
    | some f => putUrl f
    | none => pure ()
  else
    match ← liftX (Dict.getDict rs d b!"EF") with
    | some ef =>
      let data := ((← liftX (Dict.getStream rs ef b!"F")).getD none).getD []
      let f := (← liftX (Dict.getString rs d b!"F")).getD unknownHash
      dumpFile ext f data
    | none =>
      match ← liftX (Dict.getString rs d b!"P") with
      | some p =>
        match ← liftX (Dict.getString rs d b!"F") with
        | some f => do
          putFile unknownHash f
          putCommand f p
        | none => pure ()
      | none =>
        match ← liftX (Dict.getString rs d b!"F") with
        | some f => do
          if isCommand then putCommand f [] else pure ()
          putFile unknownHash f
        | none => pure ()

/-- action.go:9-26 `Action.Extract` -/
def actionExtract (d : Dict) : X Unit := do
  let isCommand := (← liftX (Dict.getName rs d b!"S")) = some b!"Launch"
  match ← liftX (Dict.getString rs d b!"F") with
  | some f => putFile unknownHash f
  | none =>
    match ← liftX (Dict.getDict rs d b!"F") with
    | some f => fileExtract ext rs f isCommand
    | none => pure ()
  match ← liftX (Dict.getDict rs d b!"Win") with
  | some win => fileExtract ext rs win isCommand
  | none => pure ()

/-- object.go:53-59: the additional actions, by key -/
def aaExtract (aa : Dict) : List Bytes → X Unit
  | [] => pure ()
  | k :: t => do
    match ← liftX (Dict.getDict rs aa k) with
    | some a => actionExtract ext rs a
    | none => pure ()
    aaExtract aa t

/-- object.go:65-70: the streams of an /XFA array -/
def xfaData (a : List Obj) : Nat → Int → Bytes → M Bytes
  | 0, _, acc => pure acc
  | n + 1, i, acc => do
    match ← Arr.getStream rs a i with
    | some d => xfaData a n (i + 1) (acc ++ d.getD [])
    | none => xfaData a n (i + 1) acc

/-- object.go:76-82: embedded files, the odd positions of the name tree -/
def embeddedExtract (l : List Obj) : Nat → Int → X Unit
  | 0, _ => pure ()
  | n + 1, i => do
    match ← liftX (Arr.getString rs l i) with
    | some f => putFile unknownHash f
    | none =>
      match ← liftX (Arr.getDict rs l i) with
      | some f => fileExtract ext rs f false
      | none => pure ()
    embeddedExtract l n (i + 2)

/-- object.go:109-113: URLs, the even positions of the name tree -/
def urlsExtract (l : List Obj) : Nat → Int → X Unit
  | 0, _ => pure ()
  | n + 1, i => do
    match ← liftX (Arr.getString rs l i) with
    | some u => putUrl u
    | none => pure ()
    urlsExtract l n (i + 2)

/-- object.go:42-59: actions of a dictionary -/
def dictActions (d : Dict) : X Unit := do
  match ← liftX (Dict.getDict rs d b!"A") with
  | some a => actionExtract ext rs a
  | none => pure ()
  match ← liftX (Dict.getDict rs d b!"OpenAction") with
  | some a => actionExtract ext rs a
  | none => pure ()
  match ← liftX (Dict.getDict rs d b!"AA") with
  | some aa => aaExtract ext rs aa (← shuffle aa.keys)
  | none => pure ()

/-- object.go:61-72: forms -/
def dictXfa (d : Dict) : X Unit := do
  match ← liftX (Dict.getStream rs d b!"XFA") with
  | some x => dumpFile ext b!"form.xml" (x.getD [])
  | none =>
    match ← liftX (Dict.getArray rs d b!"XFA") with
    | some a => do
      let data ← liftX (xfaData rs a a.length 0 [])
      dumpFile ext b!"form.xml" data
    | none => pure ()

/-- object.go:74-82: embedded files -/
def dictEmbedded (fuel : Nat) (d : Dict) : X Unit := do
  let l ← liftX (getNameTreeMap rs fuel d b!"EmbeddedFiles")
  embeddedExtract ext rs l (l.length / 2) 1

/-- object.go:84-89: JavaScript -/
def dictJs (d : Dict) : X Unit := do
  match ← liftX (Dict.getString rs d b!"JS") with
  | some js => putJs js
  | none =>
    match ← liftX (Dict.getStream rs d b!"JS") with
    | some js => putJs (js.getD [])
    | none => pure ()

/-- object.go:91-96: page text -/
def dictPages (fuel : Nat) (d : Dict) : X Unit := do
  match ← liftX (getPageTree rs fuel d b!"Pages") with
  | some pages => pagesExtract rs pages
  | none => pure ()

/-- object.go:98-105: URIs -/
def dictUri (d : Dict) : X Unit := do
  match ← liftX (Dict.getString rs d b!"URI") with
  | some u => putUrl u
  | none =>
    match ← liftX (Dict.getDict rs d b!"URI") with
    | some u =>
      match ← liftX (Dict.getString rs u b!"Base") with
      | some b => putUrl b
      | none => pure ()
    | none => pure ()

/-- object.go:107-113: URLs -/
def dictUrls (fuel : Nat) (d : Dict) : X Unit := do
  let l ← liftX (getNameTreeMap rs fuel d b!"URLS")
  urlsExtract rs l ((l.length + 1) / 2) 0

/-- object.go:41-113: what is extracted from one dictionary, without its values -/
def dictExtract (fuel : Nat) (d : Dict) : X Unit := do
  dictActions ext rs d
  dictXfa ext rs d
  dictEmbedded ext rs fuel d
  dictJs rs d
  dictPages rs fuel d
  dictUri rs d
  dictUrls rs fuel d

/-- a list of computations, one after the other -/
def runAll : List (X Unit) → X Unit
  | [] => pure ()
  | x :: t => x >>= fun _ => runAll t

mutual
/-- object.go:40-123 `extract`: all direct dictionaries and arrays inside a value -/
def extractObj (fuel : Nat) : Obj → X Unit
  | .dict d => do
    dictExtract ext rs fuel d
    runAll (← shuffle (extractVals fuel d))
  | .arr l => runAll (extractList fuel l)
  | _ => pure ()
/-- object.go:115-117: what the loop does for each entry -/
def extractVals (fuel : Nat) : List (Bytes × Obj) → List (X Unit)
  | [] => []
  | (_, v) :: t => extractObj fuel v :: extractVals fuel t
/-- object.go:118-122: what the loop does for each element -/
def extractList (fuel : Nat) : List Obj → List (X Unit)
  | [] => []
  | o :: t => extractObj fuel o :: extractList fuel t
end

/-- object.go:33-38 `IndirectObject.Extract` -/
def objectExtract (fuel : Nat) (o : IndObj) : X Unit :=
  match o.value with
  | .dict d => extractObj ext rs fuel (.dict d)
  | _ => pure ()

end

/-- pdf.go:34-39: extraction of one object, if it is in use -/
def extractEntry (env : Env) (f ft : Nat) (x : Int × XrefEntry) : X Unit := do
  if x.2.typ = 1 then
    St.ofRes (debug env.verbose)
    let o ← liftX (getObject env f x.1)
    objectExtract env.ext (resolver env f) ft o
    putRaw o
  else pure ()

/-- pdf.go:33-40: extraction of every in-use object of the cross reference -/
def extractAll (env : Env) (f ft : Nat) (l : List (Int × XrefEntry)) : X Unit := do
  runAll ((← shuffle l).map (extractEntry env f ft))

end Pdf
