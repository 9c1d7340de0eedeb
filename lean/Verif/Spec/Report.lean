import Verif.Spec.Extract
import Verif.Spec.Tree
/-!
The report on a dictionary, in terms of the values and streams that references stand for.
-/

namespace Pdf.Spec

/-- What the numbered objects of a file hold. -/
structure View where
  value : Int → Obj
  stream : Int → Option Bytes

/-- Resolving a reference gives, whenever it returns, what the view says. -/
def View.Of (v : View) (rs : Resolver) : Prop := ∀ n s o s', rs n s = .ok (o, s') → o.value = v.value n ∧ o.stream = v.stream n

/-- the value under a key, a reference standing for its target -/
def View.at_ (v : View) (d : Dict) (key : Bytes) : Option Obj := (d.get? key).map (target v.value)

/-- the string under a key -/
def View.string (v : View) (d : Dict) (key : Bytes) : Option Bytes := match v.at_ d key with
  | some (.str b) => some b
  | _ => none
/-- the name under a key -/
def View.name (v : View) (d : Dict) (key : Bytes) : Option Bytes := match v.at_ d key with
  | some (.name b) => some b
  | _ => none
/-- the dictionary under a key -/
def View.dict (v : View) (d : Dict) (key : Bytes) : Option Dict := match v.at_ d key with
  | some (.dict e) => some e
  | _ => none
/-- the array under a key -/
def View.array (v : View) (d : Dict) (key : Bytes) : Option (List Obj) := match v.at_ d key with
  | some (.arr l) => some l
  | _ => none

/-- the stream that a value stands for: only a reference does; its data may be missing, then it is empty -/
def View.streamOf (v : View) : Obj → Option Bytes
  | .ref n _ => some ((v.stream n).getD [])
  | _ => none

/-- the stream under a key -/
def View.streamAt (v : View) (d : Dict) (key : Bytes) : Option Bytes := (d.get? key).bind v.streamOf

/-- a file in the report: its hash and name in files.txt, and the file itself under its hash -/
def dumped (ext : Ext) (name data : Bytes) : List Write :=
  [.file (hexText (ext.md5 data)) name, .dump (hexText (ext.md5 data)) data]

/-- 32 zeros, for files that are not in the document -/
def zeros : Bytes := List.replicate 32 48

/-- The report on a file specification; `launched`: it belongs to a launch action. -/
def fileReport (ext : Ext) (v : View) (launched : Bool) (f : Dict) : List Write :=
  if v.string f b!"FS" = some b!"URL" then (v.string f b!"F").toList.map .url
  else match v.dict f b!"EF", v.string f b!"F", v.string f b!"P" with
    | some ef, name, _ => dumped ext (name.getD zeros) ((v.streamAt ef b!"F").getD [])
    | none, some name, some p => [.file zeros name, .command name p]
    | none, some name, none => (if launched then [.command name []] else []) ++ [.file zeros name]
    | none, none, _ => []

/-- The report on an action: on its file, a name or a file specification, and on its Windows file. -/
def actionReport (ext : Ext) (v : View) (a : Dict) : List Write :=
  (match v.string a b!"F", v.dict a b!"F" with
    | some name, _ => [.file zeros name]
    | none, some f => fileReport ext v (v.name a b!"S" = some b!"Launch") f
    | none, none => []) ++
  (v.dict a b!"Win").toList.flatMap (fileReport ext v (v.name a b!"S" = some b!"Launch"))

/-- The report on a form: its data, in one stream or in the streams of an array. -/
def formReport (ext : Ext) (v : View) (d : Dict) : List Write :=
  match v.streamAt d b!"XFA", v.array d b!"XFA" with
  | some x, _ => dumped ext b!"form.xml" x
  | none, some l => dumped ext b!"form.xml" (l.filterMap v.streamOf).flatten
  | none, none => []

/-- every other element, from the first -/
def alternate {α : Type} : List α → List α
  | [] => []
  | [a] => [a]
  | a :: _ :: t => a :: alternate t

/-- The report on embedded files, from the list of names and values: each value is a file name or a file
specification. -/
def embeddedReport (ext : Ext) (v : View) (l : List Obj) : List Write :=
  (alternate l.tail).flatMap fun o => match target v.value o with
    | .str name => [.file zeros name]
    | .dict f => fileReport ext v false f
    | _ => []

/-- The report on URLs, from the list of names and values: each name is a URL. -/
def urlsReport (v : View) (l : List Obj) : List Write :=
  (alternate l).flatMap fun o => match target v.value o with
    | .str u => [.url u]
    | _ => []

/-- The report on scripts. -/
def scriptReport (v : View) (d : Dict) : List Write :=
  match v.string d b!"JS", v.streamAt d b!"JS" with
  | some b, _ => [.js b]
  | none, some b => [.js b]
  | none, none => []

/-- The report on URIs. -/
def uriReport (v : View) (d : Dict) : List Write :=
  match v.string d b!"URI", v.dict d b!"URI" with
  | some u, _ => [.url u]
  | none, some e => (v.string e b!"Base").toList.map .url
  | none, none => []

/-- The list of names and values in the name tree under a key. -/
def Names (v : View) (d : Dict) (key : Bytes) (l : List Obj) : Prop :=
  match v.dict d key with
  | none => l = []
  | some root => ∃ below numbers, NameDfs v.value [] (kidsOf v.value root) below numbers ∧ l = namesOf v.value root ++ below

/-- The pages of the page tree under a key. -/
def Pages (v : View) (d : Dict) (key : Bytes) (l : List Dict) : Prop :=
  match v.dict d key with
  | none => l = []
  | some root => ∃ ns, Dfs (nextOf v.value) [] (refs (kidsOf v.value root)) ns ∧ l = root :: ns.filterMap fun n => asDict (v.value n)

/-- The fonts of a page by name. -/
def Fonts (v : View) (page : Dict) (m : Assoc Bytes Font) : Prop :=
  let fonts := (v.dict ((v.dict page b!"Resources").getD []) b!"Font").getD []
  ∀ k, if k ∈ fonts.keys then
      ∃ font, newFont ((v.streamAt ((v.dict fonts k).getD []) b!"ToUnicode").getD []) = .ok font ∧ m.get? k = some font
    else m.get? k = none

/-- The streams of content of a page. -/
def contents (v : View) (page : Dict) : List Bytes :=
  match v.streamAt page b!"Contents", v.array page b!"Contents" with
  | some c, _ => [c]
  | none, some l => l.filterMap v.streamOf
  | none, none => []

/-- The texts of the pages' streams of content. -/
inductive Texts (v : View) : List Dict → List Bytes → Prop
  | nil : Texts v [] []
  | page {p t m ts us} : Fonts v p m → (contents v p).map (pageText m) = ts.map .ok → Texts v t us → Texts v (p :: t) (ts ++ us)

/-- The report on a dictionary. -/
def Reports (ext : Ext) (v : View) (d : Dict) (ws : List Write) : Prop :=
  ∃ aa embedded urls pages texts,
    aa.Perm ((v.dict d b!"AA").toList.flatMap fun e => e.keys.flatMap fun k => (v.dict e k).toList.flatMap (actionReport ext v)) ∧
    Names v d b!"EmbeddedFiles" embedded ∧ Names v d b!"URLS" urls ∧ Pages v d b!"Pages" pages ∧ Texts v pages texts ∧
    ws = (v.dict d b!"A").toList.flatMap (actionReport ext v) ++ (v.dict d b!"OpenAction").toList.flatMap (actionReport ext v) ++ aa ++
      formReport ext v d ++ embeddedReport ext v embedded ++ scriptReport v d ++ texts.map .text ++ uriReport v d ++ urlsReport v urls

/-- The report is made up of one part for each item of the list, in some order. -/
def Parts {ι : Type} (R : ι → List Write → Prop) (l : List ι) (ws : List Write) : Prop :=
  ∃ parts : List (ι × List Write), (parts.map (·.1)).Perm l ∧ (∀ p ∈ parts, R p.1 p.2) ∧ ws = parts.flatMap (·.2)

/-- The report on an object: on the dictionaries inside it, then the object itself, where the entries of
its dictionaries are in any order. -/
def ObjectReport (ext : Ext) (v : View) (o : IndObj) (ws : List Write) : Prop :=
  ∃ inside printed, Parts (Reports ext v) (dictsOf o) inside ∧ Reordered o.value printed ∧ ws = inside ++ [.raw o printed]

/-- The files of the report hold what was written, and nothing else. -/
structure Holds (out : Out) (ws : List Write) : Prop where
  commands : out.commands = ws.flatMap Write.commandsTxt
  files : out.files = ws.flatMap Write.filesTxt
  javascript : out.javascript = ws.flatMap Write.javascriptJs
  text : out.text = ws.flatMap Write.contentsTxt
  urls : out.urls = ws.flatMap Write.urlsTxt
  raw : out.raw = ws.flatMap Write.rawPdf
  dumped : out.dumped = ws.foldl Write.dumpInto []

end Pdf.Spec
