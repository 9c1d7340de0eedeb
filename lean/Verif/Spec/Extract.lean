import Verif.Spec.Main
/-!
The report as a sequence of lines written to its files, and the dictionaries inside an object.
-/

namespace Pdf.Spec

mutual
/-- The same value but for the order of the entries of the dictionaries in it. -/
inductive Reordered : Obj → Obj → Prop
  | same (o : Obj) : Reordered o o
  | arr {l l'} : ReorderedList l l' → Reordered (.arr l) (.arr l')
  | dict {d d' d''} : ReorderedEntries d d' → d'.Perm d'' → Reordered (.dict d) (.dict d'')
/-- element by element -/
inductive ReorderedList : List Obj → List Obj → Prop
  | nil : ReorderedList [] []
  | cons {o o' l l'} : Reordered o o' → ReorderedList l l' → ReorderedList (o :: l) (o' :: l')
/-- value by value -/
inductive ReorderedEntries : List (Bytes × Obj) → List (Bytes × Obj) → Prop
  | nil : ReorderedEntries [] []
  | cons {k v v' d d'} : Reordered v v' → ReorderedEntries d d' → ReorderedEntries ((k, v) :: d) ((k, v') :: d')
end

/-- The text of these objects one after the other, where the entries of each dictionary are in any
order. -/
inductive Printed : List IndObj → Bytes → Prop
  | nil : Printed [] []
  | cons {o v l b} : Reordered o.value v → Printed l b → Printed (o :: l) ({ o with value := v }.toBytes ++ b!"\n" ++ b)

/-- Something added to the report; an object is printed as its value `v` up to the order of entries. -/
inductive Write where
  | error (e : Err)
  | command (f p : Bytes)
  | file (hash name : Bytes)
  | dump (hash data : Bytes)
  | js (b : Bytes)
  | text (b : Bytes)
  | url (b : Bytes)
  | raw (o : IndObj) (v : Obj)
deriving DecidableEq, Repr

/-- The file a write goes to. -/
inductive Kind where
  | errors | commands | files | dumped | javascript | contents | urls | raw
deriving DecidableEq, Repr

/-- the file a write goes to -/
def Write.kind : Write → Kind
  | .error _ => .errors
  | .command _ _ => .commands
  | .file _ _ => .files
  | .dump _ _ => .dumped
  | .js _ => .javascript
  | .text _ => .contents
  | .url _ => .urls
  | .raw _ _ => .raw

/-- The bytes appended to commands.txt. -/
def Write.commandsTxt : Write → Bytes
  | .command f p => f ++ b!" " ++ p ++ b!"\n"
  | _ => []
/-- The bytes appended to files.txt. -/
def Write.filesTxt : Write → Bytes
  | .file h n => manifestLine (h, n)
  | _ => []
/-- The bytes appended to javascript.js. -/
def Write.javascriptJs : Write → Bytes
  | .js b => b ++ b!"\n"
  | _ => []
/-- The bytes appended to contents.txt. -/
def Write.contentsTxt : Write → Bytes
  | .text b => b
  | _ => []
/-- The bytes appended to urls.txt. -/
def Write.urlsTxt : Write → Bytes
  | .url b => b ++ b!"\n"
  | _ => []
/-- The bytes appended to raw.pdf. -/
def Write.rawPdf : Write → Bytes
  | .raw o v => { o with value := v }.toBytes ++ b!"\n"
  | _ => []
/-- The messages appended to errors.txt. -/
def Write.errorsTxt : Write → List Err
  | .error e => [e]
  | _ => []
/-- The files of the directory after a write. -/
def Write.dumpInto (m : Assoc Bytes Bytes) : Write → Assoc Bytes Bytes
  | .dump h d => m.set h d
  | _ => m

/-- From `s` to `s'` the report grew by the writes `ws`, and by nothing else. -/
structure Wrote (ws : List Write) (s s' : XS) : Prop where
  commands : s'.out.commands = s.out.commands ++ ws.flatMap Write.commandsTxt
  files : s'.out.files = s.out.files ++ ws.flatMap Write.filesTxt
  javascript : s'.out.javascript = s.out.javascript ++ ws.flatMap Write.javascriptJs
  text : s'.out.text = s.out.text ++ ws.flatMap Write.contentsTxt
  urls : s'.out.urls = s.out.urls ++ ws.flatMap Write.urlsTxt
  raw : s'.out.raw = s.out.raw ++ ws.flatMap Write.rawPdf
  errors : s'.ps.log = s.ps.log ++ ws.flatMap Write.errorsTxt
  dumped : s'.out.dumped = ws.foldl Write.dumpInto s.out.dumped

/-- Whenever the read returns, it returns `a`. -/
def Reads {α : Type} (x : M α) (a : α) : Prop := ∀ s v s', x s = .ok (v, s') → v = a

mutual
/-- The dictionaries inside a value, itself included, through direct dictionaries and arrays. -/
def dictsIn : Obj → List Dict
  | .dict d => d :: dictsInValues d
  | .arr l => dictsInList l
  | .kw _ => []
  | .num _ => []
  | .name _ => []
  | .str _ => []
  | .ref _ _ => []
/-- those inside the values of a dictionary -/
def dictsInValues : List (Bytes × Obj) → List Dict
  | [] => []
  | (_, v) :: t => dictsIn v ++ dictsInValues t
/-- those inside the elements of an array -/
def dictsInList : List Obj → List Dict
  | [] => []
  | v :: t => dictsIn v ++ dictsInList t
end

/-- The lines of a text: the parts ended by a line feed, and what follows the last one unless it is
empty. -/
def linesOf : Bytes → List Bytes
  | [] => []
  | b :: t =>
    if b = 10 then [] :: linesOf t
    else match linesOf t with
      | [] => [[b]]
      | l :: ls => (b :: l) :: ls

example : linesOf b!"ab\n\nc" = [b!"ab", b!"", b!"c"] := by decide

/-- The scripts among the writes. -/
def scripts (ws : List Write) : List Bytes := ws.filterMap fun w => match w with | .js b => some b | _ => none
/-- The URLs among the writes. -/
def urlsOf (ws : List Write) : List Bytes := ws.filterMap fun w => match w with | .url b => some b | _ => none

/-- What the entry /JS of a dictionary stands for: a string, or the data of a stream. -/
inductive ScriptIs (rs : Resolver) (d : Dict) : Option Bytes → Prop
  | string {b} : Reads (Dict.getString rs d b!"JS") (some b) → ScriptIs rs d (some b)
  | stream {b} : Reads (Dict.getString rs d b!"JS") none → Reads (Dict.getStream rs d b!"JS") (some b) → ScriptIs rs d (some (b.getD []))
  | none : Reads (Dict.getString rs d b!"JS") none → Reads (Dict.getStream rs d b!"JS") none → ScriptIs rs d none

/-- The dictionaries that extraction looks at in an object: those inside its value, if that is a
dictionary. -/
def dictsOf (o : IndObj) : List Dict := match o.value with
  | .dict d => dictsIn (.dict d)
  | _ => []

/-- The numbers of the objects in use. -/
def inUse (l : List (Int × XrefEntry)) : List Int := (l.filter fun p => p.2.typ = 1).map (·.1)

/-- The font that a name stands for: the one its dictionary's /ToUnicode map gives. -/
def FontIs (rs : Resolver) (fonts : Dict) (k : Bytes) (font : Font) : Prop :=
  ∃ info cmap, Reads (Dict.getDict rs fonts k) info ∧ Reads (Dict.getStream rs (info.getD []) b!"ToUnicode") cmap ∧
    newFont ((cmap.getD none).getD []) = .ok font

end Pdf.Spec
