import Verif.Spec.Report
/-!
The files that a document embeds and the programs that it starts.
-/

namespace Pdf.Spec
open Pdf

/-- A value in a list where names and values alternate. -/
inductive ValueIn (o : Obj) : List Obj → Prop
  | here {k t} : ValueIn o (k :: o :: t)
  | there {k x t} : ValueIn o t → ValueIn o (k :: x :: t)

/-- In every node of the name tree with this root, names and values alternate: there are as many values as names. -/
def Paired (v : View) (root : Dict) : Prop := ∀ e, Node v.value root e → (namesOf v.value e).length % 2 = 0

/-- A file specification in the name tree of embedded files of a dictionary. -/
inductive InTree (v : View) (d f : Dict) : Prop
  | mk {root e o} : v.dict d b!"EmbeddedFiles" = some root → Paired v root → Node v.value root e → ValueIn o (namesOf v.value e) →
      target v.value o = .dict f → InTree v d f

/-- A file specification that a dictionary embeds: in its name tree of embedded files, or as the file of an annotation
(ISO 32000-1, 7.11.4 and 12.5.6.15). -/
inductive Embeds (v : View) (d f : Dict) : Prop
  | tree : InTree v d f → Embeds v d f
  | attached : v.name d b!"Subtype" = some b!"FileAttachment" → v.dict d b!"FS" = some f → Embeds v d f

/-- A file specification holds a file with these data. -/
inductive FileData (v : View) (f : Dict) (data : Bytes) : Prop
  | mk {ef m g} : v.string f b!"FS" ≠ some b!"URL" → v.dict f b!"EF" = some ef → ef.get? b!"F" = some (.ref m g) → v.stream m = some data → FileData v f data

/-- An action of a dictionary: under /A, under /OpenAction or one of the additional actions. -/
inductive ActionOf (v : View) (d a : Dict) : Prop
  | action : v.dict d b!"A" = some a → ActionOf v d a
  | openAction : v.dict d b!"OpenAction" = some a → ActionOf v d a
  | additional {e k} : v.dict d b!"AA" = some e → k ∈ e.keys → v.dict e k = some a → ActionOf v d a

/-- A file specification of a program to start: in the action under /F, or under /Win with parameters. -/
inductive Starts (v : View) (a : Dict) (name parameters : Bytes) : Prop
  | mk {k f} : v.name a b!"S" = some b!"Launch" → k = b!"F" ∨ k = b!"Win" → v.dict a k = some f → v.string f b!"FS" ≠ some b!"URL" → v.dict f b!"EF" = none →
      v.string f b!"F" = some name → (v.string f b!"P").getD [] = parameters → Starts v a name parameters

/-- An action starts this program: the file can also be a plain string (ISO 32000-1, 12.6.4.5 and 7.11.2). -/
inductive Launches (v : View) (a : Dict) (name parameters : Bytes) : Prop
  | spec : Starts v a name parameters → Launches v a name parameters
  | plain : v.name a b!"S" = some b!"Launch" → v.string a b!"F" = some name → parameters = [] → Launches v a name parameters

/-- A name in a list where names and values alternate. -/
inductive NameIn (o : Obj) : List Obj → Prop
  | here {t} : NameIn o (o :: t)
  | there {k x t} : NameIn o t → NameIn o (k :: x :: t)

/-- A file specification of a dictionary: of one of its actions, or in its name tree of embedded files. -/
inductive FileOf (v : View) (d f : Dict) : Prop
  | action {a k} : ActionOf v d a → k = b!"F" ∨ k = b!"Win" → v.dict a k = some f → FileOf v d f
  | tree : InTree v d f → FileOf v d f

/-- A URL of a dictionary: under /URI; the base of those in the document; in its name tree of URLs; a file specification that
is a URL, where `isUrl` tells how the file system /FS says so. -/
inductive UrlIn (isUrl : View → Dict → Prop) (v : View) (d : Dict) (u : Bytes) : Prop
  | uri : v.string d b!"URI" = some u → UrlIn isUrl v d u
  | base {e} : v.dict d b!"URI" = some e → v.string e b!"Base" = some u → UrlIn isUrl v d u
  | tree {root e o} : v.dict d b!"URLS" = some root → Paired v root → Node v.value root e → NameIn o (namesOf v.value e) → target v.value o = .str u → UrlIn isUrl v d u
  | file {f} : FileOf v d f → isUrl v f → v.string f b!"F" = some u → UrlIn isUrl v d u

/-- The file system is given as a string. -/
def ByString (v : View) (f : Dict) : Prop := v.string f b!"FS" = some b!"URL"

/-- The file system is given as a name (ISO 32000-1, 7.11.5). -/
def ByName (v : View) (f : Dict) : Prop := v.name f b!"FS" = some b!"URL"

/-- In all name trees of URLs and of embedded files of the dictionary names and values alternate. -/
def TreesPaired (v : View) (d : Dict) : Prop := ∀ root, v.dict d b!"URLS" = some root ∨ v.dict d b!"EmbeddedFiles" = some root → Paired v root

/-- A script of a dictionary: under /JS, a string or the data of a stream. -/
inductive ScriptIn (v : View) (d : Dict) (js : Bytes) : Prop
  | string : v.string d b!"JS" = some js → ScriptIn v d js
  | stream {n g} : d.get? b!"JS" = some (.ref n g) → v.string d b!"JS" = none → v.stream n = some js → ScriptIn v d js

/-- The data of a form: in one stream, or in the streams of an array one after the other (ISO 32000-1, 12.7.8). -/
inductive FormIn (v : View) (d : Dict) (data : Bytes) : Prop
  | stream {n g} : d.get? b!"XFA" = some (.ref n g) → v.stream n = some data → FormIn v d data
  | streams {l} : v.array d b!"XFA" = some l → data = (l.filterMap v.streamOf).flatten → FormIn v d data

/-- The data of a form are not in an array that is given by reference. -/
def FormDirect (v : View) (d : Dict) : Prop := ∀ l, v.array d b!"XFA" = some l → d.get? b!"XFA" = some (.arr l)

/-- A file that a dictionary holds: the data of a form, or of a file specification. -/
inductive HoldsFile (v : View) (d : Dict) (name data : Bytes) : Prop
  | form : FormIn v d data → name = b!"form.xml" → HoldsFile v d name data
  | file {f} : FileOf v d f → FileData v f data → name = (v.string f b!"F").getD zeros → HoldsFile v d name data

/-- A file specification of a file that is not in the document. -/
def Outside (v : View) (f : Dict) (name : Bytes) : Prop := v.string f b!"FS" ≠ some b!"URL" ∧ v.dict f b!"EF" = none ∧ v.string f b!"F" = some name

/-- A file outside the document that a dictionary names: as a string in an action or in its name tree of embedded files, or in a
file specification. -/
inductive NamesFile (v : View) (d : Dict) (name : Bytes) : Prop
  | action {a} : ActionOf v d a → v.string a b!"F" = some name → NamesFile v d name
  | tree {root e o} : v.dict d b!"EmbeddedFiles" = some root → Paired v root → Node v.value root e → ValueIn o (namesOf v.value e) → target v.value o = .str name → NamesFile v d name
  | file {f} : FileOf v d f → Outside v f name → NamesFile v d name

/-- A program with parameters in a dictionary: that an action starts, or a file specification with parameters. -/
inductive CommandIn (v : View) (d : Dict) (name parameters : Bytes) : Prop
  | launch {a} : ActionOf v d a → Starts v a name parameters → CommandIn v d name parameters
  | file {f} : FileOf v d f → Outside v f name → v.string f b!"P" = some parameters → CommandIn v d name parameters

end Pdf.Spec
