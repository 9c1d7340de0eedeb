import Verif.Model.Main
/-!
The output directory, from the outside.
-/

namespace Pdf.Spec

/-- README.md:60-73, the complete list of log messages. -/
def readmeMessages : List Bytes :=
  [b!"invalid dictionary key type", b!"invalid hex string character", b!"invalid name escape character",
   b!"invalid octal in string", b!"missing dictionary value", b!"unclosed array", b!"unclosed dictionary",
   b!"unclosed hex string", b!"unclosed stream", b!"unclosed string", b!"unclosed escape in string",
   b!"unclosed octal in string", b!"unnecessary espace sequence in name", b!"unnecessary espace sequence in string"]

/-- README.md: the seven files. -/
def reportFiles : List Bytes :=
  [b!"commands.txt", b!"contents.txt", b!"errors.txt", b!"files.txt", b!"javascript.js", b!"raw.pdf", b!"urls.txt"]

/-- Effect of one successful call on the names in the output directory (`none`: no directory). -/
def dirStep (d : Option (List Bytes)) : FsOp → Option (List Bytes)
  | .removeAll => none
  | .mkdirAll => some (d.getD [])
  | .create h => d.map fun l => if h.name ∈ l then l else h.name :: l
  | .openInput => d
  | .close _ => d

/-- Effect of successive calls. -/
def dirAfter (ops : List FsOp) (d : Option (List Bytes)) : Option (List Bytes) := ops.foldl dirStep d

/-- How often a file is closed. -/
def closes (h : Handle) (ops : List FsOp) : Nat := (ops.filter (· = .close h)).length

/-- A line of files.txt. -/
def manifestLine (e : Bytes × Bytes) : Bytes := e.1 ++ b!":" ++ e.2 ++ b!"\n"

/-- Lower case hex text of a byte. -/
def hex2 (b : UInt8) : Bytes := [(b!"0123456789abcdef").getD (b.toNat / 16) 0, (b!"0123456789abcdef").getD (b.toNat % 16) 0]

/-- Lower case hex text. -/
def hexText (b : Bytes) : Bytes := b.flatMap hex2

/-- Every dumped file is named by the MD5 of its contents, and every manifest line is for an external
file or for a dumped one. -/
def ContentAddressed (ext : Ext) (o : Out) : Prop :=
  (∀ h d, o.dumped.get? h = some d → h = hexText (ext.md5 d)) ∧
    ∃ es : List (Bytes × Bytes), o.files = es.flatMap manifestLine ∧
      ∀ e ∈ es, e.1 = List.replicate 32 48 ∨ ∃ d, o.dumped.get? e.1 = some d

end Pdf.Spec
