import Verif.Model.Extract
/-!
`Parse` (pdf.go), the output directory (output.go) and the command line program (main.go), with the
file system calls they make.
-/

namespace Pdf

/-- output.go:10-19: the files of `Output`, plus the input file -/
inductive Handle where
  | input | commands | errors | files | javascript | raw | text | urls
deriving DecidableEq, Repr

/-- output.go:33-65: file names, in order of creation -/
def Handle.name : Handle → Bytes
  | .input => []
  | .commands => b!"commands.txt"
  | .errors => b!"errors.txt"
  | .files => b!"files.txt"
  | .javascript => b!"javascript.js"
  | .raw => b!"raw.pdf"
  | .text => b!"contents.txt"
  | .urls => b!"urls.txt"

/-- File system calls, in order. Contents written to the open output files are in `Out`. -/
inductive FsOp where
  | openInput
  | removeAll
  | mkdirAll
  | create (h : Handle)
  | close (h : Handle)
deriving DecidableEq, Repr

/-- The file system as far as one call of `Parse` can see it. -/
structure Sys where
  /-- bytes of the input file; `none` when `os.Open` fails -/
  input : Option Bytes
  /-- whether `os.Create` succeeds for each output file -/
  canCreate : Handle → Bool
  /-- whether the output path exists (`os.Stat`) -/
  outExists : Bool
  /-- the order of `range` loops over maps -/
  order : Order := Order.default

/-- output.go:33-66: the files to create -/
def outputFiles : List Handle := [.commands, .errors, .files, .javascript, .raw, .text, .urls]

/-- output.go:32-66: creation stops at the first failure. Result: the files that are open, and
whether all could be created. -/
def createAll (sys : Sys) : List Handle → List Handle → List FsOp × List Handle × Bool
  | [], opened => ([], opened, true)
  | h :: t, opened =>
    if sys.canCreate h then
      let (ops, opened, ok) := createAll sys t (opened ++ [h])
      (.create h :: ops, opened, ok)
    else ([.create h], opened, false)

/-- output.go:69-91 `Output.Close`: calls on the handles that are not nil. `Errors` is tested, but
`Files` is closed. (Closing a nil `*os.File` returns an error and has no effect.) -/
def closeAll (opened : List Handle) : List FsOp :=
  (if .commands ∈ opened then [.close .commands] else [])
  ++ (if .errors ∈ opened ∧ .files ∈ opened then [.close .files] else [])
  ++ (if .files ∈ opened then [.close .files] else [])
  ++ (if .javascript ∈ opened then [.close .javascript] else [])
  ++ (if .raw ∈ opened then [.close .raw] else [])
  ++ (if .text ∈ opened then [.close .text] else [])
  ++ (if .urls ∈ opened then [.close .urls] else [])

/-- How `Parse` ends. -/
inductive Outcome where
  | returned (err : Option EncErr)
  | openFailed
  | createFailed
  | panicked (why : String)
  | diverged
deriving DecidableEq, Repr

/-- What a call of `Parse` did. -/
structure ParseResult where
  outcome : Outcome
  ops : List FsOp
  /-- contents of the output files, when the call returned without a panic -/
  out : Out := {}
  errors : List Err := []

/-- pdf.go:26-42: load and extract -/
def parseBody (file : Bytes) (order : Order) (ext : Ext) (verbose : Option Bool) (f fx ft : Nat) (password : Bytes) :
    Res (Option EncErr × XS) :=
  debug verbose >>= fun _ =>
  load ⟨file, ext, verbose⟩ order f fx password LS.init >>= fun (err, ls) =>
    match err with
    | some e => .ok (some e, ⟨ls.ps, {}, order.next.next⟩)
    | none =>
      extractAll (ls.env ⟨file, ext, verbose⟩) f ft ls.xref ⟨ls.ps, {}, order.next.next⟩ >>= fun p => .ok (none, p.2)

/-- pdf.go:8-43 `Parse`. The deferred `Close` calls run on every exit, including panics. -/
def parse (sys : Sys) (ext : Ext) (verbose : Option Bool) (f fx ft : Nat) (password : Bytes) :
    ParseResult :=
  match sys.input with
  | none => ⟨.openFailed, [.openInput], {}, []⟩
  | some file =>
    let (creates, opened, ok) := createAll sys outputFiles []
    let ops := [.openInput, .removeAll, .mkdirAll] ++ creates ++ closeAll opened ++ [.close .input]
    if ok then
      match parseBody file sys.order ext verbose f fx ft password with
      | .ok (err, xs) => ⟨.returned err, ops, xs.out, xs.ps.log⟩
      | .panic w => ⟨.panicked w, ops, {}, []⟩
      | .oof => ⟨.diverged, [.openInput, .removeAll, .mkdirAll] ++ creates, {}, []⟩
    else ⟨.createFailed, ops, {}, []⟩

/-- main.go:32-55: the command line program, after flag parsing (`nargs` positional arguments,
`-f`, `-v`, `-p`) -/
structure Args where
  nargs : Nat
  overwrite : Bool
  verbose : Bool
  password : Bytes

/-- How the program ends: usage text and exit status 1, refusal, or a call of `Parse`. -/
inductive MainResult where
  | usage
  | refused
  | ran (r : ParseResult)

/-- main.go:32-55 `init` and `main` -/
def mainProgram (sys : Sys) (ext : Ext) (f fx ft : Nat) (a : Args) : MainResult :=
  if a.nargs ≠ 2 then .usage
  else if sys.outExists ∧ a.overwrite = false then .refused
  else .ran (parse sys ext (some a.verbose) f fx ft a.password)

/-- the file system calls of a run of the program -/
def MainResult.ops : MainResult → List FsOp
  | .usage => []
  | .refused => []
  | .ran r => r.ops

end Pdf
