import Verif.Lemmas.Out
import Verif.Lemmas.Assoc
import Verif.Spec.Main
import Verif.Model.Concrete
/-!
C10, C50-C54: `Parse` and the command line program as seen from outside.
-/

namespace Pdf.Props
open Pdf Spec St

/-- **C10** Whatever the file, the password and the outcome: every message logged is one of the
fourteen of README.md. -/
theorem C10_messages (sys : Sys) (ext : Ext) (verbose : Option Bool) (f fx ft : Nat) (password : Bytes) :
    ∀ e ∈ (parse sys ext verbose f fx ft password).errors, e.message ∈ readmeMessages := by
  intro e _
  cases e <;> decide

/-- Conversely every message of README.md exists. -/
theorem C10_complete : ∀ m ∈ readmeMessages, ∃ e : Err, e.message = m := by
  intro m hm
  simp only [readmeMessages, List.mem_cons, List.not_mem_nil, or_false] at hm
  rcases hm with h | h | h | h | h | h | h | h | h | h | h | h | h | h <;> subst h
  · exact ⟨.invalidDictionaryKeyType, rfl⟩
  · exact ⟨.invalidHexStringChar, rfl⟩
  · exact ⟨.invalidNameEscapeChar, rfl⟩
  · exact ⟨.invalidOctal, rfl⟩
  · exact ⟨.missingDictionaryValue, rfl⟩
  · exact ⟨.unclosedArray, rfl⟩
  · exact ⟨.unclosedDictionary, rfl⟩
  · exact ⟨.unclosedHexString, rfl⟩
  · exact ⟨.unclosedStream, rfl⟩
  · exact ⟨.unclosedString, rfl⟩
  · exact ⟨.unclosedStringEscape, rfl⟩
  · exact ⟨.unclosedStringOctal, rfl⟩
  · exact ⟨.unnecessaryEscapeName, rfl⟩
  · exact ⟨.unnecessaryEscapeString, rfl⟩

/-- **C50** The input file cannot be opened: `Parse` fails and the directory keeps its contents. -/
theorem C50_unreadable {sys : Sys} (h : sys.input = none) (ext : Ext) (verbose : Option Bool) (f fx ft : Nat) (password : Bytes) :
    (parse sys ext verbose f fx ft password).outcome = .openFailed ∧
      ∀ d, dirAfter (parse sys ext verbose f fx ft password).ops d = d := by
  rw [parse, h]
  exact ⟨rfl, fun d => rfl⟩

example : (Sys.mk none (fun _ => true) true default).input = none := rfl

theorem hexDigit_eq : ∀ n, n < 16 → hexDigit n = (b!"0123456789abcdef").getD n 0 := by decide

theorem hexEncode_eq (b : Bytes) : hexEncode b = hexText b := by
  unfold hexEncode hexText
  congr 1
  funext x
  have h := x.toNat_lt
  rw [hex2, hexDigit_eq _ (by omega), hexDigit_eq _ (by omega)]

theorem hexText_length (b : Bytes) : (hexText b).length = 2 * b.length := by
  unfold hexText
  induction b with
  | nil => rfl
  | cons x t ih => rw [List.flatMap_cons, List.length_append, ih]; simp [hex2]; omega

theorem unknownHash_eq : unknownHash = List.replicate 32 48 := rfl

/-- the invariant of extraction -/
theorem contentAddressed_rel (ext : Ext) : OutRel ext (fun s t => ContentAddressed ext s.out → ContentAddressed ext t.out) where
  refl := fun _ h => h
  trans := fun h1 h2 h => h2 (h1 h)
  read := fun _ _ h => h
  order := fun _ _ h => h
  js := fun _ _ h => h
  url := fun _ _ h => h
  command := fun _ _ _ h => h
  text := fun _ _ h => h
  raw := fun _ _ h => h
  file := by
    intro s n ⟨h1, es, h2, h3⟩
    refine ⟨h1, es ++ [(unknownHash, n)], ?_, ?_⟩
    · simp [h2, manifestLine]
    · intro e he
      rcases List.mem_append.1 he with he | he
      · exact h3 e he
      · rw [List.mem_singleton.1 he]; exact .inl rfl
  dump := by
    intro s n d ⟨h1, es, h2, h3⟩
    refine ⟨?_, es ++ [(hexEncode (ext.md5 d), n)], ?_, ?_⟩
    · intro h d' hh
      by_cases he : h = hexEncode (ext.md5 d)
      · subst he
        rw [Assoc.get?_set_self] at hh
        cases hh
        exact hexEncode_eq _
      · rw [Assoc.get?_set_ne _ _ (Ne.symm he)] at hh
        exact h1 h d' hh
    · simp [h2, manifestLine]
    · intro e he
      rcases List.mem_append.1 he with he | he
      · rcases h3 e he with h | ⟨d', h⟩
        · exact .inl h
        · by_cases hk : e.1 = hexEncode (ext.md5 d)
          · exact .inr ⟨d, by rw [hk]; exact Assoc.get?_set_self _ _ _⟩
          · exact .inr ⟨d', by rw [Assoc.get?_set_ne _ _ (Ne.symm hk)]; exact h⟩
      · rw [List.mem_singleton.1 he]; exact .inr ⟨d, Assoc.get?_set_self _ _ _⟩

theorem contentAddressed_init (ext : Ext) : ContentAddressed ext {} :=
  ⟨(fun h d hh => by cases hh), [], rfl, (fun e he => by cases he)⟩

/-- **C54** After `Parse`, whatever the input: every dumped file is named by the MD5 of its contents,
and every line of files.txt is either for an external file (32 zeros) or names a dumped file. -/
theorem C54_parse (sys : Sys) (ext : Ext) (verbose : Option Bool) (f fx ft : Nat) (password : Bytes) :
    ContentAddressed ext (parse sys ext verbose f fx ft password).out := by
  rw [parse]
  split
  · exact contentAddressed_init ext
  · rename_i file hfile
    dsimp only
    split
    · split
      · rename_i err xs hb
        show ContentAddressed ext xs.out
        unfold parseBody at hb
        cases hv : debug verbose with
        | panic w => rw [hv] at hb; cases hb
        | oof => rw [hv] at hb; cases hb
        | ok u =>
          rw [hv] at hb
          replace hb : (load ⟨file, ext, verbose⟩ sys.order f fx password LS.init >>= _) = Res.ok (err, xs) := hb
          cases hl : load ⟨file, ext, verbose⟩ sys.order f fx password LS.init with
          | panic w => rw [hl] at hb; cases hb
          | oof => rw [hl] at hb; cases hb
          | ok p =>
            rw [hl] at hb
            obtain ⟨e, ls⟩ := p
            cases e with
            | some e => cases hb; exact contentAddressed_init ext
            | none =>
              replace hb : (extractAll (ls.env ⟨file, ext, verbose⟩) f ft ls.xref ⟨ls.ps, {}, sys.order.next.next⟩ >>= _) = Res.ok (err, xs) := hb
              cases hx : extractAll (ls.env ⟨file, ext, verbose⟩) f ft ls.xref ⟨ls.ps, {}, sys.order.next.next⟩ with
              | panic w => rw [hx] at hb; cases hb
              | oof => rw [hx] at hb; cases hb
              | ok q =>
                rw [hx] at hb
                cases hb
                exact extractAll_pres (env := ls.env ⟨file, ext, verbose⟩) (contentAddressed_rel ext) f ft ls.xref _ _ _ hx (contentAddressed_init ext)
      · exact contentAddressed_init ext
      · exact contentAddressed_init ext
    · exact contentAddressed_init ext

/-- **C54** A dump adds one line to files.txt and stores the data under its MD5. -/
theorem C54_dump (ext : Ext) (name data : Bytes) (s : XS) :
    ∃ s', dumpFile ext name data s = .ok ((), s') ∧
      s'.out.files = s.out.files ++ manifestLine (hexText (ext.md5 data), name) ∧
      s'.out.dumped.get? (hexText (ext.md5 data)) = some data ∧
      ∀ h, h ≠ hexText (ext.md5 data) → s'.out.dumped.get? h = s.out.dumped.get? h := by
  refine ⟨_, rfl, ?_, ?_, ?_⟩
  · simp [manifestLine, hexEncode_eq]
  · rw [← hexEncode_eq]; exact Assoc.get?_set_self _ _ _
  · intro h hh
    rw [← hexEncode_eq] at hh
    exact Assoc.get?_set_ne _ _ (Ne.symm hh)

/-- A dump with a real MD5. -/
example : (match dumpFile Concrete.ext b!"a.exe" b!"abc" ⟨PS.init, {}, default⟩ with
    | .ok (_, s) => s.out.files
    | _ => []) = b!"900150983cd24fb0d6963f7d28e17f72:a.exe\n" := by decide +kernel

theorem createAll_all {sys : Sys} : ∀ (l opened : List Handle), (createAll sys l opened).2.2 = true →
    (createAll sys l opened).1 = l.map .create ∧ (createAll sys l opened).2.1 = opened ++ l := by
  intro l
  induction l with
  | nil => intro opened _; exact ⟨rfl, by simp [createAll]⟩
  | cons h t ih =>
    intro opened hok
    rw [createAll] at hok ⊢
    split at hok
    · rename_i hc
      rw [if_pos hc]
      obtain ⟨h1, h2⟩ := ih _ hok
      exact ⟨by simp [h1], by simp [h2]⟩
    · cases hok

/-- the file system calls of a call of `Parse` that could create its files -/
theorem parse_ops {sys : Sys} {file : Bytes} (hf : sys.input = some file) (hc : (createAll sys outputFiles []).2.2 = true)
    {ext : Ext} {verbose : Option Bool} {f fx ft : Nat} {password : Bytes}
    (hd : (parse sys ext verbose f fx ft password).outcome ≠ .diverged) :
    (parse sys ext verbose f fx ft password).ops =
      [.openInput, .removeAll, .mkdirAll, .create .commands, .create .errors, .create .files, .create .javascript, .create .raw,
        .create .text, .create .urls, .close .commands, .close .files, .close .files, .close .javascript, .close .raw, .close .text,
        .close .urls, .close .input] := by
  obtain ⟨h1, h2⟩ := createAll_all outputFiles [] hc
  rw [parse, hf] at hd ⊢
  simp only [hc, h1, h2, if_true] at hd ⊢
  split
  · rfl
  · rfl
  · rename_i ho
    simp only [ho] at hd
    exact absurd rfl hd

theorem returned_ok {sys : Sys} {ext : Ext} {verbose : Option Bool} {f fx ft : Nat} {password : Bytes} {err : Option EncErr}
    (h : (parse sys ext verbose f fx ft password).outcome = .returned err) :
    ∃ file, sys.input = some file ∧ (createAll sys outputFiles []).2.2 = true := by
  rw [parse] at h
  split at h
  · cases h
  · rename_i file hf
    dsimp only at h
    split at h
    · rename_i hc
      exact ⟨file, hf, hc⟩
    · cases h

/-- **C50** When `Parse` returns, whatever the directory held before, it holds the seven report files,
each once, and the dumped files, whose names are 32 characters long and thus are none of the seven. -/
theorem C50_directory {sys : Sys} {ext : Ext} {verbose : Option Bool} {f fx ft : Nat} {password : Bytes} {err : Option EncErr}
    (h : (parse sys ext verbose f fx ft password).outcome = .returned err) (d : Option (List Bytes)) :
    (∃ l, dirAfter (parse sys ext verbose f fx ft password).ops d = some l ∧ l.Nodup ∧ (∀ n, n ∈ l ↔ n ∈ reportFiles)) ∧
      ∀ n data, (parse sys ext verbose f fx ft password).out.dumped.get? n = some data → n.length = 32 ∧ n ∉ reportFiles := by
  obtain ⟨file, hf, hc⟩ := returned_ok h
  refine ⟨?_, ?_⟩
  · rw [parse_ops hf hc (by rw [h]; intro hh; cases hh)]
    refine ⟨[b!"urls.txt", b!"contents.txt", b!"raw.pdf", b!"javascript.js", b!"files.txt", b!"errors.txt", b!"commands.txt"], ?_, ?_, ?_⟩
    · simp only [dirAfter, List.foldl, dirStep]; decide
    · decide
    · intro n
      simp only [reportFiles, List.mem_cons, List.not_mem_nil, or_false]
      constructor <;> (rintro (h | h | h | h | h | h | h) <;> simp [h])
  · intro n data hn
    have hl : n.length = 32 := by
      rw [(C54_parse sys ext verbose f fx ft password).1 n data hn, hexText_length, ext.md5_length]
    refine ⟨hl, fun hm => ?_⟩
    simp only [reportFiles, List.mem_cons, List.not_mem_nil, or_false] at hm
    rcases hm with h | h | h | h | h | h | h <;> subst h <;> cases hl

/-- **C51 fails** The documented library call, in a program that does not set `pdf.Verbose`, panics for
every readable input whose output directory can be created, after removing the old directory. -/
theorem C51_false {sys : Sys} {file : Bytes} (hf : sys.input = some file) (hc : ∀ h, sys.canCreate h = true) (ext : Ext) (f fx ft : Nat) (password : Bytes) :
    (parse sys ext none f fx ft password).outcome = .panicked "nil pointer dereference" ∧
      .removeAll ∈ (parse sys ext none f fx ft password).ops := by
  have hok : (createAll sys outputFiles []).2.2 = true := by simp [outputFiles, createAll, hc]
  have ho : (parse sys ext none f fx ft password).outcome = .panicked "nil pointer dereference" := by
    rw [parse, hf]
    simp only [hok, if_true]
    rfl
  refine ⟨ho, ?_⟩
  rw [parse_ops hf hok (by rw [ho]; intro hh; cases hh)]
  decide

example : (Sys.mk (some b!"%PDF-1.4") (fun _ => true) false default).input = some b!"%PDF-1.4" ∧
    ∀ h, (Sys.mk (some b!"%PDF-1.4") (fun _ => true) false default).canCreate h = true := ⟨rfl, fun _ => rfl⟩

/-- **C52** The output path exists and `-f` is not given: no file system call is made at all. -/
theorem C52_refuses {sys : Sys} {a : Args} (he : sys.outExists = true) (ho : a.overwrite = false) (ext : Ext) (f fx ft : Nat) :
    (mainProgram sys ext f fx ft a).ops = [] := by
  rw [mainProgram]
  split
  · rfl
  · rw [if_pos ⟨he, ho⟩]; rfl

/-- **C52** Otherwise, with two arguments, the program calls `Parse`. -/
theorem C52_runs {sys : Sys} {a : Args} (hn : a.nargs = 2) (h : sys.outExists = false ∨ a.overwrite = true) (ext : Ext) (f fx ft : Nat) :
    mainProgram sys ext f fx ft a = .ran (parse sys ext (some a.verbose) f fx ft a.password) := by
  rw [mainProgram, if_neg (by simp [hn]), if_neg]
  rcases h with h | h <;> simp [h]

example : (Sys.mk none (fun _ => true) true default).outExists = true ∧ (Args.mk 2 false false []).overwrite = false := ⟨rfl, rfl⟩
example : (Args.mk 2 true false []).nargs = 2 := rfl

/-- **C53 fails** When all files could be created, errors.txt is never closed and files.txt is closed
twice. -/
theorem C53_false {sys : Sys} {file : Bytes} (hf : sys.input = some file) (hc : ∀ h, sys.canCreate h = true) (ext : Ext)
    (verbose : Option Bool) (f fx ft : Nat) (password : Bytes) (hd : (parse sys ext verbose f fx ft password).outcome ≠ .diverged) :
    closes .errors (parse sys ext verbose f fx ft password).ops = 0 ∧ closes .files (parse sys ext verbose f fx ft password).ops = 2 := by
  have hok : (createAll sys outputFiles []).2.2 = true := by simp [outputFiles, createAll, hc]
  rw [parse_ops hf hok hd]
  decide

/-- **C53, partial** The other files, including the input, are closed exactly once whenever `Parse`
ends, even by a panic. Missing: errors.txt and files.txt (`C53_false`). -/
theorem C53_closed_partial {sys : Sys} {file : Bytes} (hf : sys.input = some file) (hc : ∀ h, sys.canCreate h = true) (ext : Ext)
    (verbose : Option Bool) (f fx ft : Nat) (password : Bytes) (hd : (parse sys ext verbose f fx ft password).outcome ≠ .diverged)
    (h : Handle) (h1 : h ≠ .errors) (h2 : h ≠ .files) :
    closes h (parse sys ext verbose f fx ft password).ops = 1 := by
  have hok : (createAll sys outputFiles []).2.2 = true := by simp [outputFiles, createAll, hc]
  rw [parse_ops hf hok hd]
  cases h <;> first | exact absurd rfl h1 | exact absurd rfl h2 | decide

/-- A call of `Parse` on an unusable file returns, so the hypotheses of C50 and C53 can be met. -/
example : (parse ⟨some b!"x", fun _ => true, false, default⟩ Concrete.ext (some false) 1 1 1 []).outcome = .returned none := by decide +kernel

/-! ### C62 -/

/-- Whether a call creates a report file. -/
def isCreate : FsOp → Bool
  | .create _ => true
  | _ => false

theorem createAll_fails {sys : Sys} {h : Handle} (hc : sys.canCreate h = false) (r : List Handle) : ∀ (l opened : List Handle), (∀ x ∈ l, sys.canCreate x = true) →
    createAll sys (l ++ h :: r) opened = (l.map .create ++ [.create h], opened ++ l, false) := by
  intro l
  induction l with
  | nil => intro opened _; simp [createAll, hc]
  | cons x t ih =>
    intro opened hl
    rw [List.cons_append, createAll, if_pos (hl x (by simp)), ih _ fun y hy => hl y (by simp [hy])]
    simp

/-- **C62** If a report file cannot be created, `Parse` fails without extracting anything and creates no
further file: the calls that create are those for the files before it and the one that failed. -/
theorem C62_create_fails {sys : Sys} {file : Bytes} (hf : sys.input = some file) {l r : List Handle} {h : Handle}
    (hord : [.commands, .errors, .files, .javascript, .raw, .text, .urls] = l ++ h :: r) (hl : ∀ x ∈ l, sys.canCreate x = true) (hc : sys.canCreate h = false)
    (ext : Ext) (verbose : Option Bool) (f fx ft : Nat) (password : Bytes) :
    (parse sys ext verbose f fx ft password).outcome = .createFailed ∧ (parse sys ext verbose f fx ft password).out = {} ∧
      (parse sys ext verbose f fx ft password).ops.filter isCreate = l.map .create ++ [.create h] := by
  have ho : outputFiles = l ++ h :: r := hord
  rw [parse, hf]
  dsimp only
  rw [ho, createAll_fails hc r l [] hl]
  refine ⟨rfl, rfl, ?_⟩
  have h1 : ∀ m : List Handle, (closeAll m).filter isCreate = [] := by
    intro m
    simp only [closeAll, List.filter_append, List.append_eq_nil_iff]
    refine ⟨⟨⟨⟨⟨⟨?_, ?_⟩, ?_⟩, ?_⟩, ?_⟩, ?_⟩, ?_⟩ <;> split <;> rfl
  have h2 : (l.map FsOp.create ++ [FsOp.create h]).filter isCreate = l.map FsOp.create ++ [FsOp.create h] := by
    rw [List.filter_eq_self]
    intro a ha
    simp only [List.mem_append, List.mem_map, List.mem_singleton] at ha
    rcases ha with ⟨x, -, rfl⟩ | rfl <;> rfl
  simp only [Bool.false_eq_true, if_false, List.filter_append, h1]
  rw [← List.filter_append, h2]
  simp [isCreate]

/-- **C62** In that case every file that was created is closed, except errors.txt (see C53); so is the input. -/
theorem C62_closed {sys : Sys} {file : Bytes} (hf : sys.input = some file) {l r : List Handle} {h : Handle}
    (hord : [.commands, .errors, .files, .javascript, .raw, .text, .urls] = l ++ h :: r) (hl : ∀ x ∈ l, sys.canCreate x = true) (hc : sys.canCreate h = false)
    (ext : Ext) (verbose : Option Bool) (f fx ft : Nat) (password : Bytes) :
    ∀ x ∈ .input :: l, x ≠ .errors → .close x ∈ (parse sys ext verbose f fx ft password).ops := by
  have ho : outputFiles = l ++ h :: r := hord
  intro x hx hne
  rw [parse, hf]
  dsimp only
  rw [ho, createAll_fails hc r l [] hl]
  simp only [Bool.false_eq_true, if_false, List.mem_append]
  rcases List.mem_cons.1 hx with rfl | hx
  · right; simp
  · left; right
    simp only [List.nil_append, closeAll, List.mem_append]
    cases x
    case input =>
      have h3 : Handle.input ∈ outputFiles := by rw [ho]; exact List.mem_append_left _ hx
      exact absurd h3 (by decide)
    case errors => exact absurd rfl hne
    all_goals simp [hx]

example : [.commands, .errors, .files, .javascript, .raw, .text, .urls] = [Handle.commands, .errors] ++ .files :: [.javascript, .raw, .text, .urls] ∧
    ∀ x ∈ [Handle.commands, .errors], (Sys.mk (some []) (fun h => h ≠ .files) false default).canCreate x = true := by decide

end Pdf.Props
