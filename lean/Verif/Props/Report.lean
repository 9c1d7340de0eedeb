import Verif.Lemmas.Report
/-!
The report as a whole (C67), and its parts: forms (C64), name trees of embedded files and URLs (C65),
actions (C66), streams of content (C68).
-/

namespace Pdf.Props
open Pdf Spec St

theorem flatMap_toList {α β γ : Type} (f : α → Option β) (g : β → List γ) : ∀ l : List α, (l.flatMap fun a => (f a).toList.flatMap g) = (l.filterMap f).flatMap g := by
  intro l
  induction l with
  | nil => rfl
  | cons k t ih => rw [List.flatMap_cons, ih, filterMap_cons', List.flatMap_append]

section
variable {rs : Resolver} {v : View} (hv : v.Of rs) (hrs : ∀ n, LogFree (rs n)) {ext : Ext} {d : Dict}
include hv hrs

/-! ### C64 -/

/-- **C64, partial** A form in a stream is written to the file named by the hexadecimal MD5 of its data, and
listed as form.xml in files.txt. Missing: forms in an array given by reference (see `C64_false`). -/
theorem C64_stream_partial {n gen : Int} (h : d.get? b!"XFA" = some (.ref n gen)) {data : Bytes} (hd : v.stream n = some data) :
    Adds (dictXfa ext rs d) [.file (hexText (ext.md5 data)) b!"form.xml", .dump (hexText (ext.md5 data)) data] := by
  have := form_report hv hrs (ext := ext) d
  rw [formReport, View.streamAt, h] at this
  simp only [Option.bind_some, View.streamOf, hd] at this
  exact this

/-- **C64, partial** A form in an array is the streams that the array refers to, one after the other. -/
theorem C64_array_partial {l : List Obj} (h : d.get? b!"XFA" = some (.arr l)) {data : Bytes} (hd : data = (l.filterMap v.streamOf).flatten) :
    Adds (dictXfa ext rs d) [.file (hexText (ext.md5 data)) b!"form.xml", .dump (hexText (ext.md5 data)) data] := by
  have := form_report hv hrs (ext := ext) d
  rw [formReport, View.streamAt, View.array, View.at_, h] at this
  rw [hd]
  exact this

/-- **C64** Without /XFA nothing is written. -/
theorem C64_none (h : d.get? b!"XFA" = none) : Adds (dictXfa ext rs d) [] := by
  have := form_report hv hrs (ext := ext) d
  rw [formReport, View.streamAt, View.array, View.at_, h] at this
  exact this

/-! ### C65 -/

/-- **C65** The embedded files listed are the second, fourth, … elements of the name tree /EmbeddedFiles, in
order: file names with 32 zeros, or file specifications. -/
theorem C65_embedded {ft : Nat} {s s' : XS} (h : dictEmbedded ext rs ft d s = .ok ((), s')) :
    ∃ (names : List Obj) (ws : List Write), Names v d b!"EmbeddedFiles" names ∧ Wrote ws s s' ∧ visible ws = (alternate names.tail).flatMap fun o => match target v.value o with
      | .str name => [.file zeros name]
      | .dict f => fileReport ext v false f
      | _ => [] := by
  have hcl := logFree_cl hrs
  have he : Vis (dictEmbedded ext rs ft d) fun ws => ∃ names, Names v d b!"EmbeddedFiles" names ∧ ws = embeddedReport ext v names := by
    rw [dictEmbedded]
    refine Vis.lift (hcl.nameTreeMap _ _ _) fun l s s' hr => ?_
    exact (embedded_report hv hrs l).vis.mono fun ws hw => ⟨l, names_of hv hrs hr, hw⟩
  obtain ⟨ws, h1, names, h2, h3⟩ := he s () s' h
  exact ⟨names, ws, h2, h1, h3⟩

/-- **C65** The URLs listed are the first, third, … elements of the name tree /URLS, in order. -/
theorem C65_urls {ft : Nat} {s s' : XS} (h : dictUrls rs ft d s = .ok ((), s')) :
    ∃ (names : List Obj) (ws : List Write), Names v d b!"URLS" names ∧ Wrote ws s s' ∧ visible ws = (alternate names).flatMap fun o => match target v.value o with
      | .str u => [.url u]
      | _ => [] := by
  have hcl := logFree_cl hrs
  have hu : Vis (dictUrls rs ft d) fun ws => ∃ urls, Names v d b!"URLS" urls ∧ ws = urlsReport v urls := by
    rw [dictUrls]
    refine Vis.lift (hcl.nameTreeMap _ _ _) fun l s s' hr => ?_
    exact (urls_report hv hrs l).vis.mono fun ws hw => ⟨l, names_of hv hrs hr, hw⟩
  obtain ⟨ws, h1, names, h2, h3⟩ := hu s () s' h
  exact ⟨names, ws, h2, h1, h3⟩

/-! ### C66 -/

/-- **C66** The actions of a dictionary are all looked at: that under /A, that under /OpenAction, and all those in
the dictionary under /AA, in some order. -/
theorem C66_actions {s s' : XS} (h : dictActions ext rs d s = .ok ((), s')) :
    ∃ (actions : List Dict) (ws : List Write), actions.Perm ((v.dict d b!"AA").toList.flatMap fun e => e.keys.filterMap (v.dict e)) ∧ Wrote ws s s' ∧
      visible ws = ((v.dict d b!"A").toList ++ (v.dict d b!"OpenAction").toList ++ actions).flatMap (actionReport ext v) := by
  have hcl := logFree_cl hrs
  have key : Vis (dictActions ext rs d) fun ws => ∃ actions : List Dict, actions.Perm ((v.dict d b!"AA").toList.flatMap fun e => e.keys.filterMap (v.dict e)) ∧
      ws = ((v.dict d b!"A").toList ++ (v.dict d b!"OpenAction").toList ++ actions).flatMap (actionReport ext v) := by
    rw [dictActions_eq]
    refine Vis.lift (hcl.dictDict _ _) fun a s s' hr => ?_
    rw [view_dict hv _ _ _ _ _ hr]
    refine Vis.bind (opt_action hv hrs (ext := ext) _).vis (Q := fun ws => ∃ actions : List Dict, actions.Perm ((v.dict d b!"AA").toList.flatMap fun e => e.keys.filterMap (v.dict e)) ∧
      ws = ((v.dict d b!"OpenAction").toList ++ actions).flatMap (actionReport ext v)) ?_ fun a b ha ⟨aa, h5, h6⟩ => ⟨aa, h5, by rw [ha, h6]; simp⟩
    refine Vis.lift (hcl.dictDict _ _) fun a s s' hr => ?_
    rw [view_dict hv _ _ _ _ _ hr]
    refine Vis.bind (opt_action hv hrs (ext := ext) _).vis (Q := fun ws => ∃ actions : List Dict, actions.Perm ((v.dict d b!"AA").toList.flatMap fun e => e.keys.filterMap (v.dict e)) ∧
      ws = actions.flatMap (actionReport ext v)) ?_ fun a b ha ⟨aa, h5, h6⟩ => ⟨aa, h5, by rw [ha, h6]; simp⟩
    refine Vis.lift (hcl.dictDict _ _) fun a s s' hr => ?_
    rw [view_dict hv _ _ _ _ _ hr]
    cases v.dict d b!"AA" with
    | none => exact Vis.pure ⟨[], .refl _, rfl⟩
    | some e =>
      refine Post.bind (Post.shuffle _) fun ks ws ⟨h1, h2⟩ => ?_
      rw [h1]
      refine Post.mono (aa_report hv hrs (ext := ext) e ks).vis fun _ ws hw => ⟨ks.filterMap (v.dict e), ?_, ?_⟩
      · simpa using h2.filterMap (v.dict e)
      · rw [List.nil_append, hw]
        exact flatMap_toList _ _ ks
  obtain ⟨ws, h1, actions, h2, h3⟩ := key s () s' h
  exact ⟨actions, ws, h2, h1, h3⟩

/-! ### C68 -/

/-- **C68, partial** The text of a page is that of all the streams its /Contents stands for, in order, each with the
fonts named in the page's resources. Missing: a reference to an array of streams (see `C68_false`). -/
theorem C68_partial {l : List Obj} (h : d.get? b!"Contents" = some (.arr l) ∨ ∃ n gen, d.get? b!"Contents" = some (.ref n gen) ∧ l = [.ref n gen] ∧ (v.stream n).isSome) {s s' : XS}
    (hr : pageExtract rs d s = .ok ((), s')) :
    ∃ (m : Assoc Bytes Font) (ts : List Bytes) (ws : List Write), Fonts v d m ∧ (l.filterMap v.streamOf).map (pageText m) = ts.map .ok ∧ Wrote ws s s' ∧ visible ws = ts.map .text := by
  obtain ⟨ws, h1, m, ts, h2, h3, h4⟩ := page_report hv hrs d s () s' hr
  refine ⟨m, ts, ws, h2, ?_, h1, h4⟩
  rw [← h3, contents, View.streamAt, View.array, View.at_]
  rcases h with h | ⟨n, gen, h, rfl, h'⟩
  · rw [h]; rfl
  · rw [h]; rfl

end

/-! ### C67 -/

/-- **C67** When `Parse` returns without an error, the report holds, for each object in use, once and in some
order, what is reported on each dictionary inside it, once and in some order, followed by the object
itself; and nothing else. What is reported on a dictionary depends on nothing but the values and streams
its references stand for. -/
theorem C67_report {sys : Sys} {ext : Ext} {verbose : Option Bool} {f fx ft : Nat} {pw : Bytes} {r : ParseResult} (hr : parse sys ext verbose f fx ft pw = r)
    (h : r.outcome = .returned none) :
    ∃ file ls, sys.input = some file ∧ load ⟨file, ext, verbose⟩ sys.order f fx pw LS.init = .ok (none, ls) ∧
      ∀ (v : View) (objs : Int → IndObj), v.Of (resolver (ls.env ⟨file, ext, verbose⟩) f) → (∀ n, Reads (getObject (ls.env ⟨file, ext, verbose⟩) f n) (objs n)) →
        ∃ ws, Holds r.out ws ∧ Parts (fun n => ObjectReport ext v (objs n)) (inUse ls.xref) (visible ws) := by
  subst hr
  obtain ⟨file, ls, xs, h1, h2, h3, h4, -⟩ := parse_run h
  refine ⟨file, ls, h1, h2, fun v objs hv ho => ?_⟩
  obtain ⟨ws, hw, hq⟩ := extractAll_parts (ft := ft) hv ho ls.xref _ _ _ h3
  refine ⟨ws, ?_, hq⟩
  rw [h4]
  exact ⟨hw.commands, hw.files, hw.javascript, hw.text, hw.urls, hw.raw, hw.dumped⟩

/-- The values and streams in the statement of `C67_report` exist whenever no offset is negative. -/
theorem C67_meets {env : Env} (hoff : NonnegOffsets env) (f : Nat) : ∃ (v : View) (objs : Int → IndObj), v.Of (resolver env f) ∧ ∀ n, Reads (getObject env f n) (objs n) := by
  haveI : Nonempty IndObj := ⟨⟨0, 0, Obj.null, none⟩⟩
  obtain ⟨objs, h1⟩ := Classical.axiomOfChoice fun n => reads_of_fixed (α := IndObj) (getObject_fixed hoff f n)
  obtain ⟨v, hv⟩ := exists_view hoff f
  exact ⟨v, objs, hv, h1⟩

/-! ### Arrays given by reference -/

/-- the values and streams that references to these numbers stand for in a loaded file -/
def objectsIn (file : Bytes) (ns : List Int) : Option (List (Obj × Option Bytes)) := match load ⟨file, Concrete.ext, some false⟩ default 3 2 [] LS.init with
  | .ok (none, ls) => ns.mapM fun n => match resolver (ls.env ⟨file, Concrete.ext, some false⟩) 3 n ls.ps with
    | .ok (o, _) => some (o.value, o.stream)
    | _ => none
  | _ => none

/-- A form given by reference to an array of one stream. -/
def formFile : Bytes := b!"1 0 obj<</XFA 2 0 R>>endobj\n2 0 obj[3 0 R]endobj\n3 0 obj<</Length 1>>stream\nx\nendstream endobj\n"

set_option maxRecDepth 100000 in
/-- **C64 fails** for a form in an array that is given by reference: an empty form is written. -/
theorem C64_false : objectsIn formFile [1, 2, 3] = some [(.dict [(b!"XFA", .ref 2 0)], none), (.arr [.ref 3 0], none), (.dict [(b!"Length", .num (.ofInt 1))], some b!"x")] ∧
    let r := parse { input := some formFile, canCreate := fun _ => true, outExists := false } Concrete.ext (some false) 3 2 2 []
    (r.outcome, r.out.dumped.map (·.2)) = (.returned none, [[]]) := by decide +kernel

/-- contents.txt after the run for a file, if it returns without an error -/
def textOf (file : Bytes) : Option Bytes :=
  let r := parse { input := some file, canCreate := fun _ => true, outExists := false } Concrete.ext (some false) 3 2 2 []
  if r.outcome = .returned none then some r.out.text else none

/-- A page whose contents are given by reference to an array of one stream. -/
def contentsFile : Bytes := b!"1 0 obj<</Pages<</Contents 2 0 R>>>>endobj\n2 0 obj[3 0 R]endobj\n3 0 obj<</Length 12>>stream\nBT (B) Tj ET\nendstream endobj\n"
/-- The same with the array in its place. -/
def directFile : Bytes := b!"1 0 obj<</Pages<</Contents[3 0 R]>>>>endobj\n3 0 obj<</Length 12>>stream\nBT (B) Tj ET\nendstream endobj\n"

set_option maxRecDepth 100000 in
/-- **C68 fails** for contents in an array that is given by reference: the page has no text. -/
theorem C68_false : objectsIn contentsFile [1, 2] = some [(.dict [(b!"Pages", .dict [(b!"Contents", .ref 2 0)])], none), (.arr [.ref 3 0], none)] ∧
    objectsIn directFile [1] = some [(.dict [(b!"Pages", .dict [(b!"Contents", .arr [.ref 3 0])])], none)] ∧
    objectsIn contentsFile [3] = objectsIn directFile [3] ∧
    textOf contentsFile = some [] ∧ textOf directFile = some b!"B\n" := by decide +kernel

/-! ### Examples -/

/-- a resolver that reads from a view -/
def reader (v : View) : Resolver := fun n => pure ⟨n, 0, v.value n, v.stream n⟩

theorem reader_of (v : View) : v.Of (reader v) := by
  intro n s o s' h
  cases h
  exact ⟨rfl, rfl⟩

theorem reader_logFree (v : View) : ∀ n, LogFree (reader v n) := fun _ => LogFree.pure _

/-- Object 2 is a stream, object 3 a file specification. -/
def sample : View := ⟨fun n => if n = 3 then .dict [(b!"F", .str b!"f")] else .null, fun n => if n = 2 then some b!"<x/>" else none⟩

example (ext : Ext) : Adds (dictXfa ext (reader sample) [(b!"XFA", .ref 2 0)]) [.file (hexText (ext.md5 b!"<x/>")) b!"form.xml", .dump (hexText (ext.md5 b!"<x/>")) b!"<x/>"] :=
  C64_stream_partial (reader_of sample) (reader_logFree sample) rfl rfl
example (ext : Ext) : Adds (dictXfa ext (reader sample) [(b!"XFA", .arr [.ref 2 0, .str b!"a", .ref 2 0])])
    [.file (hexText (ext.md5 b!"<x/><x/>")) b!"form.xml", .dump (hexText (ext.md5 b!"<x/><x/>")) b!"<x/><x/>"] :=
  C64_array_partial (reader_of sample) (reader_logFree sample) rfl rfl

/-- what a run from the empty report adds to files.txt and urls.txt, if it returns -/
def filesAndUrls (x : X Unit) : Option (Bytes × Bytes) := match x ⟨PS.init, {}, .default⟩ with
  | .ok (_, s) => some (s.out.files, s.out.urls)
  | _ => none

/-- An embedded file given by name, one by reference, and one that has no value. -/
example : filesAndUrls (dictEmbedded Concrete.ext (reader sample) 2 [(b!"EmbeddedFiles", .dict [(b!"Names", .arr [.str b!"1", .str b!"a", .str b!"2", .ref 3 0, .str b!"3"])])]) =
    some (unknownHash ++ b!":a\n" ++ unknownHash ++ b!":f\n", []) := by decide +kernel
example : filesAndUrls (dictUrls (reader sample) 5 [(b!"URLS", .dict [(b!"Kids", .arr [.dict [(b!"Names", .arr [.str b!"1", .null])], .dict [(b!"Names", .arr [.str b!"2"])]])])]) =
    some ([], b!"1\n2\n") := by decide +kernel
example : filesAndUrls (dictActions Concrete.ext (reader sample) [(b!"A", .dict [(b!"F", .ref 3 0)]), (b!"AA", .dict [(b!"O", .dict [(b!"F", .str b!"o")]), (b!"C", .dict [(b!"F", .str b!"c")])])]) =
    some (unknownHash ++ b!":f\n" ++ unknownHash ++ b!":o\n" ++ unknownHash ++ b!":c\n", []) := by decide +kernel

end Pdf.Props
