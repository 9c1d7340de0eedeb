import Verif.Props.RawAll
import Verif.Props.Stored
import Verif.Props.Packed
/-!
C85, C94, C102: raw.pdf of a file that was written as a history of edits; where files are not read as they were written.
-/

namespace Pdf.Props
open Pdf Pdf.Spec

section
variable {root : Nat} {es : List Edit} {ext : Ext} (hr : root < 2 ^ 53) (hne : Begins es) (hfit : TablesFit root 9 none es) (hlen : (fileText root es).length < 2 ^ 53)
include hr hne hfit hlen

/-- **C85, partial** raw.pdf has the objects that there are after the last edit, each once, and nothing else. Missing: as for `C85_report_partial`. -/
theorem C85_raw_partial {sys : Sys} {v : Bool} (he : ∀ e ∈ es, e.Writable) (hf : sys.input = some (fileText root es)) (hc : ∀ h, sys.canCreate h = true)
    (hk : ∀ n o, after es n = some o → ∀ d ∈ dictsIn o.value, ∀ m g, d.get? b!"Kids" ≠ some (.ref m g)) (hs : ∀ n o, after es n = some o → ∀ data, (reread o).stream = some data → ∃ font, newFont data = .ok font) (pw : Bytes) :
    ∃ r F, (∀ f fx ft, F ≤ f → F ≤ fx → F ≤ ft → parse sys ext (some v) f fx ft pw = r) ∧
      ∃ ps : List (Int × IndObj), (ps.map (·.1)).Nodup ∧ (∀ n o', (n, o') ∈ ps ↔ ∃ o, after es n = some o ∧ reread o = o') ∧ Printed (ps.map (·.2)) r.out.raw := by
  have hd := edits_document (cd := ext.toCodecs) hr hne he hfit hlen
  have hR : RightTables (docText docHead (updatesOf root 9 none es)) docHead.length (updatesOf root 9 none es) := (rightTables_plain (updatesOf_linear root 9 es)).2 (edits_right es he _ _)
  have henc : trailerFor (updatesOf root 9 none es) b!"Encrypt" = none := edits_trailer (by decide) es hne.ne 9
  obtain ⟨r, F, h1, h2⟩ := C102_partial (v := v) (by rw [docText_updates]; exact hf) hc hd hR henc (edits_first_tail he) (by
    refine KidsInPlace.ends fun n p hp => ?_
    rw [edits_means he] at hp
    obtain ⟨o, ho, rfl⟩ := Option.map_eq_some_iff.1 hp
    exact hk n o ho) (by
    intro n p hp
    rw [edits_means he] at hp
    obtain ⟨o, ho, rfl⟩ := Option.map_eq_some_iff.1 hp
    exact hs n o ho) pw
  obtain ⟨view, hv, -⟩ := C75_means (updatesOf root 9 none es)
  obtain ⟨ps, k1, k2, k3⟩ := h2 view hv
  refine ⟨r, F, h1, ps, k1, fun n o' => ?_, k3⟩
  rw [k2]
  constructor
  · rintro ⟨p, hp, rfl⟩
    rw [edits_means he] at hp
    obtain ⟨o, ho, rfl⟩ := Option.map_eq_some_iff.1 hp
    exact ⟨o, ho, rfl⟩
  · rintro ⟨o, ho, rfl⟩
    exact ⟨pieceOf o, by rw [edits_means he, ho]; rfl, rfl⟩

/-- **C94, partial** raw.pdf has the objects that there are after the last edit, each once, with the data that their streams encode, and nothing else.
Missing: as for `C94_report_partial`. -/
theorem C94_raw_partial {sys : Sys} {v : Bool} (hl : ext.lzw = lzwReader) (hz : ext.zlib = zlibReader) (he : ∀ e ∈ es, e.Stored) (hdata : ∀ e ∈ es, ∀ o ∈ e.puts, ∃ o', DataOf o o') (hf : sys.input = some (fileText root es)) (hc : ∀ h, sys.canCreate h = true)
    (hk : ∀ n o, after es n = some o → ∀ d ∈ dictsIn o.value, ∀ m g, d.get? b!"Kids" ≠ some (.ref m g)) (hs : ∀ n o, after es n = some o → ∀ o', DataOf o o' → ∀ data, o'.stream = some data → ∃ font, newFont data = .ok font) (pw : Bytes) :
    ∃ r F, (∀ f fx ft, F ≤ f → F ≤ fx → F ≤ ft → parse sys ext (some v) f fx ft pw = r) ∧
      ∃ ps : List (Int × IndObj), (ps.map (·.1)).Nodup ∧ (∀ n o', (n, o') ∈ ps ↔ ∃ o, after es n = some o ∧ DataOf o o') ∧ Printed (ps.map (·.2)) r.out.raw := by
  have hd := coded_document hl hz hr hne he hdata hfit hlen
  have hR : RightTables (docText docHead (updatesBy dataOf root 9 none es)) docHead.length (updatesBy dataOf root 9 none es) := (rightTables_plain (updatesBy_linear root 9 es)).2 (stored_right es he _ _)
  have henc : trailerFor (updatesBy dataOf root 9 none es) b!"Encrypt" = none := stored_trailer (by decide) es hne.ne 9
  have hin : ∀ n o, after es n = some o → ∃ o', DataOf o o' := fun n o ho => let ⟨e, h1, h2, _⟩ := after_put ho; hdata e h1 o h2
  obtain ⟨r, F, h1, h2⟩ := C102_partial (v := v) (by rw [docText_updatesBy]; exact hf) hc hd hR henc (stored_first_tail he) (by
    refine KidsInPlace.ends fun n p hp => ?_
    rw [stored_means he] at hp
    obtain ⟨o, ho, rfl⟩ := Option.map_eq_some_iff.1 hp
    show ∀ d ∈ dictsIn (dataOf o).value, _
    rw [(dataOf_keeps o).2.2]
    exact hk n o ho) (by
    intro n p hp
    rw [stored_means he] at hp
    obtain ⟨o, ho, rfl⟩ := Option.map_eq_some_iff.1 hp
    exact hs n o ho _ (dataOf_spec (hin n o ho))) pw
  obtain ⟨view, hv, -⟩ := C75_means (updatesBy dataOf root 9 none es)
  obtain ⟨ps, k1, k2, k3⟩ := h2 view hv
  refine ⟨r, F, h1, ps, k1, fun n o' => ?_, k3⟩
  rw [k2]
  constructor
  · rintro ⟨p, hp, rfl⟩
    rw [stored_means he] at hp
    obtain ⟨o, ho, rfl⟩ := Option.map_eq_some_iff.1 hp
    exact ⟨o, ho, dataOf_spec (hin n o ho)⟩
  · rintro ⟨o, ho, hoo⟩
    exact ⟨pieceBy dataOf o, by rw [stored_means he, ho]; rfl, dataOf_eq hoo⟩

end

/-- The document in two edits: raw.pdf has the new content of the page and not the old one, and not the object that was freed. -/
example (sys : Sys) (ext : Ext) (hf : sys.input = some (fileText 1 pageEdits)) (hc : ∀ h, sys.canCreate h = true) (pw : Bytes) :
    ∃ r F, (∀ f fx ft, F ≤ f → F ≤ fx → F ≤ ft → parse sys ext (some true) f fx ft pw = r) ∧
      ∃ ps : List (Int × IndObj), (ps.map (·.1)).Nodup ∧ Printed (ps.map (·.2)) r.out.raw ∧ (4, (⟨4, 0, .dict [(b!"Length", .num (.fin 22))], some codeShown⟩ : IndObj)) ∈ ps ∧ ∀ o, (7, o) ∉ ps := by
  obtain ⟨r, F, h1, ps, h2, h3, h4⟩ := C85_raw_partial (v := true) (ext := ext) (root := 1) (by decide) pageEdits_begins pageEdits_fit pageEdits_length pageEdits_writable hf hc pageEdits_kids pageEdits_streams pw
  refine ⟨r, F, h1, ps, h2, h4, (h3 _ _).2 ⟨_, rfl, rfl⟩, fun o ho => ?_⟩
  obtain ⟨o', k, -⟩ := (h3 _ _).1 ho
  cases (show after pageEdits 7 = none from rfl).symm.trans k

/-! ### Where it fails -/

/-- A stream whose data ends in a carriage return. -/
def crEdits : List Edit := [⟨[⟨1, 0, .dict [(b!"Type", .name b!"Catalog")], none⟩, ⟨2, 0, .dict [(b!"Length", .num (.fin 4))], some b!"abc\r"⟩], [0]⟩]

theorem crEdits_writable : ∀ e ∈ crEdits, e.Writable := by
  have : ∀ e ∈ crEdits, writableB e = true := by decide +kernel
  exact fun e he => writable_of_check (this e he)

/-- **C85** is false for streams whose data ends in a carriage return: it is read without it, whatever /Length says. -/
theorem C85_false (ext : Ext) (verbose : Option Bool) (ord : Order) (pw : Bytes) : ∃ es, Begins es ∧ (∀ e ∈ es, e.Writable) ∧ TablesFit 1 9 none es ∧
    after es 2 = some ⟨2, 0, .dict [(b!"Length", .num (.fin 4))], some b!"abc\r"⟩ ∧
    ∃ ls, load ⟨fileText 1 es, ext, verbose⟩ ord 1 1 pw LS.init = .ok (none, ls) ∧
      ∀ f s, ∃ s', getObject (ls.env ⟨fileText 1 es, ext, verbose⟩) f 2 s = .ok (⟨2, 0, .dict [(b!"Length", .num (.fin 4))], some b!"abc"⟩, s') := by
  have hfit : TablesFit 1 9 none crEdits := ⟨by decide +kernel, trivial⟩
  have hb : Begins crEdits := ⟨_, _, rfl, by simp⟩
  obtain ⟨ls, h1, -, h2, -⟩ := C85_partial (ext := ext) (root := 1) (by decide) hb crEdits_writable hfit (by decide +kernel) verbose ord 0 1 (by decide) pw
  exact ⟨crEdits, hb, crEdits_writable, hfit, rfl, ls, h1, fun f s => let ⟨s', h, _⟩ := h2 2 _ rfl f s; ⟨s', h⟩⟩

/-- A second edit with an object that has a key /Encrypt. -/
def keyEdits : List Edit := [⟨[⟨1, 0, .dict [(b!"Type", .name b!"Catalog")], none⟩], [0]⟩, ⟨[⟨2, 0, .dict [(b!"Encrypt", .str b!"no")], none⟩], []⟩]

set_option maxRecDepth 100000 in
/-- **C85** is false for edits whose first object has a key /Encrypt: the file, which is not encrypted, is refused as encrypted. -/
theorem C85_encrypt_false : ∃ es, Begins es ∧ (∀ e ∈ es, (∀ o ∈ e.puts, Reprintable o ∧ NotXref o ∧ o.number < 2 ^ 62 ∧ Lacks b!"xref" o.toBytes) ∧ ∀ n ∈ e.frees, n < 2 ^ 62) ∧ TablesFit 1 9 none es ∧
    ∃ e ls, load ⟨fileText 1 es, Concrete.ext, some false⟩ default 3 5 [] LS.init = .ok (some e, ls) := by
  have hw : ∀ e ∈ keyEdits, (∀ o ∈ e.puts, writableObjB o = true) ∧ ∀ n ∈ e.frees, n < 2 ^ 62 := by decide +kernel
  refine ⟨keyEdits, ⟨_, _, rfl, by simp⟩, fun e he => ⟨fun o ho => writableObj_of_check ((hw e he).1 o ho), (hw e he).2⟩, ⟨by decide +kernel, by decide +kernel, trivial⟩, ?_⟩
  have h : (match load ⟨fileText 1 keyEdits, Concrete.ext, some false⟩ default 3 5 [] LS.init with
      | .ok (e, _) => e.isSome | _ => false) = true := by decide +kernel
  generalize load ⟨fileText 1 keyEdits, Concrete.ext, some false⟩ default 3 5 [] LS.init = r at h ⊢
  match r, h with
  | .ok (some e, ls), _ => exact ⟨e, ls, rfl⟩

def crDict : Dict := [(b!"Filter", .name b!"RunLengthDecode"), (b!"Length", .num (.fin 3))]

/-- A stream whose encoding ends in a carriage return. -/
def crRuns : List Edit := [⟨[⟨1, 0, .dict [(b!"Type", .name b!"Catalog")], none⟩, ⟨2, 0, .dict crDict, some [1, 65, 13]⟩], [0]⟩]

set_option maxRecDepth 100000 in
/-- **C94** is false for encodings that end in a carriage return: of the two bytes `A` and carriage return, as one run, only the first is read. -/
theorem C94_false : ∃ es o, Begins es ∧ (∀ e ∈ es, e.Stored) ∧ TablesFit 1 9 none es ∧ after es 2 = some ⟨2, 0, .dict crDict, some o⟩ ∧
    Filters crDict [b!"RunLengthDecode"] ∧ Spec.Parms crDict [] ∧ CodedBy [b!"RunLengthDecode"] [] b!"A\r" o ∧
    ∃ ls, load ⟨fileText 1 es, Concrete.ext, some false⟩ default 3 5 [] LS.init = .ok (none, ls) ∧
      ∃ s', getObject (ls.env ⟨fileText 1 es, Concrete.ext, some false⟩) 3 2 PS.init = .ok (⟨2, 0, .dict crDict, some b!"A"⟩, s') := by
  have hw : ∀ e ∈ crRuns, storedB e = true := by decide +kernel
  refine ⟨crRuns, [1, 65, 13], ⟨_, _, rfl, by simp⟩, fun e he => stored_of_check (hw e he), ⟨by decide +kernel, trivial⟩, rfl, .one rfl, .none rfl,
    .cons (mid := b!"A\r") (.runs (rs := [.lit [65, 13]]) (by simp [Run.Valid])) .nil, ?_⟩
  have h : (match load ⟨fileText 1 crRuns, Concrete.ext, some false⟩ default 3 5 [] LS.init with
      | .ok (none, ls) => (match getObject (ls.env ⟨fileText 1 crRuns, Concrete.ext, some false⟩) 3 2 PS.init with
        | .ok (o, _) => decide (o = ⟨2, 0, .dict crDict, some b!"A"⟩)
        | _ => false)
      | _ => false) = true := by decide +kernel
  generalize load ⟨fileText 1 crRuns, Concrete.ext, some false⟩ default 3 5 [] LS.init = r at h ⊢
  match r, h with
  | .ok (none, ls), h =>
    refine ⟨ls, rfl, ?_⟩
    dsimp only at h
    generalize getObject (ls.env ⟨fileText 1 crRuns, Concrete.ext, some false⟩) 3 2 PS.init = q at h ⊢
    match q, h with
    | .ok (o, s'), h => exact ⟨s', by rw [of_decide_eq_true h]⟩

set_option maxRecDepth 100000 in
/-- **C102** is false for objects in object streams: raw.pdf has no object 2, which the document has. -/
theorem C102_false : ∃ (P : Bytes) (us : List Update) (o : Obj), Document Concrete.ext.toCodecs P us ∧ RightTables (docText P us) P.length us ∧ trailerFor us b!"Encrypt" = none ∧ InStream us 2 o ∧
    (let r := parse { input := some (docText P us), canCreate := fun _ => true, outExists := false } Concrete.ext (some false) 3 3 3 []
     r.outcome = .returned none ∧ Lacks b!"2 0 obj" r.out.raw) := by
  refine ⟨docHead, [packUpdate], packed, pack_document _, (rightTables_plain (by decide)).2 ⟨rightTable_dec (by decide +kernel) (by decide), trivial⟩, by decide, packed_inStream, by decide +kernel, lacks_dec (by decide +kernel)⟩

/-- The encrypted document: raw.pdf has its objects, the URI decrypted. -/
example (sys : Sys) (hf : sys.input = some (docText docHead [secretUpdate])) (hc : ∀ h, sys.canCreate h = true) :
    ∃ r F, (∀ f fx ft, F ≤ f → F ≤ fx → F ≤ ft → parse sys Concrete.ext (some true) f fx ft b!"pw" = r) ∧
      ∃ ps : List (Int × IndObj), (ps.map (·.1)).Nodup ∧ (∃ o, (2, o) ∈ ps ∧ o.value = .dict [(b!"URI", .str b!"http://x")]) ∧ Printed (ps.map (·.2)) r.out.raw := by
  obtain ⟨h1, h2, h3, h4, h5, h6, -, h8, h9, h10⟩ := secret_document
  obtain ⟨r, F, g1, g2⟩ := C102_secret_partial (v := true) hf hc h1 h2 h3 h4 h5 h6 h8 h9 h10
  obtain ⟨view, hv, -⟩ := C75_means [secretUpdate]
  obtain ⟨ps, k1, k2, k3⟩ := g2 view hv
  exact ⟨r, F, g1, ps, k1, ⟨_, (k2 2 _).2 ⟨secretUpdate.parts[1], by rfl, rfl⟩, by decide⟩, k3⟩

end Pdf.Props
