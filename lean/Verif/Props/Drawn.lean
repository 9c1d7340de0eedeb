import Verif.Props.Inherited
import Verif.Spec.Drawn
/-!
C84 fails for strings at odd positions of `TJ` arrays; C101: text of forms that pages draw.
-/

namespace Pdf.Props
open Pdf Pdf.Spec

/-! ### Arrays of `TJ` -/

/-- A document with a page that shows two strings in an array. -/
def wordEdits : List Edit := [⟨[
  ⟨1, 0, .dict [(b!"Type", .name b!"Catalog"), (b!"Pages", .ref 2 0)], none⟩,
  ⟨2, 0, .dict [(b!"Kids", .arr [.ref 3 0])], none⟩,
  ⟨3, 0, .dict [(b!"Contents", .ref 4 0)], none⟩,
  ⟨4, 0, .dict [(b!"Length", .num (.fin 17))], some twoWords⟩], [0]⟩]

theorem wordEdits_check : documentB wordEdits = true := by decide +kernel

/-- The nodes of the page tree of the document. -/
theorem wordEdits_nodes {d page : Dict} (hd : DictIn (updatesOf 1 9 none wordEdits) d) (h : PageNode (viewOf wordEdits) d page) :
    page = [(b!"Kids", .arr [.ref 3 0])] ∨ page = [(b!"Contents", .ref 4 0)] := by
  induction h with
  | @root root hr =>
    left
    obtain ⟨n, p, hp, hd⟩ := hd
    rw [(document_of_check wordEdits_check Concrete.ext.toCodecs).2.2.2.2.2.2.2] at hp
    obtain ⟨o, ho, rfl⟩ := Option.map_eq_some_iff.1 hp
    obtain ⟨e, he, hoe⟩ := after_mem ho
    simp only [wordEdits, List.mem_singleton] at he
    subst he
    simp only [List.mem_cons, List.not_mem_nil, or_false] at hoe
    rcases hoe with rfl | rfl | rfl | rfl <;> simp [dictsOf, pieceOf, reread, dictsIn, dictsInValues, dictsInList] at hd
    · subst hd; cases hr; rfl
    · subst hd; cases hr
    · subst hd; cases hr
    · subst hd; cases hr
  | @kid node n g page _ hk hv ih =>
    rcases ih with rfl | rfl
    · have : kidsOf (viewOf wordEdits).value [(b!"Kids", .arr [.ref 3 0])] = [.ref 3 0] := rfl
      rw [this, List.mem_singleton] at hk
      cases hk
      right
      cases hv
      rfl
    · cases hk

/-- **C84 fails** for an array of `TJ` with two strings: the page shows `AB`, and contents.txt has no `B`. -/
theorem C84_false {sys : Sys} (ext : Ext) (hf : sys.input = some (fileText 1 wordEdits)) (hc : ∀ h, sys.canCreate h = true) (pw : Bytes) :
    ∃ us, docText docHead us = fileText 1 wordEdits ∧ Document ext.toCodecs docHead us ∧ RightTables (docText docHead us) docHead.length us ∧
      (∃ view d page fonts c, Means us view ∧ DictIn us d ∧ PageNode view d page ∧ PageFonts view page fonts ∧ c ∈ contents view page ∧ ShowsAll fonts c b!"AB\n") ∧
      ∃ r F, (∀ f fx ft, F ≤ f → F ≤ fx → F ≤ ft → parse sys ext (some true) f fx ft pw = r) ∧ 66 ∉ r.out.text := by
  obtain ⟨h1, h2, h3, h4, h5, h6, h7, h8⟩ := document_of_check wordEdits_check ext.toCodecs
  obtain ⟨r, F, g1, -, g2⟩ := C75_partial (v := true) (by rw [docText_updates]; exact hf) hc h1 h2 h3 h4 h5 h6 pw
  refine ⟨_, docText_updates 1 wordEdits, h1, h2, ⟨viewOf wordEdits, [(b!"Type", .name b!"Catalog"), (b!"Pages", .ref 2 0)], [(b!"Contents", .ref 4 0)], fun _ => none, twoWords,
    h7, ⟨1, _, by rw [h8]; rfl, List.mem_singleton.2 rfl⟩, .kid (n := 3) (g := 0) (.root rfl) (List.mem_singleton.2 rfl) rfl, fun k => Eq.mpr (if_neg ?_) rfl, List.mem_singleton.2 rfl,
    [.block [⟨b!"TJ", [.arr [.str b!"A", .str b!"B"]]⟩]], _, twoWords, [], (List.append_nil _).symm, Content.cons (Piece.Cmds.block (a := []) (b := [])) .nil,
    (by intro p hp; rw [List.mem_singleton] at hp; subst hp; intro c hc; rw [List.mem_singleton] at hc; subst hc; decide), twoWords_cmds, ⟨[], [], rfl, .nil, .inl rfl⟩,
    .block (l := b!"AB\n") (t := []) (.line (b := b!"AB") (l := b!"AB") (t := []) (by decide) ⟨[b!"A", b!"B"], [], by decide, by decide, by decide, by decide⟩ .nil) .nil⟩, r, F, g1, ?_⟩
  · show ¬ k ∈ Assoc.keys ([] : Dict)
    simp [Assoc.keys]
  · obtain ⟨ts, k1, k2⟩ := report_text_only g2 h7
    rw [k1]
    intro h
    obtain ⟨t, ht, h⟩ := List.mem_flatten.1 h
    obtain ⟨d, hd, page, hp, m, -, c, hc, e⟩ := k2 t ht
    rcases wordEdits_nodes hd hp with rfl | rfl
    · cases hc
    · cases List.mem_singleton.1 hc
      have : pageText m twoWords = .ok b!"A\n" := shows_text
        ⟨[.block [⟨b!"TJ", [.arr [.str b!"A", .str b!"B"]]⟩]], _, twoWords, [], (List.append_nil _).symm, Content.cons (Piece.Cmds.block (a := []) (b := [])) .nil,
          (by intro p hp; rw [List.mem_singleton] at hp; subst hp; intro c hc; rw [List.mem_singleton] at hc; subst hc; decide), twoWords_cmds, ⟨[], [], rfl, .nil, .inl rfl⟩,
          .block (l := b!"A\n") (t := []) (.line (b := b!"A") (l := b!"A") (t := []) (by decide) ⟨[b!"A"], [], by decide, by decide, by decide, by decide⟩ .nil) .nil⟩
      replace e : pageText m twoWords = .ok t := e
      rw [this] at e
      cases e
      revert h
      decide

/-! ### Forms -/

section
variable {sys : Sys} {P : Bytes} {us : List Update} {ext : Ext} {v : Bool}

/-- **C101 fails** for all documents whose pages show no text but that of the forms they draw: contents.txt is empty. -/
theorem C101_wrong (hf : sys.input = some (docText P us)) (hc : ∀ h, sys.canCreate h = true)
    (hd : Document ext.toCodecs P us) (hr : RightTables (docText P us) P.length us) (henc : trailerFor us b!"Encrypt" = none) (henc' : ∀ d, FirstDict us.tail d → d.get? b!"Encrypt" = none)
    (hk : KidsEnd us) (hs : StreamsLoad us) (pw : Bytes) :
    ∃ r F, (∀ f fx ft, F ≤ f → F ≤ fx → F ≤ ft → parse sys ext (some v) f fx ft pw = r) ∧ ∀ view, Means us view →
      (∀ d, DictIn us d → ∀ page, PageNode view d page → ∃ fonts, PageFonts view page fonts ∧ ∀ c ∈ contents view page, Shows fonts c []) → r.out.text = [] := by
  obtain ⟨r, F, h1, -, h2⟩ := C75_partial (v := v) hf hc hd hr henc henc' hk hs pw
  refine ⟨r, F, h1, fun view hv hw => ?_⟩
  obtain ⟨ts, h3, h4⟩ := report_text_only h2 hv
  rw [h3, List.flatten_eq_nil_iff]
  intro t ht
  obtain ⟨d, hd, page, hp, m, hm, c, hc, e⟩ := h4 t ht
  obtain ⟨fonts, hf, hs⟩ := hw d hd page hp
  have := pageFonts_eq hf hm
  subst this
  rw [shows_text (hs c hc)] at e
  cases e
  rfl

end

/-- A document with a page that draws a form. -/
def drawEdits : List Edit := [⟨[
  ⟨1, 0, .dict [(b!"Type", .name b!"Catalog"), (b!"Pages", .ref 2 0)], none⟩,
  ⟨2, 0, .dict [(b!"Kids", .arr [.ref 3 0])], none⟩,
  ⟨3, 0, .dict [(b!"Contents", .ref 4 0), (b!"Resources", .dict [(b!"XObject", .dict [(b!"X", .ref 5 0)])])], none⟩,
  ⟨4, 0, .dict [(b!"Length", .num (.fin 5))], some b!"/X Do"⟩,
  ⟨5, 0, .dict [(b!"Subtype", .name b!"Form"), (b!"Length", .num (.fin 14))], some b!"BT [(A)] TJ ET"⟩], [0]⟩]

theorem drawEdits_check : documentB drawEdits = true := by decide +kernel

/-- The nodes of the page tree of the document. -/
theorem drawEdits_nodes {d page : Dict} (hd : DictIn (updatesOf 1 9 none drawEdits) d) (h : PageNode (viewOf drawEdits) d page) :
    page = [(b!"Kids", .arr [.ref 3 0])] ∨ page = [(b!"Contents", .ref 4 0), (b!"Resources", .dict [(b!"XObject", .dict [(b!"X", .ref 5 0)])])] := by
  induction h with
  | @root root hr =>
    left
    obtain ⟨n, p, hp, hd⟩ := hd
    rw [(document_of_check drawEdits_check Concrete.ext.toCodecs).2.2.2.2.2.2.2] at hp
    obtain ⟨o, ho, rfl⟩ := Option.map_eq_some_iff.1 hp
    obtain ⟨e, he, hoe⟩ := after_mem ho
    simp only [drawEdits, List.mem_singleton] at he
    subst he
    simp only [List.mem_cons, List.not_mem_nil, or_false] at hoe
    rcases hoe with rfl | rfl | rfl | rfl | rfl <;> simp [dictsOf, pieceOf, reread, dictsIn, dictsInValues, dictsInList] at hd
    · subst hd; cases hr; rfl
    · subst hd; cases hr
    · rcases hd with rfl | rfl | rfl <;> cases hr
    · subst hd; cases hr
    · subst hd; cases hr
  | @kid node n g page _ hk hv ih =>
    rcases ih with rfl | rfl
    · have : kidsOf (viewOf drawEdits).value [(b!"Kids", .arr [.ref 3 0])] = [.ref 3 0] := rfl
      rw [this, List.mem_singleton] at hk
      cases hk
      right
      cases hv
      rfl
    · cases hk

theorem drawX_cmds : CmdsAt [⟨b!"Do", [.name b!"X"]⟩] b!"/X Do" [] :=
  .cons (u := []) (.arg (w := []) (t := b!"/X") (u := b!" Do") (e := []) .nil (.name (t := b!"X") (nameText_plain _ (by decide)) (by rintro b t ⟨⟩; decide)) (by rintro k ⟨⟩)
    (.op (w := [32]) (.ws (by decide) .nil) (.kw (b := 68) (k := [111]) (by decide) (by decide) (by decide) (by decide) (by decide) (by decide) (by rintro b t ⟨⟩)))) .nil

/-- **C101 fails** for a document with a page that draws a form: the form shows `A`, and contents.txt is empty. -/
theorem C101_false {sys : Sys} (ext : Ext) (hf : sys.input = some (fileText 1 drawEdits)) (hc : ∀ h, sys.canCreate h = true) (pw : Bytes) :
    ∃ us, docText docHead us = fileText 1 drawEdits ∧ Document ext.toCodecs docHead us ∧ RightTables (docText docHead us) docHead.length us ∧
      (∃ view d page form data fonts, Means us view ∧ DictIn us d ∧ PageNode view d page ∧ Draws view page form data ∧ ResourceFonts view (view.dict form b!"Resources") fonts ∧ Shows fonts data b!"A\n") ∧
      ∃ r F, (∀ f fx ft, F ≤ f → F ≤ fx → F ≤ ft → parse sys ext (some true) f fx ft pw = r) ∧ r.out.text = [] := by
  obtain ⟨h1, h2, h3, h4, h5, h6, h7, h8⟩ := document_of_check drawEdits_check ext.toCodecs
  obtain ⟨r, F, g1, g2⟩ := C101_wrong (v := true) (by rw [docText_updates]; exact hf) hc h1 h2 h3 h4 h5 h6 pw
  have hnone : ∀ k : Bytes, ¬ k ∈ Assoc.keys ([] : Dict) := by intro k; simp [Assoc.keys]
  refine ⟨_, docText_updates 1 drawEdits, h1, h2, ⟨viewOf drawEdits, [(b!"Type", .name b!"Catalog"), (b!"Pages", .ref 2 0)], _, _, b!"BT [(A)] TJ ET", fun _ => none,
    h7, ⟨1, _, by rw [h8]; rfl, List.mem_singleton.2 rfl⟩, .kid (n := 3) (g := 0) (.root rfl) (List.mem_singleton.2 rfl) rfl,
    ⟨b!"/X Do", List.mem_singleton.2 rfl, b!"X", ⟨_, b!"/X Do", [], (List.append_nil _).symm, drawX_cmds, ⟨[], [], rfl, .nil, .inl rfl⟩, List.mem_singleton.2 rfl⟩, _, _, rfl, rfl, rfl, rfl, rfl⟩,
    fun k => Eq.mpr (if_neg (hnone k)) rfl,
    [.block [⟨b!"TJ", [.arr [.str b!"A"]]⟩]], _, b!"BT [(A)] TJ ET", [], (List.append_nil _).symm, Content.cons (Piece.Cmds.block (a := []) (b := [])) .nil,
    (by intro p hp; rw [List.mem_singleton] at hp; subst hp; intro c hc; rw [List.mem_singleton] at hc; subst hc; decide), oneWord_cmds, ⟨[], [], rfl, .nil, .inl rfl⟩,
    .block (l := b!"A\n") (t := []) (.line (b := b!"A") (l := b!"A") (t := []) (by decide) ⟨[b!"A"], [], by decide, by decide, by decide, by decide⟩ .nil) .nil⟩, r, F, g1, g2 _ h7 ?_⟩
  intro d hd page hp
  refine ⟨fun _ => none, ?_⟩
  rcases drawEdits_nodes hd hp with rfl | rfl
  · exact ⟨fun k => Eq.mpr (if_neg (hnone k)) rfl, fun c hc => by cases hc⟩
  · refine ⟨fun k => Eq.mpr (if_neg (hnone k)) rfl, fun c hc => ?_⟩
    cases List.mem_singleton.1 hc
    exact ⟨[.cmd ⟨b!"Do", [.name b!"X"]⟩], _, b!"/X Do", [], (List.append_nil _).symm, .cons .cmd .nil, (by intro p hp; rw [List.mem_singleton] at hp; subst hp; show _ ≠ _; decide), drawX_cmds,
      ⟨[], [], rfl, .nil, .inl rfl⟩, .cmd .nil⟩

end Pdf.Props
