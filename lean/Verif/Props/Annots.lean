import Verif.Props.Urls
/-!
C88, C89: links and scripts of annotations, when the array of annotations of a page is an object of its own.
-/

namespace Pdf.Props
open Pdf Pdf.Spec

/-- A document with a page that has two annotations, a link and one with a script, in an array that is an object of its own. -/
def annotEdits : List Edit := [⟨[
  ⟨1, 0, .dict [(b!"Type", .name b!"Catalog"), (b!"Pages", .ref 2 0)], none⟩,
  ⟨2, 0, .dict [(b!"Kids", .arr [.ref 3 0])], none⟩,
  ⟨3, 0, .dict [(b!"Annots", .ref 4 0)], none⟩,
  ⟨4, 0, .arr [.dict [(b!"Subtype", .name b!"Link"), (b!"A", .dict [(b!"S", .name b!"URI"), (b!"URI", .str b!"http://x")])],
    .dict [(b!"Subtype", .name b!"Screen"), (b!"A", .dict [(b!"S", .name b!"JavaScript"), (b!"JS", .str b!"f;")])]], none⟩], [0]⟩]

theorem annotEdits_check : documentB annotEdits = true := by decide +kernel

/-- The dictionaries that are looked at. -/
theorem annotEdits_dicts {d : Dict} (h : DictIn (updatesOf 1 9 none annotEdits) d) :
    d = [(b!"Type", .name b!"Catalog"), (b!"Pages", .ref 2 0)] ∨ d = [(b!"Kids", .arr [.ref 3 0])] ∨ d = [(b!"Annots", .ref 4 0)] := by
  obtain ⟨n, p, hp, hd⟩ := h
  rw [(document_of_check annotEdits_check Concrete.ext.toCodecs).2.2.2.2.2.2.2] at hp
  obtain ⟨o, ho, rfl⟩ := Option.map_eq_some_iff.1 hp
  obtain ⟨e, he, hoe⟩ := after_mem ho
  simp only [annotEdits, List.mem_singleton] at he
  subst he
  simp only [List.mem_cons, List.not_mem_nil, or_false] at hoe
  rcases hoe with rfl | rfl | rfl | rfl
  · left; simpa [dictsOf, reread, dictsIn, dictsInValues, dictsInList] using hd
  · right; left; simpa [dictsOf, reread, dictsIn, dictsInValues, dictsInList] using hd
  · right; right; simpa [dictsOf, reread, dictsIn, dictsInValues, dictsInList] using hd
  · cases hd

/-- **C88 fails** for a link in an array of annotations that is an object of its own: urls.txt is empty. -/
theorem C88_array_false {sys : Sys} (ext : Ext) (hf : sys.input = some (fileText 1 annotEdits)) (hc : ∀ h, sys.canCreate h = true) (pw : Bytes) :
    ∃ us, docText docHead us = fileText 1 annotEdits ∧ Document ext.toCodecs docHead us ∧ RightTables (docText docHead us) docHead.length us ∧
      (∃ view n p d, Means us view ∧ meant us n = some p ∧ d ∈ dictsIn p.obj.value ∧ UrlIn ByName view d b!"http://x") ∧
      ∃ r F, (∀ f fx ft, F ≤ f → F ≤ fx → F ≤ ft → parse sys ext (some true) f fx ft pw = r) ∧ r.out.urls = [] := by
  obtain ⟨h1, h2, h3, h4, h5, h6, h7, h8⟩ := document_of_check annotEdits_check ext.toCodecs
  obtain ⟨r, F, g1, g2⟩ := C88_partial (v := true) (by rw [docText_updates]; exact hf) hc h1 h2 h3 h4 h5 h6 pw
  refine ⟨_, docText_updates 1 annotEdits, h1, h2, ⟨viewOf annotEdits, 4, _, [(b!"S", .name b!"URI"), (b!"URI", .str b!"http://x")], h7, by rw [h8]; rfl, ?_, .uri rfl⟩, r, F, g1, ?_⟩
  · simp [reread, dictsIn, dictsInList, dictsInValues]
  · obtain ⟨urls, k1, -, k2⟩ := g2 _ h7
    have hn : urls = [] := by
      rw [List.eq_nil_iff_forall_not_mem]
      intro u hu
      obtain ⟨d, h, hu⟩ := k2 (by
        intro d h root hr
        rcases annotEdits_dicts h with rfl | rfl | rfl <;> rcases hr with hr | hr <;> cases hr) u hu
      cases hu with
      | uri hu => rcases annotEdits_dicts h with rfl | rfl | rfl <;> cases hu
      | base hu _ => rcases annotEdits_dicts h with rfl | rfl | rfl <;> cases hu
      | tree hu _ _ _ _ => rcases annotEdits_dicts h with rfl | rfl | rfl <;> cases hu
      | @file f hf hs _ =>
        cases hf with
        | tree hf =>
          obtain ⟨hr, -, -, -, -⟩ := hf
          rcases annotEdits_dicts h with rfl | rfl | rfl <;> cases hr
        | @action a k ha hk hf =>
          cases ha with
          | action ha => rcases annotEdits_dicts h with rfl | rfl | rfl <;> cases ha
          | openAction ha => rcases annotEdits_dicts h with rfl | rfl | rfl <;> cases ha
          | additional ha _ _ => rcases annotEdits_dicts h with rfl | rfl | rfl <;> cases ha
    rw [k1, hn]
    rfl

/-- **C89 fails** for a script in an array of annotations that is an object of its own: javascript.js has nothing but empty lines. -/
theorem C89_false {sys : Sys} (ext : Ext) (hf : sys.input = some (fileText 1 annotEdits)) (hc : ∀ h, sys.canCreate h = true) (pw : Bytes) :
    ∃ us, docText docHead us = fileText 1 annotEdits ∧ Document ext.toCodecs docHead us ∧ RightTables (docText docHead us) docHead.length us ∧
      (∃ view n p d, Means us view ∧ meant us n = some p ∧ d ∈ dictsIn p.obj.value ∧ ScriptIn view d b!"f;") ∧
      ∃ r F, (∀ f fx ft, F ≤ f → F ≤ fx → F ≤ ft → parse sys ext (some true) f fx ft pw = r) ∧ ∀ b ∈ r.out.javascript, b = 10 := by
  obtain ⟨h1, h2, h3, h4, h5, h6, h7, h8⟩ := document_of_check annotEdits_check ext.toCodecs
  obtain ⟨r, F, g1, g2⟩ := C89_partial (v := true) (by rw [docText_updates]; exact hf) hc h1 h2 h3 h4 h5 h6 pw
  refine ⟨_, docText_updates 1 annotEdits, h1, h2, ⟨viewOf annotEdits, 4, _, [(b!"S", .name b!"JavaScript"), (b!"JS", .str b!"f;")], h7, by rw [h8]; rfl, ?_, .string rfl⟩, r, F, g1, ?_⟩
  · simp [reread, dictsIn, dictsInList, dictsInValues]
  · obtain ⟨scripts, k1, -, k2⟩ := g2 _ h7
    intro b hb
    rw [k1] at hb
    obtain ⟨js, hj, hb⟩ := List.mem_flatMap.1 hb
    rcases k2 js hj with rfl | ⟨d, h, hs⟩
    · simpa using hb
    · cases hs with
      | string hs => rcases annotEdits_dicts h with rfl | rfl | rfl <;> cases hs
      | stream hs _ _ => rcases annotEdits_dicts h with rfl | rfl | rfl <;> cases hs

end Pdf.Props
