import Verif.Props.Urls
import Verif.Props.Pages
import Verif.Spec.Inherited
/-!
C99: text is shown in the fonts of the page's resources, its own or those of the nodes above it. C100: contents.txt has nothing but
the text of pages.
-/

namespace Pdf.Props
open Pdf Pdf.Spec

/-! ### The nodes of the page tree -/

theorem ref_mem {l : List Obj} {n : Int} (h : n ∈ refs l) : ∃ g, .ref n g ∈ l := by
  induction l with
  | nil => cases h
  | cons o t ih =>
    cases o with
    | ref m g =>
      simp only [refs, List.mem_cons] at h
      rcases h with rfl | h
      · exact ⟨g, List.mem_cons_self ..⟩
      · obtain ⟨g, h⟩ := ih h; exact ⟨g, List.mem_cons_of_mem _ h⟩
    | _ =>
      obtain ⟨g, h⟩ := ih (by simpa [refs] using h)
      exact ⟨g, List.mem_cons_of_mem _ h⟩

/-- The pages that are reported are nodes of the page tree. -/
theorem pages_node {v : View} {d page : Dict} {l : List Dict} (hl : Pages v d b!"Pages" l) (h : page ∈ l) : PageNode v d page := by
  rw [Pages] at hl
  cases hr : v.dict d b!"Pages" with
  | none => simp only [hr] at hl; subst hl; cases h
  | some root =>
    simp only [hr] at hl
    obtain ⟨ns, h1, rfl⟩ := hl
    rcases List.mem_cons.1 h with rfl | h
    · exact .root hr
    · obtain ⟨n, hn, hp⟩ := List.mem_filterMap.1 h
      have key : ∀ n, Reach (nextOf v.value) (refs (kidsOf v.value root)) n → ∀ page, asDict (v.value n) = some page → PageNode v d page := by
        intro n hn
        induction hn with
        | start hs =>
          intro page hp
          obtain ⟨g, hg⟩ := ref_mem hs
          cases hv : v.value _ <;> rw [hv] at hp <;> cases hp
          exact .kid (.root hr) hg hv
        | @step n m _ hm ih =>
          intro page hp
          rw [nextOf] at hm
          cases hv : v.value n with
          | dict node =>
            simp only [hv] at hm
            obtain ⟨g, hg⟩ := ref_mem hm
            cases hv' : v.value m <;> rw [hv'] at hp <;> cases hp
            exact .kid (ih node (by rw [hv]; rfl)) hg hv'
          | _ => simp [hv] at hm
      exact key n ((h1.mem_iff n).1 hn) page hp

theorem resourcesAt_node {v : View} {d page : Dict} {res : Option Dict} (h : ResourcesAt v d page res) : PageNode v d page := by
  induction h with
  | root h => exact .root h
  | kid _ h1 h2 ih => exact .kid ih h1 h2

/-! ### Nothing but text -/

theorem fileReport_text {ext : Ext} {v : View} {b : Bool} {f : Dict} {t : Bytes} : .text t ∉ fileReport ext v b f := by
  rw [fileReport]
  split
  · simp
  · split
    · simp [dumped]
    · simp
    · cases b <;> simp
    · simp

theorem actionReport_text {ext : Ext} {v : View} {a : Dict} {t : Bytes} : .text t ∉ actionReport ext v a := by
  rw [actionReport, List.mem_append, not_or]
  constructor
  · split
    · simp
    · exact fileReport_text
    · simp
  · intro h
    obtain ⟨f, -, h⟩ := List.mem_flatMap.1 h
    exact fileReport_text h

theorem reported_text {ext : Ext} {v : View} {d : Dict} {part : List Write} {t : Bytes} (hp : Reports ext v d part) (h : .text t ∈ part) :
    ∃ pages texts, Pages v d b!"Pages" pages ∧ Texts v pages texts ∧ t ∈ texts := by
  obtain ⟨aa, embedded, urls, pages, texts, h1, -, -, h2, h3, rfl⟩ := hp
  simp only [List.mem_append] at h
  rcases h with (((((((h | h) | h) | h) | h) | h) | h) | h) | h
  · obtain ⟨a, -, h⟩ := List.mem_flatMap.1 h
    exact absurd h actionReport_text
  · obtain ⟨a, -, h⟩ := List.mem_flatMap.1 h
    exact absurd h actionReport_text
  · obtain ⟨e, -, h⟩ := List.mem_flatMap.1 (h1.mem_iff.1 h)
    obtain ⟨k, -, h⟩ := List.mem_flatMap.1 h
    obtain ⟨a, -, h⟩ := List.mem_flatMap.1 h
    exact absurd h actionReport_text
  · rw [formReport] at h
    split at h <;> simp [dumped] at h
  · rw [embeddedReport] at h
    obtain ⟨o, -, h⟩ := List.mem_flatMap.1 h
    split at h
    · simp at h
    · exact absurd h fileReport_text
    · cases h
  · rw [scriptReport] at h
    split at h <;> simp at h
  · obtain ⟨u, hu, h⟩ := List.mem_map.1 h
    cases h
    exact ⟨pages, texts, h2, h3, hu⟩
  · rw [uriReport] at h
    split at h <;> simp at h
  · rw [urlsReport] at h
    obtain ⟨o, -, h⟩ := List.mem_flatMap.1 h
    split at h <;> simp at h

/-- A text of a page is what one of its content streams shows. -/
theorem texts_stream {v : View} {pages : List Dict} {ts : List Bytes} (h : Texts v pages ts) {t : Bytes} (ht : t ∈ ts) :
    ∃ page ∈ pages, ∃ m, Fonts v page m ∧ ∃ c ∈ contents v page, pageText m c = .ok t := by
  induction h with
  | nil => cases ht
  | @page q r m us vs g1 g2 g3 ih =>
    rcases List.mem_append.1 ht with ht | ht
    · have : Res.ok t ∈ (contents v q).map (pageText m) := by rw [g2]; exact List.mem_map_of_mem ht
      obtain ⟨c, hc, e⟩ := List.mem_map.1 this
      exact ⟨q, List.mem_cons_self .., m, g1, c, hc, e⟩
    · obtain ⟨page, hp, rest⟩ := ih ht
      exact ⟨page, List.mem_cons_of_mem _ hp, rest⟩

/-- The texts among the writes. -/
def textsOf (ws : List Write) : List Bytes := ws.filterMap fun w => match w with | .text b => some b | _ => none

/-- contents.txt holds the texts of the pages' content streams. -/
theorem report_text_only {us : List Update} {ext : Ext} {r : ParseResult} (h2 : ∀ view, Means us view → ∃ l ws, l.Nodup ∧ (∀ n, n ∈ l ↔ (meant us n).isSome) ∧ Holds r.out ws ∧
      Parts (fun n part => ∃ p, meant us n = some p ∧ ObjectReport ext view p.obj part) l (visible ws)) {view : View} (hv : Means us view) :
    ∃ ts : List Bytes, r.out.text = ts.flatten ∧ ∀ t ∈ ts, ∃ d, DictIn us d ∧ ∃ page, PageNode view d page ∧ ∃ m, Fonts view page m ∧ ∃ c ∈ contents view page, pageText m c = .ok t := by
  obtain ⟨l, ws, -, h3, h4, h5⟩ := h2 view hv
  refine ⟨textsOf ws, ?_, fun t ht => ?_⟩
  · rw [h4.text, textsOf]
    clear h4 h5
    induction ws with
    | nil => rfl
    | cons w ws ih =>
      rw [List.flatMap_cons, ih]
      cases w <;> simp [Write.contentsTxt]
  · obtain ⟨w, hw, he⟩ := List.mem_filterMap.1 ht
    cases w with
    | text b =>
      cases he
      obtain ⟨n, p, hm, d, hd, part, hp, hw⟩ := written_iff h3 h5 (by simp [Write.kind]) (by simp [Write.kind]) hw
      obtain ⟨pages, texts, k1, k2, k3⟩ := reported_text hp hw
      obtain ⟨page, q1, q2⟩ := texts_stream k2 k3
      exact ⟨d, ⟨n, p, hm, hd⟩, page, pages_node k1 q1, q2⟩
    | _ => cases he

/-- The same in terms of what content streams show. -/
theorem report_shows {us : List Update} {ext : Ext} {r : ParseResult} (h2 : ∀ view, Means us view → ∃ l ws, l.Nodup ∧ (∀ n, n ∈ l ↔ (meant us n).isSome) ∧ Holds r.out ws ∧
      Parts (fun n part => ∃ p, meant us n = some p ∧ ObjectReport ext view p.obj part) l (visible ws)) {view : View} (hv : Means us view)
    (hw : ∀ d, DictIn us d → ∀ page, PageNode view d page → ∃ fonts, PageFonts view page fonts ∧ ∀ c ∈ contents view page, ∃ l, Shows fonts c l) :
    ∃ ts : List Bytes, r.out.text = ts.flatten ∧ ∀ t ∈ ts, ∃ d, DictIn us d ∧ ∃ page fonts c, PageNode view d page ∧ PageFonts view page fonts ∧ c ∈ contents view page ∧ Shows fonts c t := by
  obtain ⟨ts, h3, h4⟩ := report_text_only h2 hv
  refine ⟨ts, h3, fun t ht => ?_⟩
  obtain ⟨d, hd, page, hp, m, hm, c, hc, e⟩ := h4 t ht
  obtain ⟨fonts, hf, hs⟩ := hw d hd page hp
  obtain ⟨l, hl⟩ := hs c hc
  refine ⟨d, hd, page, fonts, c, hp, hf, hc, ?_⟩
  have := pageFonts_eq hf hm
  subst this
  rw [shows_text hl] at e
  cases e
  exact hl

section
variable {sys : Sys} {P : Bytes} {us : List Update} {ext : Ext} {v : Bool}

/-- **C100, partial** contents.txt has nothing but what content streams of the pages show, each in the fonts of the page's own resources. Missing: as for `C84_partial`;
documents with content streams that are not sequences of operators. -/
theorem C100_partial (hf : sys.input = some (docText P us)) (hc : ∀ h, sys.canCreate h = true)
    (hd : Document ext.toCodecs P us) (hr : RightTables (docText P us) P.length us) (henc : trailerFor us b!"Encrypt" = none) (henc' : ∀ d, FirstDict us.tail d → d.get? b!"Encrypt" = none)
    (hk : KidsEnd us) (hs : StreamsLoad us) (pw : Bytes) :
    ∃ r F, (∀ f fx ft, F ≤ f → F ≤ fx → F ≤ ft → parse sys ext (some v) f fx ft pw = r) ∧ ∀ view, Means us view →
      (∀ d, DictIn us d → ∀ page, PageNode view d page → ∃ fonts, PageFonts view page fonts ∧ ∀ c ∈ contents view page, ∃ l, Shows fonts c l) →
      ∃ ts : List Bytes, r.out.text = ts.flatten ∧ ∀ t ∈ ts, ∃ d, DictIn us d ∧ ∃ page fonts c, PageNode view d page ∧ PageFonts view page fonts ∧ c ∈ contents view page ∧ Shows fonts c t := by
  obtain ⟨r, F, h1, -, h2⟩ := C75_partial (v := v) hf hc hd hr henc henc' hk hs pw
  exact ⟨r, F, h1, fun view hv hw => report_shows h2 hv hw⟩

/-- **C100, partial** The same for encrypted documents, with the user password. Missing: as for `C76_report_partial` and `C100_partial`. -/
theorem C100_secret_partial {c : Secrecy} {skip : Option Int} {enc : Dict} {sd : StdDict} {pw : Bytes} (hf : sys.input = some (docText P us)) (hc : ∀ h, sys.canCreate h = true)
    (hd : Document (Reading.secret ext.md5 rc4 ext.toCodecs c skip) P us) (hr : RightTables (docText P us) P.length us) (ht : Typed us) (he : EncryptAt us enc skip) (hs : StdEntries us enc sd)
    (hp : UserPassword ext.md5 rc4 sd pw) (hk : Keys ext.md5 enc sd pw c) (hki : KidsEnd us) (hst : StreamsLoad us) :
    ∃ r F, (∀ f fx ft, F ≤ f → F ≤ fx → F ≤ ft → parse sys ext (some v) f fx ft pw = r) ∧ ∀ view, Means us view →
      (∀ d, DictIn us d → ∀ page, PageNode view d page → ∃ fonts, PageFonts view page fonts ∧ ∀ c ∈ contents view page, ∃ l, Shows fonts c l) →
      ∃ ts : List Bytes, r.out.text = ts.flatten ∧ ∀ t ∈ ts, ∃ d, DictIn us d ∧ ∃ page fonts c, PageNode view d page ∧ PageFonts view page fonts ∧ c ∈ contents view page ∧ Shows fonts c t := by
  obtain ⟨r, F, h1, -, h2, -⟩ := C76_report_partial (v := v) hf hc hd hr ht he hs hp hk hki hst
  exact ⟨r, F, h1, fun view hv hw => report_shows h2 hv hw⟩

/-- **C99, partial** Text is shown in the fonts of the page's resources if the page has resources of its own, or no node above it has any. Missing: pages that
have their resources from a node above (`C99_false`); as for `C84_partial`. -/
theorem C99_partial (hf : sys.input = some (docText P us)) (hc : ∀ h, sys.canCreate h = true)
    (hd : Document ext.toCodecs P us) (hr : RightTables (docText P us) P.length us) (henc : trailerFor us b!"Encrypt" = none) (henc' : ∀ d, FirstDict us.tail d → d.get? b!"Encrypt" = none)
    (hk : KidsEnd us) (hs : StreamsLoad us) (pw : Bytes) :
    ∃ r F, (∀ f fx ft, F ≤ f → F ≤ fx → F ≤ ft → parse sys ext (some v) f fx ft pw = r) ∧ ∀ view, Means us view → ∀ d, DictIn us d →
      ∀ page res fonts c l, ResourcesAt view d page res → (view.dict page b!"Resources").isSome ∨ res = none → ResourceFonts view res fonts → c ∈ contents view page → Shows fonts c l →
        ∃ a b, r.out.text = a ++ (l ++ b) := by
  obtain ⟨r, F, h1, h2⟩ := C84_partial (v := v) hf hc hd hr henc henc' hk hs pw
  refine ⟨r, F, h1, ?_⟩
  rintro view hv d ⟨n, p, hm, hdp⟩ page res fonts c l h3 h4 h5 h6 h7
  refine h2 view hv n p hm d hdp page fonts c l (resourcesAt_node h3) ?_ h6 h7
  have : res.getD [] = (view.dict page b!"Resources").getD [] := by
    cases h3 with
    | root => rfl
    | kid =>
      cases hr : view.dict page b!"Resources" with
      | some x => simp
      | none =>
        rw [hr] at h4
        rcases h4 with h4 | h4
        · cases h4
        · rw [h4]
  unfold ResourceFonts at h5
  rw [this] at h5
  exact h5

end

/-! ### A document -/

/-- A document with one page, which has its resources from the node above it. -/
def inheritEdits : List Edit := [⟨[
  ⟨1, 0, .dict [(b!"Type", .name b!"Catalog"), (b!"Pages", .ref 2 0)], none⟩,
  ⟨2, 0, .dict [(b!"Kids", .arr [.ref 3 0]), (b!"Resources", .dict [(b!"Font", .dict [(b!"F", .ref 5 0)])])], none⟩,
  ⟨3, 0, .dict [(b!"Contents", .ref 4 0)], none⟩,
  ⟨4, 0, .dict [(b!"Length", .num (.fin 20))], some codeShown⟩,
  ⟨5, 0, .dict [(b!"ToUnicode", .ref 6 0)], none⟩,
  ⟨6, 0, .dict [(b!"Length", .num (.fin 40))], some twoCodes⟩], [0]⟩]

theorem inheritEdits_check : documentB inheritEdits = true := by decide +kernel

theorem codeShown_shows {fonts : Bytes → Option Font} {l : Bytes} (h : Decodes ((fonts b!"F").getD fontDefault) [0] l) : Shows fonts codeShown (l ++ b!"\n") :=
  ⟨[.block [⟨b!"Tf", [.name b!"F", .num (intNum false 1)]⟩, ⟨b!"Tj", [.str [0]]⟩]], _, codeShown, [], (List.append_nil _).symm,
    .cons (Piece.Cmds.block (cs := [⟨b!"Tf", [.name b!"F", .num (intNum false 1)]⟩, ⟨b!"Tj", [.str [0]]⟩]) (a := []) (b := [])) .nil,
    (by intro p hp; rw [List.mem_singleton] at hp; subst hp; intro c hc; simp only [List.mem_cons, List.not_mem_nil, or_false] at hc; rcases hc with rfl | rfl <;> decide),
    codeShown_cmds, ⟨[], [], rfl, .nil, .inl rfl⟩, by
      have := ContentText.block (fonts := fonts) (tj := fun a => strings (evens a)) (cs := [⟨b!"Tf", [.name b!"F", .num (intNum false 1)]⟩, ⟨b!"Tj", [.str [0]]⟩])
        (.font rfl (.line (b := [0]) (l := l) (t := []) (by decide) h .nil)) .nil
      simpa using this⟩

/-- The nodes of the page tree of the document. -/
theorem inheritEdits_nodes {d page : Dict} (hd : DictIn (updatesOf 1 9 none inheritEdits) d) (h : PageNode (viewOf inheritEdits) d page) :
    page = [(b!"Kids", .arr [.ref 3 0]), (b!"Resources", .dict [(b!"Font", .dict [(b!"F", .ref 5 0)])])] ∨ page = [(b!"Contents", .ref 4 0)] := by
  induction h with
  | @root root hr =>
    left
    obtain ⟨n, p, hp, hd⟩ := hd
    rw [(document_of_check inheritEdits_check Concrete.ext.toCodecs).2.2.2.2.2.2.2] at hp
    obtain ⟨o, ho, rfl⟩ := Option.map_eq_some_iff.1 hp
    obtain ⟨e, he, hoe⟩ := after_mem ho
    simp only [inheritEdits, List.mem_singleton] at he
    subst he
    simp only [List.mem_cons, List.not_mem_nil, or_false] at hoe
    rcases hoe with rfl | rfl | rfl | rfl | rfl | rfl <;> simp [dictsOf, pieceOf, reread, dictsIn, dictsInValues, dictsInList] at hd
    · subst hd; cases hr; rfl
    · rcases hd with rfl | rfl | rfl <;> cases hr
    · subst hd; cases hr
    · subst hd; cases hr
    · subst hd; cases hr
    · subst hd; cases hr
  | @kid node n g page _ hk hv ih =>
    rcases ih with rfl | rfl
    · have : kidsOf (viewOf inheritEdits).value [(b!"Kids", .arr [.ref 3 0]), (b!"Resources", .dict [(b!"Font", .dict [(b!"F", .ref 5 0)])])] = [.ref 3 0] := rfl
      rw [this, List.mem_singleton] at hk
      cases hk
      right
      cases hv
      rfl
    · cases hk

/-- **C99 fails** for a page that has its resources from the node above it: its text in the fonts of these resources is `A`, and contents.txt has no `A`. -/
theorem C99_false {sys : Sys} (ext : Ext) (hf : sys.input = some (fileText 1 inheritEdits)) (hc : ∀ h, sys.canCreate h = true) (pw : Bytes) :
    ∃ us, docText docHead us = fileText 1 inheritEdits ∧ Document ext.toCodecs docHead us ∧ RightTables (docText docHead us) docHead.length us ∧
      (∃ view d page res fonts c, Means us view ∧ DictIn us d ∧ ResourcesAt view d page res ∧ ResourceFonts view res fonts ∧ c ∈ contents view page ∧ Shows fonts c b!"A\n") ∧
      ∃ r F, (∀ f fx ft, F ≤ f → F ≤ fx → F ≤ ft → parse sys ext (some true) f fx ft pw = r) ∧ 65 ∉ r.out.text := by
  obtain ⟨h1, h2, h3, h4, h5, h6, h7, h8⟩ := document_of_check inheritEdits_check ext.toCodecs
  have hpage : ∀ page, (page = [(b!"Kids", .arr [.ref 3 0]), (b!"Resources", .dict [(b!"Font", .dict [(b!"F", .ref 5 0)])])] ∨ page = [(b!"Contents", .ref 4 0)]) →
      ∀ c ∈ contents (viewOf inheritEdits) page, page = [(b!"Contents", .ref 4 0)] ∧ c = codeShown := by
    rintro page (rfl | rfl) c hc
    · cases hc
    · exact ⟨rfl, List.mem_singleton.1 hc⟩
  obtain ⟨r, F, g1, -, g2⟩ := C75_partial (v := true) (by rw [docText_updates]; exact hf) hc h1 h2 h3 h4 h5 h6 pw
  let font := mapFont (([.ranges [(b!"\x00", b!"\x01", b!"A")], .other ⟨b!"endbfrange", []⟩] : List MapItem).flatMap MapItem.entries)
  refine ⟨_, docText_updates 1 inheritEdits, h1, h2, ⟨viewOf inheritEdits, [(b!"Type", .name b!"Catalog"), (b!"Pages", .ref 2 0)], [(b!"Contents", .ref 4 0)], _,
    fun k => if k = b!"F" then some font else none, codeShown, h7, ⟨1, _, by rw [h8]; rfl, List.mem_singleton.2 rfl⟩,
    .kid (n := 3) (g := 0) (.root rfl) (List.mem_singleton.2 rfl) rfl, fun k => ?_, List.mem_singleton.2 rfl,
    codeShown_shows (l := b!"A") ⟨[[0]], [], by decide, by decide, by decide, by decide⟩⟩, r, F, g1, ?_⟩
  · by_cases hk : k = b!"F"
    · subst hk
      refine Eq.mpr (if_pos ?_) ⟨_, twoCodes_text, rfl⟩
      show b!"F" ∈ Assoc.keys ([(b!"F", .ref 5 0)] : Dict)
      simp [Assoc.keys]
    · refine Eq.mpr (if_neg ?_) (if_neg hk)
      show ¬ k ∈ Assoc.keys ([(b!"F", .ref 5 0)] : Dict)
      simp [Assoc.keys, hk]
  · obtain ⟨ts, k1, k2⟩ := report_text_only g2 h7
    rw [k1]
    intro h
    obtain ⟨t, ht, h⟩ := List.mem_flatten.1 h
    obtain ⟨d, hd, page, hp, m, hm, c, hc, e⟩ := k2 t ht
    obtain ⟨rfl, rfl⟩ := hpage page (inheritEdits_nodes hd hp) c hc
    have hm' : m.get? b!"F" = none := hm b!"F"
    rw [shows_text (codeShown_shows (l := [0]) (by rw [hm']; exact ⟨[[0]], [], by decide, by decide, by decide, by decide⟩))] at e
    cases e
    revert h
    decide

/-- C100 for the document: every page has fonts, and every content stream shows text. -/
example (sys : Sys) (ext : Ext) (hf : sys.input = some (fileText 1 inheritEdits)) (hc : ∀ h, sys.canCreate h = true) (pw : Bytes) :
    ∃ r F, (∀ f fx ft, F ≤ f → F ≤ fx → F ≤ ft → parse sys ext (some true) f fx ft pw = r) ∧ ∃ ts : List Bytes, r.out.text = ts.flatten ∧
      ∀ t ∈ ts, ∃ page fonts c, PageFonts (viewOf inheritEdits) page fonts ∧ c ∈ contents (viewOf inheritEdits) page ∧ Shows fonts c t := by
  obtain ⟨h1, h2, h3, h4, h5, h6, h7, h8⟩ := document_of_check inheritEdits_check ext.toCodecs
  obtain ⟨r, F, g1, g2⟩ := C100_partial (v := true) (by rw [docText_updates]; exact hf) hc h1 h2 h3 h4 h5 h6 pw
  obtain ⟨ts, k1, k2⟩ := g2 _ h7 (by
    intro d hd page hp
    rcases inheritEdits_nodes hd hp with rfl | rfl
    · refine ⟨fun k => if k = b!"F" then some (mapFont (([.ranges [(b!"\x00", b!"\x01", b!"A")], .other ⟨b!"endbfrange", []⟩] : List MapItem).flatMap MapItem.entries)) else none, fun k => ?_, fun c hc => by cases hc⟩
      by_cases hk : k = b!"F"
      · subst hk
        refine Eq.mpr (if_pos ?_) ⟨_, twoCodes_text, rfl⟩
        show b!"F" ∈ Assoc.keys ([(b!"F", .ref 5 0)] : Dict)
        simp [Assoc.keys]
      · refine Eq.mpr (if_neg ?_) (if_neg hk)
        show ¬ k ∈ Assoc.keys ([(b!"F", .ref 5 0)] : Dict)
        simp [Assoc.keys, hk]
    · refine ⟨fun _ => none, fun k => Eq.mpr (if_neg ?_) rfl, fun c hc => ?_⟩
      · show ¬ k ∈ Assoc.keys ([] : Dict)
        simp [Assoc.keys]
      · cases List.mem_singleton.1 hc
        exact ⟨_, codeShown_shows (l := [0]) ⟨[[0]], [], by decide, by decide, by decide, by decide⟩⟩)
  refine ⟨r, F, g1, ts, k1, fun t ht => ?_⟩
  obtain ⟨d, -, page, fonts, c, -, q1, q2, q3⟩ := k2 t ht
  exact ⟨page, fonts, c, q1, q2, q3⟩

/-- A document where a page has resources of its own, and the node above it has others. -/
def ownEdits : List Edit := [⟨[
  ⟨1, 0, .dict [(b!"Type", .name b!"Catalog"), (b!"Pages", .ref 2 0)], none⟩,
  ⟨2, 0, .dict [(b!"Kids", .arr [.ref 3 0]), (b!"Resources", .dict [])], none⟩,
  ⟨3, 0, .dict [(b!"Contents", .ref 4 0), (b!"Resources", .dict [(b!"Font", .dict [(b!"F", .ref 5 0)])])], none⟩,
  ⟨4, 0, .dict [(b!"Length", .num (.fin 20))], some codeShown⟩,
  ⟨5, 0, .dict [(b!"ToUnicode", .ref 6 0)], none⟩,
  ⟨6, 0, .dict [(b!"Length", .num (.fin 40))], some twoCodes⟩], [0]⟩]

theorem ownEdits_check : documentB ownEdits = true := by decide +kernel

/-- C99 for the document. -/
example (sys : Sys) (ext : Ext) (hf : sys.input = some (fileText 1 ownEdits)) (hc : ∀ h, sys.canCreate h = true) (pw : Bytes) :
    ∃ r F, (∀ f fx ft, F ≤ f → F ≤ fx → F ≤ ft → parse sys ext (some true) f fx ft pw = r) ∧ ∃ a b, r.out.text = a ++ (b!"A\n" ++ b) := by
  obtain ⟨h1, h2, h3, h4, h5, h6, h7, h8⟩ := document_of_check ownEdits_check ext.toCodecs
  obtain ⟨r, F, g1, g2⟩ := C99_partial (v := true) (by rw [docText_updates]; exact hf) hc h1 h2 h3 h4 h5 h6 pw
  refine ⟨r, F, g1, g2 _ h7 [(b!"Type", .name b!"Catalog"), (b!"Pages", .ref 2 0)] ⟨1, _, by rw [h8]; rfl, List.mem_singleton.2 rfl⟩
    [(b!"Contents", .ref 4 0), (b!"Resources", .dict [(b!"Font", .dict [(b!"F", .ref 5 0)])])] _
    (fun k => if k = b!"F" then some (mapFont (([.ranges [(b!"\x00", b!"\x01", b!"A")], .other ⟨b!"endbfrange", []⟩] : List MapItem).flatMap MapItem.entries)) else none) codeShown _
    (.kid (n := 3) (g := 0) (.root rfl) (List.mem_singleton.2 rfl) rfl) (.inl rfl) (fun k => ?_) (List.mem_singleton.2 rfl)
    (codeShown_shows (l := b!"A") ⟨[[0]], [], by decide, by decide, by decide, by decide⟩)⟩
  by_cases hk : k = b!"F"
  · subst hk
    refine Eq.mpr (if_pos ?_) ⟨_, twoCodes_text, rfl⟩
    show b!"F" ∈ Assoc.keys ([(b!"F", .ref 5 0)] : Dict)
    simp [Assoc.keys]
  · refine Eq.mpr (if_neg ?_) (if_neg hk)
    show ¬ k ∈ Assoc.keys ([(b!"F", .ref 5 0)] : Dict)
    simp [Assoc.keys, hk]

end Pdf.Props
