import Verif.Props.Inherited
import Verif.Spec.Encoding
/-!
C103: text in fonts with an encoding of their own.
-/

namespace Pdf.Props
open Pdf Pdf.Spec

theorem blockText_mono {fonts fonts' : Bytes → Option Font} {tj : List Obj → Bytes} (h : ∀ k b t, Decodes ((fonts k).getD fontDefault) b t → Decodes ((fonts' k).getD fontDefault) b t)
    {f : Font} {cs : List Cmd} {t : Bytes} (hb : BlockText fonts tj f cs t) : ∀ {f' : Font}, (∀ b t, Decodes f b t → Decodes f' b t) → BlockText fonts' tj f' cs t := by
  induction hb with
  | nil => intros; exact .nil
  | font ho _ ih =>
    intro f' _
    refine .font ho (ih ?_)
    unfold fontNamed
    split <;> exact h _
  | line hs hd _ ih => intro f' hf; exact .line hs (hf _ _ hd) (ih hf)
  | other ho hs _ ih => intro f' hf; exact .other ho hs (ih hf)

/-- The text of a content stream depends on what the fonts make of strings. -/
theorem shows_mono {fonts fonts' : Bytes → Option Font} (h : ∀ k b t, Decodes ((fonts k).getD fontDefault) b t → Decodes ((fonts' k).getD fontDefault) b t) {c l : Bytes} (hs : Shows fonts c l) : Shows fonts' c l := by
  obtain ⟨ps, cs, t, w, h1, h2, h3, h4, h5, h6⟩ := hs
  refine ⟨ps, cs, t, w, h1, h2, h3, h4, h5, ?_⟩
  clear h2 h3
  induction h6 with
  | nil => exact .nil
  | cmd _ ih => exact .cmd ih
  | block hb _ ih => exact .block (blockText_mono h hb fun _ _ => id) ih

theorem byte_int (x : UInt8) : bytesToInt [x] = (x.toNat : Int) := by
  rw [bytesToInt_short (b := [x]) (show 1 ≤ 7 by decide), beVal, List.foldl_cons, List.foldl_nil, Nat.zero_mul, Nat.zero_add]

/-- A font that keeps codes decodes as the default font. -/
theorem decodes_keeps {f : Font} (hf : KeepsCodes f) {b t : Bytes} (h : Decodes f b t) : Decodes fontDefault b t := by
  obtain ⟨codes, tail, h1, h2, h3, rfl⟩ := h
  refine ⟨codes, tail, h1, by rw [hf.1] at h2; exact h2, by rw [hf.1] at h3; exact h3, ?_⟩
  rw [decodeCodes, decodeCodes]
  refine List.flatMap_congr fun c hc => ?_
  show _ = c
  have hl := h2 c hc
  rw [hf.1] at hl
  obtain ⟨x, rfl⟩ := List.length_eq_one_iff.1 hl
  have e : bytesToInt [x] = (x.toNat : Int) := byte_int x
  rw [e]
  cases hx : f.lookup x.toNat with
  | none => rfl
  | some u => rw [hf.2 x u hx]; rfl

/-- For the code, these fonts have no entries. -/
theorem letterFonts_page {v : View} {page : Dict} {fonts : Bytes → Option Font} (h : LetterFonts v page fonts) :
    PageFonts v page fun k => (fonts k).map fun _ => fontDefault := by
  intro k
  have := h k
  split at this
  · rename_i hk
    obtain ⟨info, e, a, h1, h2, -, -, -, h3⟩ := this
    refine Eq.mpr (if_pos hk) ⟨[], ?_, ?_⟩
    · rw [h1, Option.getD_some, h2]
      exact .nil ⟨[], [], rfl, .nil, .inl rfl⟩
    · dsimp only
      rw [h3]
      rfl
  · rename_i hk
    refine Eq.mpr (if_neg hk) ?_
    dsimp only
    rw [this]
    rfl

section
variable {sys : Sys} {P : Bytes} {us : List Update} {ext : Ext} {v : Bool}

/-- **C103, partial** Text in fonts with an encoding and no character map is in contents.txt if the encoding gives letters the codes they have in ASCII. Missing: all
other encodings (`C103_false`); as for `C84_partial`. -/
theorem C103_partial (hf : sys.input = some (docText P us)) (hc : ∀ h, sys.canCreate h = true)
    (hd : Document ext.toCodecs P us) (hr : RightTables (docText P us) P.length us) (henc : trailerFor us b!"Encrypt" = none) (henc' : ∀ d, FirstDict us.tail d → d.get? b!"Encrypt" = none)
    (hk : KidsEnd us) (hs : StreamsLoad us) (pw : Bytes) :
    ∃ r F, (∀ f fx ft, F ≤ f → F ≤ fx → F ≤ ft → parse sys ext (some v) f fx ft pw = r) ∧ ∀ view, Means us view → ∀ d, DictIn us d →
      ∀ page fonts c l, PageNode view d page → LetterFonts view page fonts → (∀ k f, fonts k = some f → KeepsCodes f) → c ∈ contents view page → Shows fonts c l → ∃ a b, r.out.text = a ++ (l ++ b) := by
  obtain ⟨r, F, h1, h2⟩ := C84_partial (v := v) hf hc hd hr henc henc' hk hs pw
  refine ⟨r, F, h1, fun view hv d ⟨n, p, hp, hdp⟩ page fonts c l hpg hfo hke hcm hl => h2 view hv n p hp d hdp page _ c l hpg (letterFonts_page hfo) hcm (shows_mono (fun k b t hb => ?_) hl)⟩
  cases hf : fonts k with
  | none => rw [hf] at hb; exact hb
  | some f => rw [hf] at hb; exact decodes_keeps (hke k f hf) hb

/-- **C103, partial** The same for encrypted documents, with the user password. Missing: as for `C84_secret_partial` and `C103_partial`. -/
theorem C103_secret_partial {c : Secrecy} {skip : Option Int} {enc : Dict} {sd : StdDict} {pw : Bytes} (hf : sys.input = some (docText P us)) (hc : ∀ h, sys.canCreate h = true)
    (hd : Document (Reading.secret ext.md5 rc4 ext.toCodecs c skip) P us) (hr : RightTables (docText P us) P.length us) (ht : Typed us) (he : EncryptAt us enc skip) (hs : StdEntries us enc sd)
    (hp : UserPassword ext.md5 rc4 sd pw) (hk : Keys ext.md5 enc sd pw c) (hki : KidsEnd us) (hst : StreamsLoad us) :
    ∃ r F, (∀ f fx ft, F ≤ f → F ≤ fx → F ≤ ft → parse sys ext (some v) f fx ft pw = r) ∧ ∀ view, Means us view → ∀ d, DictIn us d →
      ∀ page fonts c l, PageNode view d page → LetterFonts view page fonts → (∀ k f, fonts k = some f → KeepsCodes f) → c ∈ contents view page → Shows fonts c l → ∃ a b, r.out.text = a ++ (l ++ b) := by
  obtain ⟨r, F, h1, h2⟩ := C84_secret_partial (v := v) hf hc hd hr ht he hs hp hk hki hst
  refine ⟨r, F, h1, fun view hv d ⟨n, p, hp, hdp⟩ page fonts c l hpg hfo hke hcm hl => (h2 view hv n p hp d hdp).2 page _ c l hpg (letterFonts_page hfo) hcm (shows_mono (fun k b t hb => ?_) hl)⟩
  cases hf : fonts k with
  | none => rw [hf] at hb; exact hb
  | some f => rw [hf] at hb; exact decodes_keeps (hke k f hf) hb

/-- **C99, partial** The same for encrypted documents, with the user password. Missing: as for `C84_secret_partial` and `C99_partial`. -/
theorem C99_secret_partial {c : Secrecy} {skip : Option Int} {enc : Dict} {sd : StdDict} {pw : Bytes} (hf : sys.input = some (docText P us)) (hc : ∀ h, sys.canCreate h = true)
    (hd : Document (Reading.secret ext.md5 rc4 ext.toCodecs c skip) P us) (hr : RightTables (docText P us) P.length us) (ht : Typed us) (he : EncryptAt us enc skip) (hs : StdEntries us enc sd)
    (hp : UserPassword ext.md5 rc4 sd pw) (hk : Keys ext.md5 enc sd pw c) (hki : KidsEnd us) (hst : StreamsLoad us) :
    ∃ r F, (∀ f fx ft, F ≤ f → F ≤ fx → F ≤ ft → parse sys ext (some v) f fx ft pw = r) ∧ ∀ view, Means us view → ∀ d, DictIn us d →
      ∀ page res fonts c l, ResourcesAt view d page res → (view.dict page b!"Resources").isSome ∨ res = none → ResourceFonts view res fonts → c ∈ contents view page → Shows fonts c l →
        ∃ a b, r.out.text = a ++ (l ++ b) := by
  obtain ⟨r, F, h1, h2⟩ := C84_secret_partial (v := v) hf hc hd hr ht he hs hp hk hki hst
  refine ⟨r, F, h1, ?_⟩
  rintro view hv d ⟨n, p, hm, hdp⟩ page res fonts c l h3 h4 h5 h6 h7
  refine (h2 view hv n p hm d hdp).2 page fonts c l (resourcesAt_node h3) ?_ h6 h7
  have : res.getD [] = (view.dict page b!"Resources").getD [] := by
    cases h3 with
    | root => rfl
    | kid =>
      cases hr : view.dict page b!"Resources" with
      | some x => simp
      | none =>
        rw [hr] at h4
        rcases h4 with h4 | h4
        · cases h4
        · rw [h4]
  unfold ResourceFonts at h5
  rw [this] at h5
  exact h5

/-- **C103 fails** for all documents where the fonts of all pages are of this kind: contents.txt has nothing but what the content streams show when every font is taken for the default font, whatever the encodings
are. -/
theorem C103_wrong (hf : sys.input = some (docText P us)) (hc : ∀ h, sys.canCreate h = true)
    (hd : Document ext.toCodecs P us) (hr : RightTables (docText P us) P.length us) (henc : trailerFor us b!"Encrypt" = none) (henc' : ∀ d, FirstDict us.tail d → d.get? b!"Encrypt" = none)
    (hk : KidsEnd us) (hs : StreamsLoad us) (pw : Bytes) :
    ∃ r F, (∀ f fx ft, F ≤ f → F ≤ fx → F ≤ ft → parse sys ext (some v) f fx ft pw = r) ∧ ∀ view, Means us view →
      (∀ d, DictIn us d → ∀ page, PageNode view d page → (∃ fonts, LetterFonts view page fonts) ∧ ∀ c ∈ contents view page, ∃ l, Shows (fun _ => none) c l) →
      ∃ ts : List Bytes, r.out.text = ts.flatten ∧ ∀ t ∈ ts, ∃ d, DictIn us d ∧ ∃ page c, PageNode view d page ∧ c ∈ contents view page ∧ Shows (fun _ => none) c t := by
  obtain ⟨r, F, h1, -, h2⟩ := C75_partial (v := v) hf hc hd hr henc henc' hk hs pw
  refine ⟨r, F, h1, fun view hv hw => ?_⟩
  obtain ⟨ts, h3, h4⟩ := report_text_only h2 hv
  refine ⟨ts, h3, fun t ht => ?_⟩
  obtain ⟨d, hd, page, hp, m, hm, c, hc, e⟩ := h4 t ht
  obtain ⟨⟨fonts, hfo⟩, hs⟩ := hw d hd page hp
  have := pageFonts_eq (letterFonts_page hfo) hm
  obtain ⟨l, hl⟩ := hs c hc
  have hl' : Shows (fun k => (fonts k).map fun _ => fontDefault) c l := shows_mono (fun k b t hb => by cases fonts k <;> exact hb) hl
  rw [this] at hl'
  rw [shows_text hl'] at e
  cases e
  exact ⟨d, hd, page, c, hp, hc, hl⟩

end

/-! ### A document -/

/-- A document with a page in a font where code 0 is the letter A. -/
def glyphEdits : List Edit := [⟨[
  ⟨1, 0, .dict [(b!"Type", .name b!"Catalog"), (b!"Pages", .ref 2 0)], none⟩,
  ⟨2, 0, .dict [(b!"Kids", .arr [.ref 3 0])], none⟩,
  ⟨3, 0, .dict [(b!"Contents", .ref 4 0), (b!"Resources", .dict [(b!"Font", .dict [(b!"F", .ref 5 0)])])], none⟩,
  ⟨4, 0, .dict [(b!"Length", .num (.fin 20))], some codeShown⟩,
  ⟨5, 0, .dict [(b!"Encoding", .dict [(b!"Differences", .arr [.num (.fin 0), .name b!"A"])])], none⟩], [0]⟩]

theorem glyphEdits_check : documentB glyphEdits = true := by decide +kernel

/-- The page. -/
def glyphPage : Dict := [(b!"Contents", .ref 4 0), (b!"Resources", .dict [(b!"Font", .dict [(b!"F", .ref 5 0)])])]

/-- The nodes of the page tree of the document. -/
theorem glyphEdits_nodes {d page : Dict} (hd : DictIn (updatesOf 1 9 none glyphEdits) d) (h : PageNode (viewOf glyphEdits) d page) :
    page = [(b!"Kids", .arr [.ref 3 0])] ∨ page = glyphPage := by
  induction h with
  | @root root hr =>
    left
    obtain ⟨n, p, hp, hd⟩ := hd
    rw [(document_of_check glyphEdits_check Concrete.ext.toCodecs).2.2.2.2.2.2.2] at hp
    obtain ⟨o, ho, rfl⟩ := Option.map_eq_some_iff.1 hp
    obtain ⟨e, he, hoe⟩ := after_mem ho
    simp only [glyphEdits, List.mem_singleton] at he
    subst he
    simp only [List.mem_cons, List.not_mem_nil, or_false] at hoe
    rcases hoe with rfl | rfl | rfl | rfl | rfl <;> simp [dictsOf, reread, dictsIn, dictsInValues, dictsInList] at hd
    · subst hd; cases hr; rfl
    · subst hd; cases hr
    · rcases hd with rfl | rfl | rfl <;> cases hr
    · subst hd; cases hr
    · rcases hd with rfl | rfl <;> cases hr
  | @kid node n g page _ hk hv ih =>
    rcases ih with rfl | rfl
    · have : kidsOf (viewOf glyphEdits).value [(b!"Kids", .arr [.ref 3 0])] = [.ref 3 0] := rfl
      rw [this, List.mem_singleton] at hk
      cases hk
      right
      cases hv
      rfl
    · cases hk

theorem glyph_fonts : LetterFonts (viewOf glyphEdits) glyphPage fun k => if k = b!"F" then some (letterFont [(0, b!"A")]) else none := by
  intro k
  by_cases hk : k = b!"F"
  · subst hk
    refine Eq.mpr (if_pos ?_) ⟨_, _, _, rfl, rfl, rfl, rfl, ?_, rfl⟩
    · show b!"F" ∈ Assoc.keys ([(b!"F", .ref 5 0)] : Dict)
      simp [Assoc.keys]
    · intro p hp
      cases List.mem_singleton.1 (show p ∈ [((0 : Int), b!"A")] from hp)
      exact ⟨65, rfl, by decide⟩
  · refine Eq.mpr (if_neg ?_) (if_neg hk)
    show ¬ k ∈ Assoc.keys ([(b!"F", .ref 5 0)] : Dict)
    simp [Assoc.keys, hk]

theorem glyph_none : LetterFonts (viewOf glyphEdits) [(b!"Kids", .arr [.ref 3 0])] fun _ => none := by
  intro k
  refine Eq.mpr (if_neg ?_) rfl
  show ¬ k ∈ Assoc.keys ([] : Dict)
  simp [Assoc.keys]

/-- **C103 fails** for a font where code 0 is the letter A: the page shows `A`, and contents.txt has no `A`. -/
theorem C103_false {sys : Sys} (ext : Ext) (hf : sys.input = some (fileText 1 glyphEdits)) (hc : ∀ h, sys.canCreate h = true) (pw : Bytes) :
    ∃ us, docText docHead us = fileText 1 glyphEdits ∧ Document ext.toCodecs docHead us ∧ RightTables (docText docHead us) docHead.length us ∧
      (∃ view d page fonts c, Means us view ∧ DictIn us d ∧ PageNode view d page ∧ LetterFonts view page fonts ∧ c ∈ contents view page ∧ Shows fonts c b!"A\n") ∧
      ∃ r F, (∀ f fx ft, F ≤ f → F ≤ fx → F ≤ ft → parse sys ext (some true) f fx ft pw = r) ∧ 65 ∉ r.out.text := by
  obtain ⟨h1, h2, h3, h4, h5, h6, h7, h8⟩ := document_of_check glyphEdits_check ext.toCodecs
  obtain ⟨r, F, g1, -, g2⟩ := C75_partial (v := true) (by rw [docText_updates]; exact hf) hc h1 h2 h3 h4 h5 h6 pw
  refine ⟨_, docText_updates 1 glyphEdits, h1, h2, ⟨viewOf glyphEdits, [(b!"Type", .name b!"Catalog"), (b!"Pages", .ref 2 0)], glyphPage, _, codeShown, h7, ⟨1, _, by rw [h8]; rfl, List.mem_singleton.2 rfl⟩,
    .kid (n := 3) (g := 0) (.root rfl) (List.mem_singleton.2 rfl) rfl, glyph_fonts, List.mem_singleton.2 rfl, codeShown_shows (l := b!"A") ⟨[[0]], [], by decide, by decide, by decide, by decide⟩⟩, r, F, g1, ?_⟩
  obtain ⟨ts, k1, k2⟩ := report_text_only g2 h7
  rw [k1]
  intro h
  obtain ⟨t, ht, h⟩ := List.mem_flatten.1 h
  obtain ⟨d, hd, page, hp, m, hm, c, hc, e⟩ := k2 t ht
  rcases glyphEdits_nodes hd hp with rfl | rfl
  · cases hc
  · have hcc : c = codeShown := List.mem_singleton.1 hc
    subst hcc
    have := pageFonts_eq (letterFonts_page glyph_fonts) hm
    have hs := codeShown_shows (fonts := fun k => (if k = b!"F" then some (letterFont [(0, b!"A")]) else none).map fun _ => fontDefault) (l := [0]) ⟨[[0]], [], by decide, by decide, by decide, by decide⟩
    rw [this] at hs
    rw [shows_text hs] at e
    cases e
    revert h
    decide

/-- The hypotheses of `C103_wrong` for the document. -/
example {d : Dict} (hd : DictIn (updatesOf 1 9 none glyphEdits) d) {page : Dict} (hp : PageNode (viewOf glyphEdits) d page) :
    (∃ fonts, LetterFonts (viewOf glyphEdits) page fonts) ∧ ∀ c ∈ contents (viewOf glyphEdits) page, ∃ l, Shows (fun _ => none) c l := by
  rcases glyphEdits_nodes hd hp with rfl | rfl
  · exact ⟨⟨_, glyph_none⟩, fun c hc => by cases hc⟩
  · refine ⟨⟨_, glyph_fonts⟩, fun c hc => ?_⟩
    have hcc : c = codeShown := List.mem_singleton.1 hc
    subst hcc
    exact ⟨_, codeShown_shows (l := [0]) ⟨[[0]], [], by decide, by decide, by decide, by decide⟩⟩

/-- The hypothesis of `C103_partial` on encodings: codes 65 and 66 are A and B. -/
example : differences 0 [.num (.fin 65), .name b!"A", .name b!"B"] = [(65, b!"A"), (66, b!"B")] ∧ KeepsCodes (letterFont [(65, b!"A"), (66, b!"B")]) := by
  refine ⟨by decide, rfl, ?_⟩
  have : ∀ b : UInt8, ∀ t, (letterFont [(65, b!"A"), (66, b!"B")]).lookup b.toNat = some t → t = [b] := by
    intro b t h
    have h2 : ∀ n : Fin 256, ((letterFont [(65, b!"A"), (66, b!"B")]).lookup (n.val : Int)).all (fun t => t == [UInt8.ofNat n.val]) = true := by decide +kernel
    have := h2 ⟨b.toNat, b.toNat_lt⟩
    rw [h] at this
    simpa using this
  exact this

end Pdf.Props
