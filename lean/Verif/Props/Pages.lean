import Verif.Props.Write
import Verif.Spec.Pages
/-!
C84: the text of the pages of a document.
-/

namespace Pdf.Props
open Pdf Pdf.Spec St

/-! ### Fonts and content streams -/

theorem newFont_map {is : List MapItem} {t : Bytes} (h : MapText is t) : newFont t = .ok (mapFont (is.flatMap MapItem.entries)) := by
  rw [newFont_text h]
  congr 1
  have hs := entries_short h
  revert hs
  generalize is.flatMap MapItem.entries = es
  intro hs
  have key : ∀ (es : List (Bytes × Bytes × Bytes)) (font : Font), (∀ e ∈ es, e.1.length ≤ 7 ∧ e.2.1.length ≤ 7) →
      es.foldl addEntry font = ⟨(es.reverse.map fun e => ((beVal e.1 : Int), (beVal e.2.1 : Int), e.2.2)) ++ font.cmap, (es.getLast?.map fun e => e.1.length).getD font.width⟩ := by
    intro es
    induction es with
    | nil => intro font _; rfl
    | cons e es ih =>
      intro font hs
      rw [List.foldl_cons, ih _ fun e he => hs e (by simp [he]), List.getLast?_cons]
      obtain ⟨h1, h2⟩ := hs e (by simp)
      rw [addEntry, bytesToInt_short h1, bytesToInt_short h2]
      congr 1
      · simp
      · cases es.getLast? <;> rfl
  rw [key es {} hs, mapFont]
  simp

theorem pageFonts_eq {v : View} {page : Dict} {fonts : Bytes → Option Font} {m : Assoc Bytes Font} (h : PageFonts v page fonts) (h' : Fonts v page m) : fonts = m.get? := by
  funext k
  have a := h k
  have b := h' k
  split at a
  · rename_i hk
    rw [if_pos hk] at b
    obtain ⟨is, h1, h2⟩ := a
    obtain ⟨font, h3, h4⟩ := b
    rw [newFont_map h1] at h3
    cases h3
    rw [h2, h4]
  · rename_i hk
    rw [if_neg hk] at b
    rw [a, b]

theorem shows_text {m : Assoc Bytes Font} {c l : Bytes} (h : Shows m.get? c l) : pageText m c = .ok l := by
  obtain ⟨ps, cs, t, w, rfl, h1, h2, h3, h4, h5⟩ := h
  exact C45_text h1 h2 h3 h4 h5

theorem streamsText_texts {m : Assoc Bytes Font} {cs : List Bytes} {l : Bytes} (h : StreamsText m.get? cs l) : ∀ ts : List Bytes, cs.map (pageText m) = ts.map .ok → ts.flatten = l := by
  generalize hf : m.get? = f at h
  induction h with
  | nil => intro ts h; cases ts with
    | nil => rfl
    | cons => cases h
  | cons h _ ih =>
    subst hf
    intro ts hts
    cases ts with
    | nil => cases hts
    | cons t ts =>
      rw [List.map_cons, List.map_cons, List.cons.injEq, shows_text h] at hts
      cases hts.1
      rw [List.flatten_cons, ih ts hts.2]

theorem pagesText_texts {v : View} {pages : List Dict} {l : Bytes} (h : PagesText v pages l) : ∀ ts, Texts v pages ts → ts.flatten = l := by
  induction h with
  | nil => intro ts h; cases h; rfl
  | cons h1 h2 _ ih =>
    intro ts h
    cases h with
    | page g1 g2 g3 =>
      have := pageFonts_eq h1 g1
      subst this
      rw [List.flatten_append, streamsText_texts h2 _ g2, ih _ g3]

theorem texts_mem {v : View} {pages : List Dict} {ts : List Bytes} (h : Texts v pages ts) {page : Dict} (hp : page ∈ pages) {fonts : Bytes → Option Font} (hf : PageFonts v page fonts) {c l : Bytes}
    (hc : c ∈ contents v page) (hs : Shows fonts c l) : l ∈ ts := by
  induction h with
  | nil => cases hp
  | @page q t m us vs g1 g2 g3 ih =>
    rcases List.mem_cons.1 hp with rfl | hp
    · have := pageFonts_eq hf g1
      subst this
      have h1 : pageText m c ∈ (contents v page).map (pageText m) := List.mem_map_of_mem hc
      rw [g2, shows_text hs] at h1
      obtain ⟨x, hx, e⟩ := List.mem_map.1 h1
      cases e
      exact List.mem_append_left _ hx
    · exact List.mem_append_right _ (ih hp)

/-! ### The pages -/

theorem Dfs.unique {next : Int → List Int} {seen todo out : List Int} (h : Dfs next seen todo out) : ∀ {out'}, Dfs next seen todo out' → out = out' := by
  induction h with
  | done => intro _ h; cases h; rfl
  | skip hn _ ih => intro _ h; cases h with
    | skip _ h => exact ih h
    | visit h => exact absurd hn h
  | visit hn _ _ ih1 ih2 => intro _ h; cases h with
    | skip h => exact absurd h hn
    | visit _ h1 h2 =>
      cases ih1 h1
      rw [ih2 h2]

theorem pages_unique {v : View} {d : Dict} {key : Bytes} {l l' : List Dict} (h : Pages v d key l) (h' : Pages v d key l') : l = l' := by
  rw [Pages] at h h'
  cases hr : v.dict d key with
  | none => simp only [hr] at h h'; rw [h, h']
  | some root =>
    simp only [hr] at h h'
    obtain ⟨ns, h1, rfl⟩ := h
    obtain ⟨ns', h2, rfl⟩ := h'
    rw [Dfs.unique h1 h2]

theorem mem_refs {l : List Obj} {n : Int} {g : Int} (h : .ref n g ∈ l) : n ∈ refs l := by
  induction l with
  | nil => cases h
  | cons o t ih =>
    rcases List.mem_cons.1 h with rfl | h
    · simp [refs]
    · have := ih h
      cases o <;> simp [refs, this]

theorem pageNode_pages {v : View} {d page : Dict} (h : PageNode v d page) {l : List Dict} (hl : Pages v d b!"Pages" l) : page ∈ l := by
  have key : (v.dict d b!"Pages" = some page) ∨ ∃ root n, v.dict d b!"Pages" = some root ∧ Reach (nextOf v.value) (refs (kidsOf v.value root)) n ∧ v.value n = .dict page := by
    clear hl
    induction h with
    | root h => exact .inl h
    | @kid node n g page _ hk hv ih =>
      refine .inr ?_
      rcases ih with ih | ⟨root, m, h1, h2, h3⟩
      · exact ⟨_, n, ih, .start (mem_refs hk), hv⟩
      · refine ⟨root, n, h1, .step h2 ?_, hv⟩
        rw [nextOf, h3]
        exact mem_refs hk
  rw [Pages] at hl
  rcases key with h | ⟨root, n, h, h1, h2⟩
  · simp only [h] at hl
    obtain ⟨ns, -, rfl⟩ := hl
    simp
  · simp only [h] at hl
    obtain ⟨ns, h3, rfl⟩ := hl
    refine List.mem_cons_of_mem _ (List.mem_filterMap.2 ⟨n, (h3.mem_iff n).2 h1, ?_⟩)
    rw [h2]; rfl

/-! ### The report -/

theorem visible_text (ws : List Write) : (visible ws).flatMap Write.contentsTxt = ws.flatMap Write.contentsTxt := by
  induction ws with
  | nil => rfl
  | cons w ws ih =>
    rw [visible, List.filter_cons, List.flatMap_cons, ← ih]
    cases w <;> first | rfl | (simp only [Write.kind]; rfl)

theorem between {α : Type} {l : List α} {x : α} (h : x ∈ l) (g : α → List Write) (f : Write → Bytes) : ∃ a b, (l.flatMap g).flatMap f = a ++ ((g x).flatMap f ++ b) := by
  obtain ⟨y, z, rfl⟩ := List.append_of_mem h
  exact ⟨(y.flatMap g).flatMap f, (z.flatMap g).flatMap f, by simp [List.flatMap_append]⟩

/-- What `Parse` reports contains the text of the pages. -/
theorem report_text {us : List Update} {ext : Ext} {r : ParseResult} (h2 : ∀ view, Means us view → ∃ l ws, l.Nodup ∧ (∀ n, n ∈ l ↔ (meant us n).isSome) ∧ Holds r.out ws ∧
      Parts (fun n part => ∃ p, meant us n = some p ∧ ObjectReport ext view p.obj part) l (visible ws)) : ∀ view, Means us view → ∀ n p, meant us n = some p → ∀ d ∈ dictsOf p.obj,
      ∃ pages texts, Pages view d b!"Pages" pages ∧ Texts view pages texts ∧ ∃ a b, r.out.text = a ++ (texts.flatten ++ b) := by
  intro view hv n p hm d hdp
  obtain ⟨l, ws, -, h3, h4, parts, g1, g2, g3⟩ := h2 view hv
  obtain ⟨x, hx, rfl⟩ := List.mem_map.1 (g1.mem_iff.2 ((h3 n).2 (by rw [hm]; rfl)))
  obtain ⟨p', k1, inside, printed, ⟨ps, q1, q2, q3⟩, -, k2⟩ := g2 x hx
  rw [hm] at k1
  cases k1
  obtain ⟨y, hy, rfl⟩ := List.mem_map.1 (q1.mem_iff.2 hdp)
  obtain ⟨aa, embedded, urls, pages, texts, -, -, -, t1, t2, t3⟩ := q2 y hy
  refine ⟨pages, texts, t1, t2, ?_⟩
  rw [h4.text, ← visible_text, g3]
  obtain ⟨a, b, e⟩ := between hx (·.2) Write.contentsTxt
  rw [e]
  have e2 : ∃ a b, x.2.flatMap Write.contentsTxt = a ++ (texts.flatten ++ b) := by
    rw [k2, List.flatMap_append, q3]
    obtain ⟨a, b, e⟩ := between hy (·.2) Write.contentsTxt
    rw [e]
    have e3 : ∃ a b, y.2.flatMap Write.contentsTxt = a ++ (texts.flatten ++ b) := by
      rw [t3]
      have e4 : (texts.map Write.text).flatMap Write.contentsTxt = texts.flatten := by
        clear t2 t3
        induction texts with
        | nil => rfl
        | cons t ts ih => rw [List.map_cons, List.flatMap_cons, ih, List.flatten_cons]; rfl
      rw [List.flatMap_append, List.flatMap_append, List.flatMap_append, e4, List.append_assoc, List.append_assoc]
      exact ⟨_, _, rfl⟩
    obtain ⟨c, d, e3⟩ := e3
    rw [e3]
    exact ⟨a ++ c, d ++ (b ++ [Write.raw p.obj printed].flatMap Write.contentsTxt), by simp⟩
  obtain ⟨c, d, e2⟩ := e2
  rw [e2]
  exact ⟨a ++ c, d ++ b, by simp⟩

section
variable {sys : Sys} {P : Bytes} {us : List Update} {ext : Ext} {v : Bool}

/-- **C84, partial** The text shown by the pages of a document is in contents.txt, in the order of the pages. Missing: as for `C75_partial`;
the elements of `TJ` arrays at odd positions (`C46_false`, `C84_false`), character maps with values for codes of a range after the first (`C44_false`). -/
theorem C84_order_partial (hf : sys.input = some (docText P us)) (hc : ∀ h, sys.canCreate h = true)
    (hd : Document ext.toCodecs P us) (hr : RightTables (docText P us) P.length us) (henc : trailerFor us b!"Encrypt" = none) (henc' : ∀ d, FirstDict us.tail d → d.get? b!"Encrypt" = none)
    (hk : KidsEnd us) (hs : StreamsLoad us) (pw : Bytes) :
    ∃ r F, (∀ f fx ft, F ≤ f → F ≤ fx → F ≤ ft → parse sys ext (some v) f fx ft pw = r) ∧ ∀ view, Means us view → ∀ n p, meant us n = some p → ∀ d ∈ dictsOf p.obj,
      ∀ pages l, Pages view d b!"Pages" pages → PagesText view pages l → ∃ a b, r.out.text = a ++ (l ++ b) := by
  obtain ⟨r, F, h1, -, h2⟩ := C75_partial (v := v) hf hc hd hr henc henc' hk hs pw
  refine ⟨r, F, h1, fun view hv n p hm d hdp pages l hp hl => ?_⟩
  obtain ⟨pages', texts, g1, g2, g3⟩ := report_text h2 view hv n p hm d hdp
  cases pages_unique hp g1
  rw [← pagesText_texts hl texts g2]
  exact g3

/-- **C84, partial** The text shown by each of the content streams of each page of a document is in contents.txt, whatever the other streams
hold. Missing: as for `C84_order_partial`. -/
theorem C84_partial (hf : sys.input = some (docText P us)) (hc : ∀ h, sys.canCreate h = true)
    (hd : Document ext.toCodecs P us) (hr : RightTables (docText P us) P.length us) (henc : trailerFor us b!"Encrypt" = none) (henc' : ∀ d, FirstDict us.tail d → d.get? b!"Encrypt" = none)
    (hk : KidsEnd us) (hs : StreamsLoad us) (pw : Bytes) :
    ∃ r F, (∀ f fx ft, F ≤ f → F ≤ fx → F ≤ ft → parse sys ext (some v) f fx ft pw = r) ∧ ∀ view, Means us view → ∀ n p, meant us n = some p → ∀ d ∈ dictsOf p.obj,
      ∀ page fonts c l, PageNode view d page → PageFonts view page fonts → c ∈ contents view page → Shows fonts c l → ∃ a b, r.out.text = a ++ (l ++ b) := by
  obtain ⟨r, F, h1, -, h2⟩ := C75_partial (v := v) hf hc hd hr henc henc' hk hs pw
  refine ⟨r, F, h1, fun view hv n p hm d hdp page fonts c l hp hfo hcm hl => ?_⟩
  obtain ⟨pages, texts, g1, g2, a, b, g3⟩ := report_text h2 view hv n p hm d hdp
  obtain ⟨x, y, rfl⟩ := List.append_of_mem (texts_mem g2 (pageNode_pages hp g1) hfo hcm hl)
  exact ⟨a ++ x.flatten, y.flatten ++ b, by rw [g3]; simp⟩

/-- **C84, partial** The same for encrypted documents, with the user password. Missing: as for `C76_report_partial` and `C84_order_partial`. -/
theorem C84_secret_partial {c : Secrecy} {skip : Option Int} {enc : Dict} {sd : StdDict} {pw : Bytes} (hf : sys.input = some (docText P us)) (hc : ∀ h, sys.canCreate h = true)
    (hd : Document (Reading.secret ext.md5 rc4 ext.toCodecs c skip) P us) (hr : RightTables (docText P us) P.length us) (ht : Typed us) (he : EncryptAt us enc skip) (hs : StdEntries us enc sd)
    (hp : UserPassword ext.md5 rc4 sd pw) (hk : Keys ext.md5 enc sd pw c) (hki : KidsEnd us) (hst : StreamsLoad us) :
    ∃ r F, (∀ f fx ft, F ≤ f → F ≤ fx → F ≤ ft → parse sys ext (some v) f fx ft pw = r) ∧ ∀ view, Means us view → ∀ n p, meant us n = some p → ∀ d ∈ dictsOf p.obj,
      (∀ pages l, Pages view d b!"Pages" pages → PagesText view pages l → ∃ a b, r.out.text = a ++ (l ++ b)) ∧
      ∀ page fonts c l, PageNode view d page → PageFonts view page fonts → c ∈ contents view page → Shows fonts c l → ∃ a b, r.out.text = a ++ (l ++ b) := by
  obtain ⟨r, F, h1, -, h2, -⟩ := C76_report_partial (v := v) hf hc hd hr ht he hs hp hk hki hst
  refine ⟨r, F, h1, fun view hv n p hm d hdp => ?_⟩
  obtain ⟨pages, texts, g1, g2, a, b, g3⟩ := report_text h2 view hv n p hm d hdp
  refine ⟨fun pages' l hp hl => ?_, fun page fonts c l hp hfo hcm hl => ?_⟩
  · cases pages_unique hp g1
    rw [← pagesText_texts hl texts g2]
    exact ⟨a, b, g3⟩
  · obtain ⟨x, y, rfl⟩ := List.append_of_mem (texts_mem g2 (pageNode_pages hp g1) hfo hcm hl)
    exact ⟨a ++ x.flatten, y.flatten ++ b, by rw [g3]; simp⟩

end

/-! ### The page of the document in two edits -/

theorem codeShown_cmds : CmdsAt [⟨b!"BT", []⟩, ⟨b!"Tf", [.name b!"F", .num (intNum false 1)]⟩, ⟨b!"Tj", [.str [0]]⟩, ⟨b!"ET", []⟩] codeShown [] := by
  have kw2 : ∀ {a b : UInt8} {r : Bytes}, ObjAt (.kw [a, b]) [a, b] r [] → CmdAt ⟨[a, b], []⟩ [32, a, b] r := fun h => .op (w := [32]) (.ws (by decide) .nil) h
  have bt : CmdAt ⟨b!"BT", []⟩ b!"BT" (b!" /F 1 Tf (\x00) Tj ET" ++ []) :=
    .op (w := []) .nil (.kw (b := 66) (k := [84]) (by decide) (by decide) (by decide) (by decide) (by decide) (by decide) (by rintro b t ⟨⟩; decide))
  have tf : CmdAt ⟨b!"Tf", [.name b!"F", .num (intNum false 1)]⟩ b!" /F 1 Tf" (b!" (\x00) Tj ET" ++ []) :=
    .arg (w := [32]) (t := b!"/F") (u := b!" 1 Tf") (e := []) (.ws (by decide) .nil)
      (.name (t := b!"F") (nameText_plain _ (by decide)) (by rintro b t ⟨⟩; decide)) (by rintro k ⟨⟩)
      (.arg (w := [32]) (t := [49]) (u := b!" Tf") (e := []) (.ws (by decide) .nil)
        (.int (sg := []) (ds := [1]) .none (by decide) (by decide) (by decide) (by rintro b t ⟨⟩; decide) (by rintro u ⟨⟩) (not_refTail_of (by decide)))
        (by rintro k ⟨⟩)
        (kw2 (.kw (b := 84) (k := [102]) (by decide) (by decide) (by decide) (by decide) (by decide) (by decide) (by rintro b t ⟨⟩; decide))))
  have tj : CmdAt ⟨b!"Tj", [.str [0]]⟩ b!" (\x00) Tj" (b!" ET" ++ []) :=
    .arg (w := [32]) (t := b!"(\x00)") (u := b!" Tj") (e := []) (.ws (by decide) .nil)
      (.str (t := [0]) (.plain (by decide) (by decide) (by decide) .nil)) (by rintro k ⟨⟩)
      (kw2 (.kw (b := 84) (k := [106]) (by decide) (by decide) (by decide) (by decide) (by decide) (by decide) (by rintro b t ⟨⟩; decide)))
  have et : CmdAt ⟨b!"ET", []⟩ b!" ET" [] :=
    kw2 (.kw (b := 69) (k := [84]) (by decide) (by decide) (by decide) (by decide) (by decide) (by decide) (by rintro b t ⟨⟩))
  exact .cons (u := b!" /F 1 Tf (\x00) Tj ET") bt (.cons (u := b!" (\x00) Tj ET") tf (.cons (u := b!" ET") tj (.cons (u := []) et .nil)))

/-- The page of the document in two edits shows A: code 0 in font F. -/
example (sys : Sys) (ext : Ext) (hf : sys.input = some (fileText 1 pageEdits)) (hc : ∀ h, sys.canCreate h = true) (pw : Bytes) :
    ∃ r F, (∀ f fx ft, F ≤ f → F ≤ fx → F ≤ ft → parse sys ext (some true) f fx ft pw = r) ∧ ∃ a b, r.out.text = a ++ (b!"A\n" ++ b) := by
  have he := pageEdits_writable
  have hm := edits_means (root := 1) he
  obtain ⟨r, F, h1, h2⟩ := C84_order_partial (v := true) (by rw [docText_updates]; exact hf) hc (edits_document (cd := ext.toCodecs) (root := 1) (by decide) pageEdits_begins he pageEdits_fit pageEdits_length)
    ((rightTables_plain (updatesOf_linear 1 9 pageEdits)).2 (edits_right pageEdits he _ _)) (edits_trailer (by decide) pageEdits (by decide) 9) (edits_first_tail he)
    (by
      refine KidsInPlace.ends fun n p hp => ?_
      rw [hm] at hp
      obtain ⟨o, ho, rfl⟩ := Option.map_eq_some_iff.1 hp
      exact pageEdits_kids n o ho) (by
      intro n p hp
      rw [hm] at hp
      obtain ⟨o, ho, rfl⟩ := Option.map_eq_some_iff.1 hp
      exact pageEdits_streams n o ho) pw
  have hv := edits_view (root := 1) he (by
    intro n o ho
    have := pageEdits_after ho
    simp only [List.mem_cons, List.not_mem_nil, or_false] at this
    rcases this with rfl | rfl | rfl | rfl | rfl | rfl <;> (rintro m g ⟨⟩))
  let font := mapFont (([.ranges [(b!"\x00", b!"\x01", b!"A")], .other ⟨b!"endbfrange", []⟩] : List MapItem).flatMap MapItem.entries)
  refine ⟨r, F, h1, h2 _ hv 1 _ (by rw [hm]; rfl) [(b!"Type", .name b!"Catalog"), (b!"Pages", .ref 2 0)] (by show _ ∈ [_]; exact List.mem_singleton.2 rfl)
    [[(b!"Kids", .arr [.ref 3 0])], [(b!"Contents", .ref 4 0), (b!"Resources", .dict [(b!"Font", .dict [(b!"F", .ref 5 0)])])]] b!"A\n"
    ⟨[3], .visit (below := []) (rest := []) (by simp) .done .done, rfl⟩
    (.cons (l := []) (t := b!"A\n") (fonts := fun _ => none) (fun k => ?_) .nil
      (.cons (l := b!"A\n") (t := []) (fonts := fun k => if k = b!"F" then some font else none) (fun k => ?_) (.cons (l := b!"A\n") (t := []) ?_ .nil) .nil))⟩
  · refine Eq.mpr (if_neg ?_) rfl
    show ¬ k ∈ Assoc.keys ([] : Dict)
    simp [Assoc.keys]
  · by_cases hk : k = b!"F"
    · subst hk
      refine Eq.mpr (if_pos ?_) ⟨_, twoCodes_text, rfl⟩
      show b!"F" ∈ Assoc.keys ([(b!"F", .ref 5 0)] : Dict)
      simp [Assoc.keys]
    · refine Eq.mpr (if_neg ?_) (if_neg hk)
      show ¬ k ∈ Assoc.keys ([(b!"F", .ref 5 0)] : Dict)
      simp [Assoc.keys, hk]
  · exact ⟨[.block [⟨b!"Tf", [.name b!"F", .num (intNum false 1)]⟩, ⟨b!"Tj", [.str [0]]⟩]], _, codeShown, [], (List.append_nil _).symm,
      .cons (Piece.Cmds.block (cs := [⟨b!"Tf", [.name b!"F", .num (intNum false 1)]⟩, ⟨b!"Tj", [.str [0]]⟩]) (a := []) (b := [])) .nil,
      (by intro p hp; rw [List.mem_singleton] at hp; subst hp; intro c hc; simp only [List.mem_cons, List.not_mem_nil, or_false] at hc; rcases hc with rfl | rfl <;> decide),
      codeShown_cmds, ⟨[], [], rfl, .nil, .inl rfl⟩,
      .block (l := b!"A\n") (t := []) (.font rfl (.line (b := [0]) (l := b!"A") (t := []) (by decide) ⟨[[0]], [], by decide, by decide, by decide, by decide⟩ .nil)) .nil⟩

end Pdf.Props
