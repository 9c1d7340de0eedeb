import Verif.Props.Inherited
import Verif.Props.Coding
import Verif.Props.Stored
import Verif.Spec.Secret
/-!
C84: with one page tree, contents.txt is the text of its pages. C93 for encrypted streams.
-/

namespace Pdf.Props
open Pdf Pdf.Spec

theorem silent_text {ws : List Write} (h : ∀ t, .text t ∉ ws) : ws.flatMap Write.contentsTxt = [] := by
  rw [List.flatMap_eq_nil_iff]
  intro w hw
  cases w with
  | text t => exact absurd hw (h t)
  | _ => rfl

/-- What a dictionary adds to contents.txt is the text of its pages. -/
theorem reports_text {ext : Ext} {v : View} {d : Dict} {part : List Write} (hp : Reports ext v d part) :
    ∃ pages texts, Pages v d b!"Pages" pages ∧ Texts v pages texts ∧ part.flatMap Write.contentsTxt = texts.flatten := by
  obtain ⟨aa, embedded, urls, pages, texts, h1, -, -, h2, h3, rfl⟩ := hp
  refine ⟨pages, texts, h2, h3, ?_⟩
  simp only [List.flatMap_append]
  have act : ∀ l : List Dict, (l.flatMap (actionReport ext v)).flatMap Write.contentsTxt = [] := by
    intro l
    refine silent_text fun t h => ?_
    obtain ⟨a, -, h⟩ := List.mem_flatMap.1 h
    exact actionReport_text h
  have haa : aa.flatMap Write.contentsTxt = [] := by
    refine silent_text fun t h => ?_
    obtain ⟨e, -, h⟩ := List.mem_flatMap.1 (h1.mem_iff.1 h)
    obtain ⟨k, -, h⟩ := List.mem_flatMap.1 h
    obtain ⟨a, -, h⟩ := List.mem_flatMap.1 h
    exact actionReport_text h
  have hform : (formReport ext v d).flatMap Write.contentsTxt = [] := by
    refine silent_text fun t h => ?_
    rw [formReport] at h
    split at h <;> simp [dumped] at h
  have hemb : (embeddedReport ext v embedded).flatMap Write.contentsTxt = [] := by
    refine silent_text fun t h => ?_
    rw [embeddedReport] at h
    obtain ⟨o, -, h⟩ := List.mem_flatMap.1 h
    split at h
    · simp at h
    · exact absurd h fileReport_text
    · cases h
  have hscr : (scriptReport v d).flatMap Write.contentsTxt = [] := by
    refine silent_text fun t h => ?_
    rw [scriptReport] at h
    split at h <;> simp at h
  have huri : (uriReport v d).flatMap Write.contentsTxt = [] := by
    refine silent_text fun t h => ?_
    rw [uriReport] at h
    split at h <;> simp at h
  have hurl : (urlsReport v urls).flatMap Write.contentsTxt = [] := by
    refine silent_text fun t h => ?_
    rw [urlsReport] at h
    obtain ⟨o, -, h⟩ := List.mem_flatMap.1 h
    split at h <;> simp at h
  have htx : (texts.map Write.text).flatMap Write.contentsTxt = texts.flatten := by
    clear h3
    induction texts with
    | nil => rfl
    | cons t ts ih => rw [List.map_cons, List.flatMap_cons, ih, List.flatten_cons]; rfl
  rw [act, act, haa, hform, hemb, hscr, huri, hurl, htx]
  simp

/-- A dictionary without pages adds nothing. -/
theorem reports_silent {ext : Ext} {v : View} {d : Dict} {part : List Write} (hp : Reports ext v d part) (hd : v.dict d b!"Pages" = none) : part.flatMap Write.contentsTxt = [] := by
  obtain ⟨pages, texts, h1, h2, h3⟩ := reports_text hp
  rw [Pages] at h1
  simp only [hd] at h1
  subst h1
  cases h2
  exact h3

/-- If all parts but one are without text, the text is that of the one. -/
theorem parts_one {ι : Type} {R : ι → List Write → Prop} {l rest : List ι} {ws : List Write} {x : ι} {T : Bytes} (h : Parts R l ws) (hl : l.Perm (x :: rest))
    (hx : ∀ w, R x w → w.flatMap Write.contentsTxt = T) (hr : ∀ y ∈ rest, ∀ w, R y w → w.flatMap Write.contentsTxt = []) : ws.flatMap Write.contentsTxt = T := by
  obtain ⟨parts, h1, h2, rfl⟩ := h
  have h1 := h1.trans hl
  obtain ⟨q, hq, rfl⟩ := List.mem_map.1 (h1.mem_iff.2 (List.mem_cons_self ..))
  obtain ⟨a, b, rfl⟩ := List.append_of_mem hq
  have h3 : ((a ++ b).map (·.1)).Perm rest := by
    have : ((a ++ q :: b).map (·.1)).Perm (q.1 :: (a ++ b).map (·.1)) := (List.perm_middle (a := q) (l₁ := a) (l₂ := b)).map Prod.fst
    exact (this.symm.trans h1).cons_inv
  have quiet : ∀ y ∈ a ++ b, y.2.flatMap Write.contentsTxt = [] := fun y hy =>
    hr y.1 (h3.mem_iff.1 (List.mem_map_of_mem hy)) _ (h2 y (by
      rcases List.mem_append.1 hy with hy | hy
      · exact List.mem_append_left _ hy
      · exact List.mem_append_right _ (List.mem_cons_of_mem _ hy)))
  have none : ∀ c : List (ι × List Write), (∀ y ∈ c, y.2.flatMap Write.contentsTxt = []) → (c.flatMap (·.2)).flatMap Write.contentsTxt = [] := by
    intro c hc
    induction c with
    | nil => rfl
    | cons y c ih => rw [List.flatMap_cons, List.flatMap_append, hc y (List.mem_cons_self ..), ih fun z hz => hc z (List.mem_cons_of_mem _ hz)]; rfl
  rw [List.flatMap_append, List.flatMap_append, List.flatMap_cons, List.flatMap_append, none a fun y hy => quiet y (List.mem_append_left _ hy), none b fun y hy => quiet y (List.mem_append_right _ hy),
    hx _ (h2 q (by simp))]
  simp

theorem report_exact {us : List Update} {ext : Ext} {r : ParseResult} (h2 : ∀ view, Means us view → ∃ l ws, l.Nodup ∧ (∀ n, n ∈ l ↔ (meant us n).isSome) ∧ Holds r.out ws ∧
      Parts (fun n part => ∃ p, meant us n = some p ∧ ObjectReport ext view p.obj part) l (visible ws)) {view : View} (hv : Means us view) {d : Dict} (hd : OnlyPages us view d)
    {pages : List Dict} {t : Bytes} (hp : Pages view d b!"Pages" pages) (ht : PagesText view pages t) : r.out.text = t := by
  obtain ⟨l, ws, hn, h3, h4, h5⟩ := h2 view hv
  obtain ⟨n, p, a, b, g1, g2, g3, g4⟩ := hd
  obtain ⟨l1, l2, rfl⟩ := List.append_of_mem ((h3 n).2 (by rw [g1]; rfl))
  rw [h4.text, ← visible_text]
  have raw : ∀ (o : IndObj) (v : Obj), [Write.raw o v].flatMap Write.contentsTxt = [] := fun _ _ => rfl
  refine parts_one h5 List.perm_middle ?_ ?_
  · rintro w ⟨q, k1, inside, printed, k2, -, rfl⟩
    rw [g1] at k1
    cases k1
    rw [List.flatMap_append, raw, List.append_nil]
    refine parts_one k2 (x := d) (rest := a ++ b) (by rw [g2]; exact List.perm_middle) ?_ fun y hy w hw => reports_silent hw (g3 y hy)
    intro w hw
    obtain ⟨pages', texts, q1, q2, q3⟩ := reports_text hw
    cases pages_unique hp q1
    rw [q3, pagesText_texts ht texts q2]
  · rintro m hm w ⟨q, k1, inside, printed, k2, -, rfl⟩
    have hmn : m ≠ n := by
      rintro rfl
      have := (List.perm_middle (a := m) (l₁ := l1) (l₂ := l2)).nodup_iff.1 hn
      exact (List.nodup_cons.1 this).1 hm
    rw [List.flatMap_append, raw, List.append_nil]
    obtain ⟨parts, e1, e2, rfl⟩ := k2
    have : ∀ c : List (Dict × List Write), (∀ y ∈ c, y.2.flatMap Write.contentsTxt = []) → (c.flatMap (·.2)).flatMap Write.contentsTxt = [] := by
      intro c hc
      induction c with
      | nil => rfl
      | cons y c ih => rw [List.flatMap_cons, List.flatMap_append, hc y (List.mem_cons_self ..), ih fun z hz => hc z (List.mem_cons_of_mem _ hz)]; rfl
    exact this _ fun y hy => reports_silent (e2 y hy) (g4 m q hmn k1 y.1 (e1.mem_iff.1 (List.mem_map_of_mem hy)))

section
variable {sys : Sys} {P : Bytes} {us : List Update} {ext : Ext} {v : Bool}

/-- **C84, partial** If a document has one page tree, contents.txt is the text that its pages show, in order, and nothing else. Missing: as for `C84_order_partial`. -/
theorem C84_exact_partial (hf : sys.input = some (docText P us)) (hc : ∀ h, sys.canCreate h = true)
    (hd : Document ext.toCodecs P us) (hr : RightTables (docText P us) P.length us) (henc : trailerFor us b!"Encrypt" = none) (henc' : ∀ d, FirstDict us.tail d → d.get? b!"Encrypt" = none)
    (hk : KidsEnd us) (hs : StreamsLoad us) (pw : Bytes) :
    ∃ r F, (∀ f fx ft, F ≤ f → F ≤ fx → F ≤ ft → parse sys ext (some v) f fx ft pw = r) ∧ ∀ view, Means us view → ∀ d, OnlyPages us view d →
      ∀ pages t, Pages view d b!"Pages" pages → PagesText view pages t → r.out.text = t := by
  obtain ⟨r, F, h1, -, h2⟩ := C75_partial (v := v) hf hc hd hr henc henc' hk hs pw
  exact ⟨r, F, h1, fun view hv d hd pages t hp ht => report_exact h2 hv hd hp ht⟩

/-- **C84, partial** The same for encrypted documents, with the user password. Missing: as for `C84_secret_partial`. -/
theorem C84_exact_secret_partial {c : Secrecy} {skip : Option Int} {enc : Dict} {sd : StdDict} {pw : Bytes} (hf : sys.input = some (docText P us)) (hc : ∀ h, sys.canCreate h = true)
    (hd : Document (Reading.secret ext.md5 rc4 ext.toCodecs c skip) P us) (hr : RightTables (docText P us) P.length us) (ht : Typed us) (he : EncryptAt us enc skip) (hs : StdEntries us enc sd)
    (hp : UserPassword ext.md5 rc4 sd pw) (hk : Keys ext.md5 enc sd pw c) (hki : KidsEnd us) (hst : StreamsLoad us) :
    ∃ r F, (∀ f fx ft, F ≤ f → F ≤ fx → F ≤ ft → parse sys ext (some v) f fx ft pw = r) ∧ ∀ view, Means us view → ∀ d, OnlyPages us view d →
      ∀ pages t, Pages view d b!"Pages" pages → PagesText view pages t → r.out.text = t := by
  obtain ⟨r, F, h1, -, h2, -⟩ := C76_report_partial (v := v) hf hc hd hr ht he hs hp hk hki hst
  exact ⟨r, F, h1, fun view hv d hd pages t hp ht => report_exact h2 hv hd hp ht⟩

end

/-- C84 for a document with one page: contents.txt is `A` and a line feed. -/
example (sys : Sys) (ext : Ext) (hf : sys.input = some (fileText 1 ownEdits)) (hc : ∀ h, sys.canCreate h = true) (pw : Bytes) :
    ∃ r F, (∀ f fx ft, F ≤ f → F ≤ fx → F ≤ ft → parse sys ext (some true) f fx ft pw = r) ∧ r.out.text = b!"A\n" := by
  obtain ⟨h1, h2, h3, h4, h5, h6, h7, h8⟩ := document_of_check ownEdits_check ext.toCodecs
  obtain ⟨r, F, g1, g2⟩ := C84_exact_partial (v := true) (by rw [docText_updates]; exact hf) hc h1 h2 h3 h4 h5 h6 pw
  let font := mapFont (([.ranges [(b!"\x00", b!"\x01", b!"A")], .other ⟨b!"endbfrange", []⟩] : List MapItem).flatMap MapItem.entries)
  refine ⟨r, F, g1, g2 _ h7 [(b!"Type", .name b!"Catalog"), (b!"Pages", .ref 2 0)] ⟨1, _, [], [], by rw [h8]; rfl, rfl, (fun x hx => by cases hx), ?_⟩
    [[(b!"Kids", .arr [.ref 3 0]), (b!"Resources", .dict [])], [(b!"Contents", .ref 4 0), (b!"Resources", .dict [(b!"Font", .dict [(b!"F", .ref 5 0)])])]] b!"A\n"
    ⟨[3], .visit (below := []) (rest := []) (by simp) .done .done, rfl⟩
    (.cons (l := []) (t := b!"A\n") (fonts := fun _ => none) (fun k => ?_) .nil
      (.cons (l := b!"A\n") (t := []) (fonts := fun k => if k = b!"F" then some font else none) (fun k => ?_)
        (.cons (l := b!"A\n") (t := []) (codeShown_shows (l := b!"A") ⟨[[0]], [], by decide, by decide, by decide, by decide⟩) .nil) .nil))⟩
  · intro m q hm hq x hx
    rw [h8] at hq
    obtain ⟨o, ho, rfl⟩ := Option.map_eq_some_iff.1 hq
    obtain ⟨e, he, hoe, hnum⟩ := after_put ho
    simp only [ownEdits, List.mem_singleton] at he
    subst he
    simp only [List.mem_cons, List.not_mem_nil, or_false] at hoe
    rcases hoe with rfl | rfl | rfl | rfl | rfl | rfl <;> simp [dictsOf, reread, dictsIn, dictsInValues, dictsInList] at hx
    · exact absurd hnum.symm hm
    · rcases hx with rfl | rfl <;> rfl
    · rcases hx with rfl | rfl | rfl <;> rfl
    · subst hx; rfl
    · subst hx; rfl
    · subst hx; rfl
  · refine Eq.mpr (if_neg ?_) rfl
    show ¬ k ∈ Assoc.keys ([] : Dict)
    simp [Assoc.keys]
  · by_cases hk : k = b!"F"
    · subst hk
      refine Eq.mpr (if_pos ?_) ⟨_, twoCodes_text, rfl⟩
      show b!"F" ∈ Assoc.keys ([(b!"F", .ref 5 0)] : Dict)
      simp [Assoc.keys]
    · refine Eq.mpr (if_neg ?_) (if_neg hk)
      show ¬ k ∈ Assoc.keys ([(b!"F", .ref 5 0)] : Dict)
      simp [Assoc.keys, hk]

/-! ### Encrypted streams with filters -/

/-- **C93, partial** In the encrypted documents of C76, a stream that is encoded by filters and then encrypted stands for the data. Missing: as for `C93_filter_partial`. -/
theorem C93_secret_partial {md5 : Bytes → Bytes} {cd : Codecs} (hl : cd.lzw = lzwReader) (hz : cd.zlib = zlibReader) {c : Secrecy} {skip : Option Int} {n g : Int} {D : Dict} {fs : List Bytes} {ps : List Dict}
    {d raw : Bytes} (hf : Filters D fs) (hp : Spec.Parms D ps) (ht : ∀ a b, Assoc.get? D b!"Type" ≠ some (.ref a b)) (hx : NotXref ⟨n, g, .dict D, some d⟩) (hs : skip ≠ some n) (h : CodedBy fs ps d raw) (hd : d ≠ []) :
    (Reading.secret md5 rc4 cd c skip).rel (sealed md5 rc4 c ⟨n, g, .dict D, some raw⟩) ⟨n, g, .dict D, some d⟩ :=
  .hidden hx hs (C93_object_partial hl hz hf hp ht h hd)

example (c : Secrecy) : (Reading.secret Concrete.ext.md5 rc4 Concrete.ext.toCodecs c (some 9)).rel (sealed Concrete.ext.md5 rc4 c ⟨4, 0, .dict codedDict, some codedRaw⟩) ⟨4, 0, .dict codedDict, some codedData⟩ :=
  C93_secret_partial rfl rfl (.many (fs := [_, _]) rfl) (.many rfl (.cons .null (.cons .dict .nil))) (by intro a b h; cases h) (by intro D h hT; cases h; cases hT) (by decide) codedRaw_codes (by decide)

end Pdf.Props
