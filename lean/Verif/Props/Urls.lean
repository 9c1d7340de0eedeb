import Verif.Props.Files
/-!
C88, C89: URLs and scripts.
-/

namespace Pdf.Props
open Pdf Spec

/-! ### Lists of names and values -/

theorem alternate_iff_name {o : Obj} : ∀ {l : List Obj}, o ∈ alternate l ↔ NameIn o l
  | [] => ⟨(fun h => by cases h), (fun h => by cases h)⟩
  | [a] => ⟨(fun h => by cases List.mem_singleton.1 h; exact .here), (fun h => by cases h; simp [alternate])⟩
  | a :: b :: t => by
    rw [alternate, List.mem_cons, alternate_iff_name (l := t)]
    constructor
    · rintro (rfl | h)
      · exact .here
      · exact .there h
    · intro h
      cases h with
      | here => exact .inl rfl
      | there h => exact .inr h

theorem alternate_value {o : Obj} : ∀ {l : List Obj}, o ∈ alternate l.tail → ValueIn o l
  | [], h => by cases h
  | [a], h => by cases h
  | [a, b], h => by cases List.mem_singleton.1 h; exact .here
  | a :: b :: c :: t, h => by
    rw [List.tail_cons, alternate, List.mem_cons] at h
    rcases h with rfl | h
    · exact .here
    · exact .there (alternate_value (l := c :: t) h)

theorem _root_.Pdf.Spec.NameIn.append_left {o : Obj} {l r : List Obj} (h : NameIn o l) : NameIn o (l ++ r) := by
  induction h with
  | here => exact .here
  | there _ ih => exact .there ih

theorem _root_.Pdf.Spec.NameIn.append_right {o : Obj} {r : List Obj} (h : NameIn o r) : ∀ {l : List Obj}, l.length % 2 = 0 → NameIn o (l ++ r)
  | [], _ => h
  | [_], hl => by simp at hl
  | a :: b :: l, hl => .there (append_right h (l := l) (by simp at hl; omega))

theorem name_append {o : Obj} {r : List Obj} : ∀ {l : List Obj}, l.length % 2 = 0 → NameIn o (l ++ r) → NameIn o l ∨ NameIn o r
  | [], _, h => .inr h
  | [_], hl, _ => by simp at hl
  | a :: b :: l, hl, h => by
    cases h with
    | here => exact .inl .here
    | there h => exact (name_append (l := l) (by simp at hl; omega) h).imp .there id

theorem value_append {o : Obj} {r : List Obj} : ∀ {l : List Obj}, l.length % 2 = 0 → ValueIn o (l ++ r) → ValueIn o l ∨ ValueIn o r
  | [], _, h => .inr h
  | [_], hl, _ => by simp at hl
  | a :: b :: l, hl, h => by
    cases h with
    | here => exact .inl .here
    | there h => exact (value_append (l := l) (by simp at hl; omega) h).imp .there id

theorem name_flatMap {o : Obj} {g : Dict → List Obj} {V : List Dict} (hl : ∀ d ∈ V, (g d).length % 2 = 0) : NameIn o (V.flatMap g) ↔ ∃ e ∈ V, NameIn o (g e) := by
  induction V with
  | nil => exact ⟨(fun h => by cases h), (fun ⟨e, he, _⟩ => by cases he)⟩
  | cons d V ih =>
    rw [List.flatMap_cons]
    have ih := ih fun d hd => hl d (by simp [hd])
    constructor
    · intro h
      rcases name_append (hl d (by simp)) h with h | h
      · exact ⟨d, by simp, h⟩
      · obtain ⟨e, he, h⟩ := ih.1 h
        exact ⟨e, by simp [he], h⟩
    · rintro ⟨e, he, h⟩
      rcases List.mem_cons.1 he with rfl | he
      · exact h.append_left
      · exact (ih.2 ⟨e, he, h⟩).append_right (hl d (by simp))

theorem value_flatMap {o : Obj} {g : Dict → List Obj} {V : List Dict} (hl : ∀ d ∈ V, (g d).length % 2 = 0) (h : ValueIn o (V.flatMap g)) : ∃ e ∈ V, ValueIn o (g e) := by
  induction V with
  | nil => cases h
  | cons d V ih =>
    rw [List.flatMap_cons] at h
    rcases value_append (hl d (by simp)) h with h | h
    · exact ⟨d, by simp, h⟩
    · obtain ⟨e, he, h⟩ := ih (fun d hd => hl d (by simp [hd])) h
      exact ⟨e, by simp [he], h⟩

/-! ### URLs of a dictionary -/

theorem fileReport_url {ext : Ext} {v : View} {b : Bool} {f : Dict} {u : Bytes} : .url u ∈ fileReport ext v b f ↔ ByString v f ∧ v.string f b!"F" = some u := by
  rw [fileReport, ByString]
  split
  · rename_i h
    simp [h]
  · rename_i h
    refine ⟨fun hw => ?_, fun hw => absurd hw.1 h⟩
    split at hw
    · simp [dumped] at hw
    · simp at hw
    · cases b <;> simp at hw
    · cases hw

theorem actionReport_url {ext : Ext} {v : View} {a : Dict} {u : Bytes} : .url u ∈ actionReport ext v a ↔ ∃ k f, (k = b!"F" ∨ k = b!"Win") ∧ v.dict a k = some f ∧ ByString v f ∧ v.string f b!"F" = some u := by
  rw [actionReport, List.mem_append]
  constructor
  · rintro (h | h)
    · split at h
      · simp at h
      · rename_i f _ hf
        exact ⟨_, f, .inl rfl, hf, fileReport_url.1 h⟩
      · cases h
    · obtain ⟨f, hf, h⟩ := List.mem_flatMap.1 h
      exact ⟨_, f, .inr rfl, Option.mem_toList.1 hf, fileReport_url.1 h⟩
  · rintro ⟨k, f, rfl | rfl, hf, h⟩
    · left
      have : v.string a b!"F" = none := by
        rw [View.dict] at hf
        rw [View.string]
        cases hx : v.at_ a b!"F" with
        | none => rfl
        | some o => rw [hx] at hf; cases o <;> first | rfl | cases hf
      rw [this, hf]
      exact fileReport_url.2 h
    · right
      rw [hf]
      simpa using fileReport_url.2 h

theorem uriReport_url {v : View} {d : Dict} {u : Bytes} (h : .url u ∈ uriReport v d) : UrlIn ByString v d u := by
  rw [uriReport] at h
  split at h
  · rename_i h'
    simp only [List.mem_singleton, Write.url.injEq] at h
    subst h
    exact .uri h'
  · rename_i e _ h'
    simp only [List.mem_map, Option.mem_toList, Write.url.injEq, exists_eq_right] at h
    exact .base h' h
  · cases h

theorem url_reported {ext : Ext} {v : View} {d : Dict} {part : List Write} {u : Bytes} (h : UrlIn ByString v d u) (hp : Reports ext v d part) : .url u ∈ part := by
  cases h with
  | uri h =>
    obtain ⟨aa, embedded, urls, pages, texts, -, -, -, -, -, rfl⟩ := hp
    simp [uriReport, h]
  | @base e h h' =>
    obtain ⟨aa, embedded, urls, pages, texts, -, -, -, -, -, rfl⟩ := hp
    have : v.string d b!"URI" = none := by
      rw [View.dict] at h
      rw [View.string]
      cases hx : v.at_ d b!"URI" with
      | none => rfl
      | some o => rw [hx] at h; cases o <;> first | rfl | cases h
    simp [uriReport, h, this, h']
  | @tree root e o h1 h2 h3 h4 h5 =>
    obtain ⟨aa, embedded, urls, pages, texts, -, -, hn, -, -, rfl⟩ := hp
    rw [Names, h1] at hn
    obtain ⟨below, numbers, hn, rfl⟩ := hn
    obtain ⟨V, hV, hb⟩ := hn.blocks
    have : .url u ∈ urlsReport v (namesOf v.value root ++ below) := by
      rw [urlsReport, hb]
      exact List.mem_flatMap.2 ⟨o, alternate_iff_name.2 ((name_flatMap fun d hd => h2 d ((hV d).1 hd)).2 ⟨e, (hV e).2 h3, h4⟩), by rw [h5]; simp⟩
    simp [this]
  | @file f h h1 h2 =>
    cases h with
    | @action a k ha hk hf => exact ActionOf.reported ha hp _ (actionReport_url.2 ⟨k, f, hk, hf, h1, h2⟩)
    | tree h =>
      obtain ⟨aa, embedded, urls, pages, texts, -, he, -, -, -, rfl⟩ := hp
      have := InTree.reported (ext := ext) h he (.url u) (fileReport_url.2 ⟨h1, h2⟩)
      simp [this]

theorem reported_url {ext : Ext} {v : View} {d : Dict} {part : List Write} {u : Bytes} (hp : Reports ext v d part) (ht : TreesPaired v d) (h : .url u ∈ part) : UrlIn ByString v d u := by
  obtain ⟨aa, embedded, urls, pages, texts, h1, h2, h3, -, -, rfl⟩ := hp
  have act : ∀ a, ActionOf v d a → .url u ∈ actionReport ext v a → UrlIn ByString v d u := by
    intro a ha hw
    obtain ⟨k, f, hk, hf, g1, g2⟩ := actionReport_url.1 hw
    exact .file (.action ha hk hf) g1 g2
  simp only [List.mem_append] at h
  rcases h with (((((((h | h) | h) | h) | h) | h) | h) | h) | h
  · obtain ⟨a, ha, h⟩ := List.mem_flatMap.1 h
    exact act a (.action (Option.mem_toList.1 ha)) h
  · obtain ⟨a, ha, h⟩ := List.mem_flatMap.1 h
    exact act a (.openAction (Option.mem_toList.1 ha)) h
  · obtain ⟨e, he, h⟩ := List.mem_flatMap.1 (h1.mem_iff.1 h)
    obtain ⟨k, hk, h⟩ := List.mem_flatMap.1 h
    obtain ⟨a, ha, h⟩ := List.mem_flatMap.1 h
    exact act a (.additional (Option.mem_toList.1 he) hk (Option.mem_toList.1 ha)) h
  · rw [formReport] at h
    split at h <;> simp [dumped] at h
  · rw [embeddedReport] at h
    obtain ⟨o, ho, hw⟩ := List.mem_flatMap.1 h
    rw [Names] at h2
    cases hr : v.dict d b!"EmbeddedFiles" with
    | none => rw [hr] at h2; subst h2; cases ho
    | some root =>
      rw [hr] at h2
      obtain ⟨below, numbers, hn, rfl⟩ := h2
      obtain ⟨V, hV, hb⟩ := hn.blocks
      have hpd := ht root (.inr hr)
      rw [hb] at ho
      obtain ⟨e, he, ho⟩ := value_flatMap (fun d hd => hpd d ((hV d).1 hd)) (alternate_value ho)
      split at hw
      · simp at hw
      · rename_i f hf
        obtain ⟨g1, g2⟩ := fileReport_url.1 hw
        exact .file (.tree (.mk hr hpd ((hV e).1 he) ho hf)) g1 g2
      · cases hw
  · rw [scriptReport] at h
    split at h <;> simp at h
  · obtain ⟨t, -, h⟩ := List.mem_map.1 h
    cases h
  · exact uriReport_url h
  · rw [urlsReport] at h
    obtain ⟨o, ho, hw⟩ := List.mem_flatMap.1 h
    rw [Names] at h3
    cases hr : v.dict d b!"URLS" with
    | none => rw [hr] at h3; subst h3; cases ho
    | some root =>
      rw [hr] at h3
      obtain ⟨below, numbers, hn, rfl⟩ := h3
      obtain ⟨V, hV, hb⟩ := hn.blocks
      have hpd := ht root (.inl hr)
      rw [hb] at ho
      obtain ⟨e, he, ho⟩ := (name_flatMap fun d hd => hpd d ((hV d).1 hd)).1 (alternate_iff_name.1 ho)
      split at hw
      · rename_i u' hu
        simp only [List.mem_singleton, Write.url.injEq] at hw
        subst hw
        exact .tree hr hpd ((hV e).1 he) ho hu
      · cases hw

/-! ### Scripts of a dictionary -/

theorem script_reported {ext : Ext} {v : View} {d : Dict} {part : List Write} {js : Bytes} (h : ScriptIn v d js) (hp : Reports ext v d part) : .js js ∈ part := by
  obtain ⟨aa, embedded, urls, pages, texts, -, -, -, -, -, rfl⟩ := hp
  have : .js js ∈ scriptReport v d := by
    rw [scriptReport]
    cases h with
    | string h => simp [h]
    | stream h1 h2 h3 => simp [h2, View.streamAt, h1, View.streamOf, h3]
  simp [this]

theorem fileReport_js {ext : Ext} {v : View} {b : Bool} {f : Dict} {js : Bytes} : .js js ∉ fileReport ext v b f := by
  rw [fileReport]
  split
  · simp
  · split
    · simp [dumped]
    · simp
    · cases b <;> simp
    · simp

theorem actionReport_js {ext : Ext} {v : View} {a : Dict} {js : Bytes} : .js js ∉ actionReport ext v a := by
  rw [actionReport, List.mem_append, not_or]
  constructor
  · split
    · simp
    · exact fileReport_js
    · simp
  · intro h
    obtain ⟨f, -, h⟩ := List.mem_flatMap.1 h
    exact fileReport_js h

theorem reported_script {ext : Ext} {v : View} {d : Dict} {part : List Write} {js : Bytes} (hp : Reports ext v d part) (h : .js js ∈ part) : ScriptIn v d js ∨ js = [] := by
  obtain ⟨aa, embedded, urls, pages, texts, h1, -, -, -, -, rfl⟩ := hp
  simp only [List.mem_append] at h
  rcases h with (((((((h | h) | h) | h) | h) | h) | h) | h) | h
  · obtain ⟨a, -, h⟩ := List.mem_flatMap.1 h
    exact absurd h actionReport_js
  · obtain ⟨a, -, h⟩ := List.mem_flatMap.1 h
    exact absurd h actionReport_js
  · obtain ⟨e, -, h⟩ := List.mem_flatMap.1 (h1.mem_iff.1 h)
    obtain ⟨k, -, h⟩ := List.mem_flatMap.1 h
    obtain ⟨a, -, h⟩ := List.mem_flatMap.1 h
    exact absurd h actionReport_js
  · rw [formReport] at h
    split at h <;> simp [dumped] at h
  · rw [embeddedReport] at h
    obtain ⟨o, -, h⟩ := List.mem_flatMap.1 h
    split at h
    · simp at h
    · exact absurd h fileReport_js
    · cases h
  · rw [scriptReport] at h
    split at h
    · rename_i h'
      simp only [List.mem_singleton, Write.js.injEq] at h
      subst h
      exact .inl (.string h')
    · rename_i b h' hb
      simp only [List.mem_singleton, Write.js.injEq] at h
      subst h
      rw [View.streamAt] at hb
      obtain ⟨o, ho, hb⟩ := Option.bind_eq_some_iff.1 hb
      cases o with
      | ref n g =>
        cases hb
        cases hs : v.stream n with
        | none => exact .inr rfl
        | some x => exact .inl (.stream ho h' (by rw [hs]; rfl))
      | _ => cases hb
    · cases h
  · obtain ⟨t, -, h⟩ := List.mem_map.1 h
    cases h
  · rw [uriReport] at h
    split at h <;> simp at h
  · rw [urlsReport] at h
    obtain ⟨o, -, h⟩ := List.mem_flatMap.1 h
    split at h <;> simp at h

/-! ### The report -/

/-- What is written for some dictionary of the document is written, and the other way round. -/
theorem written_iff {us : List Update} {ext : Ext} {view : View} {l : List Int} {ws : List Write} (h3 : ∀ n, n ∈ l ↔ (meant us n).isSome)
    (h5 : Parts (fun n part => ∃ p, meant us n = some p ∧ ObjectReport ext view p.obj part) l (visible ws)) {w : Write} (hk : w.kind ≠ .errors) (hr : w.kind ≠ .raw) (h : w ∈ ws) :
    ∃ n p, meant us n = some p ∧ ∃ d ∈ dictsOf p.obj, ∃ part, Reports ext view d part ∧ w ∈ part := by
  obtain ⟨parts, g1, g2, g3⟩ := h5
  have : w ∈ visible ws := List.mem_filter.2 ⟨h, by simpa using hk⟩
  rw [g3] at this
  obtain ⟨x, hx, hw⟩ := List.mem_flatMap.1 this
  obtain ⟨p, k1, inside, printed, ⟨ps, q1, q2, q3⟩, -, k2⟩ := g2 x hx
  rw [k2] at hw
  rcases List.mem_append.1 hw with hw | hw
  · rw [q3] at hw
    obtain ⟨y, hy, hw⟩ := List.mem_flatMap.1 hw
    exact ⟨_, p, k1, _, q1.mem_iff.1 (List.mem_map.2 ⟨y, hy, rfl⟩), _, q2 y hy, hw⟩
  · rw [List.mem_singleton.1 hw] at hr
    exact absurd rfl hr

/-- The scripts among the writes. -/
def scriptsOf (ws : List Write) : List Bytes := ws.filterMap fun w => match w with | .js b => some b | _ => none

theorem report_urls {us : List Update} {ext : Ext} {r : ParseResult} (h2 : ∀ view, Means us view → ∃ l ws, l.Nodup ∧ (∀ n, n ∈ l ↔ (meant us n).isSome) ∧ Holds r.out ws ∧
      Parts (fun n part => ∃ p, meant us n = some p ∧ ObjectReport ext view p.obj part) l (visible ws)) {view : View} (hv : Means us view) :
    (∃ urls : List Bytes, r.out.urls = urls.flatMap (· ++ b!"\n") ∧ (∀ d, DictIn us d → ∀ u, UrlIn ByString view d u → u ∈ urls) ∧
      ((∀ d, DictIn us d → TreesPaired view d) → ∀ u ∈ urls, ∃ d, DictIn us d ∧ UrlIn ByString view d u)) ∧
    ∃ scripts : List Bytes, r.out.javascript = scripts.flatMap (· ++ b!"\n") ∧ (∀ d, DictIn us d → ∀ js, ScriptIn view d js → js ∈ scripts) ∧
      ∀ js ∈ scripts, js = [] ∨ ∃ d, DictIn us d ∧ ScriptIn view d js := by
  obtain ⟨l, ws, -, h3, h4, h5⟩ := h2 view hv
  have has : ∀ d, DictIn us d → ∃ part, Reports ext view d part ∧ ∀ w ∈ part, w ∈ ws := by
    rintro d ⟨n, p, hm, hd⟩
    exact part_has h5 ((h3 n).2 (by rw [hm]; rfl)) hm hd
  refine ⟨⟨urlsOf ws, ?_, fun d hd u hu => ?_, fun ht u hu => ?_⟩, scriptsOf ws, ?_, fun d hd js hjs => ?_, fun js hjs => ?_⟩
  · rw [h4.urls, urlsOf]
    clear h4 h5 has
    induction ws with
    | nil => rfl
    | cons w ws ih =>
      rw [List.flatMap_cons, ih]
      cases w <;> simp [Write.urlsTxt]
  · obtain ⟨part, hp, hw⟩ := has d hd
    exact List.mem_filterMap.2 ⟨.url u, hw _ (url_reported hu hp), rfl⟩
  · obtain ⟨w, hw, he⟩ := List.mem_filterMap.1 hu
    cases w with
    | url b =>
      cases he
      obtain ⟨n, p, hm, d, hd, part, hp, hw⟩ := written_iff h3 h5 (by simp [Write.kind]) (by simp [Write.kind]) hw
      exact ⟨d, ⟨n, p, hm, hd⟩, reported_url hp (ht d ⟨n, p, hm, hd⟩) hw⟩
    | _ => cases he
  · rw [h4.javascript, scriptsOf]
    clear h4 h5 has
    induction ws with
    | nil => rfl
    | cons w ws ih =>
      rw [List.flatMap_cons, ih]
      cases w <;> simp [Write.javascriptJs]
  · obtain ⟨part, hp, hw⟩ := has d hd
    exact List.mem_filterMap.2 ⟨.js js, hw _ (script_reported hjs hp), rfl⟩
  · obtain ⟨w, hw, he⟩ := List.mem_filterMap.1 hjs
    cases w with
    | js b =>
      cases he
      obtain ⟨n, p, hm, d, hd, part, hp, hw⟩ := written_iff h3 h5 (by simp [Write.kind]) (by simp [Write.kind]) hw
      rcases reported_script hp hw with h | h
      · exact .inr ⟨d, ⟨n, p, hm, hd⟩, h⟩
      · exact .inl h
    | _ => cases he

/-! ### C88, C89 -/

section
variable {sys : Sys} {P : Bytes} {us : List Update} {ext : Ext} {v : Bool}

/-- **C88, partial** urls.txt has every URL of a document on a line of its own, and nothing else, when in its name trees names and values alternate.
Missing: URL file specifications as ISO 32000-1 has them, with a name as /FS (`C88_false`), and those that are neither of an action nor in the tree of embedded files; as for `C75_partial`. -/
theorem C88_partial (hf : sys.input = some (docText P us)) (hc : ∀ h, sys.canCreate h = true)
    (hd : Document ext.toCodecs P us) (hr : RightTables (docText P us) P.length us) (henc : trailerFor us b!"Encrypt" = none) (henc' : ∀ d, FirstDict us.tail d → d.get? b!"Encrypt" = none)
    (hk : KidsEnd us) (hs : StreamsLoad us) (pw : Bytes) :
    ∃ r F, (∀ f fx ft, F ≤ f → F ≤ fx → F ≤ ft → parse sys ext (some v) f fx ft pw = r) ∧ ∀ view, Means us view → ∃ urls : List Bytes, r.out.urls = urls.flatMap (· ++ b!"\n") ∧
      (∀ d, DictIn us d → ∀ u, UrlIn ByString view d u → u ∈ urls) ∧
      ((∀ d, DictIn us d → TreesPaired view d) → ∀ u ∈ urls, ∃ d, DictIn us d ∧ UrlIn ByString view d u) := by
  obtain ⟨r, F, h1, -, h2⟩ := C75_partial (v := v) hf hc hd hr henc henc' hk hs pw
  exact ⟨r, F, h1, fun view hv => (report_urls h2 hv).1⟩

/-- **C89, partial** javascript.js has every script of a document, followed by a line break, and nothing else, except for empty lines. Missing: as for `C75_partial`. -/
theorem C89_partial (hf : sys.input = some (docText P us)) (hc : ∀ h, sys.canCreate h = true)
    (hd : Document ext.toCodecs P us) (hr : RightTables (docText P us) P.length us) (henc : trailerFor us b!"Encrypt" = none) (henc' : ∀ d, FirstDict us.tail d → d.get? b!"Encrypt" = none)
    (hk : KidsEnd us) (hs : StreamsLoad us) (pw : Bytes) :
    ∃ r F, (∀ f fx ft, F ≤ f → F ≤ fx → F ≤ ft → parse sys ext (some v) f fx ft pw = r) ∧ ∀ view, Means us view → ∃ scripts : List Bytes, r.out.javascript = scripts.flatMap (· ++ b!"\n") ∧
      (∀ d, DictIn us d → ∀ js, ScriptIn view d js → js ∈ scripts) ∧ ∀ js ∈ scripts, js = [] ∨ ∃ d, DictIn us d ∧ ScriptIn view d js := by
  obtain ⟨r, F, h1, -, h2⟩ := C75_partial (v := v) hf hc hd hr henc henc' hk hs pw
  exact ⟨r, F, h1, fun view hv => (report_urls h2 hv).2⟩

/-- **C88 and C89, partial** The same for encrypted documents, with the user password. Missing: as for `C76_report_partial`, `C88_partial` and `C89_partial`. -/
theorem C88_secret_partial {c : Secrecy} {skip : Option Int} {enc : Dict} {sd : StdDict} {pw : Bytes} (hf : sys.input = some (docText P us)) (hc : ∀ h, sys.canCreate h = true)
    (hd : Document (Reading.secret ext.md5 rc4 ext.toCodecs c skip) P us) (hr : RightTables (docText P us) P.length us) (ht : Typed us) (he : EncryptAt us enc skip) (hs : StdEntries us enc sd)
    (hp : UserPassword ext.md5 rc4 sd pw) (hk : Keys ext.md5 enc sd pw c) (hki : KidsEnd us) (hst : StreamsLoad us) :
    ∃ r F, (∀ f fx ft, F ≤ f → F ≤ fx → F ≤ ft → parse sys ext (some v) f fx ft pw = r) ∧ ∀ view, Means us view →
      (∃ urls : List Bytes, r.out.urls = urls.flatMap (· ++ b!"\n") ∧ (∀ d, DictIn us d → ∀ u, UrlIn ByString view d u → u ∈ urls) ∧
        ((∀ d, DictIn us d → TreesPaired view d) → ∀ u ∈ urls, ∃ d, DictIn us d ∧ UrlIn ByString view d u)) ∧
      ∃ scripts : List Bytes, r.out.javascript = scripts.flatMap (· ++ b!"\n") ∧ (∀ d, DictIn us d → ∀ js, ScriptIn view d js → js ∈ scripts) ∧
        ∀ js ∈ scripts, js = [] ∨ ∃ d, DictIn us d ∧ ScriptIn view d js := by
  obtain ⟨r, F, h1, -, h2, -⟩ := C76_report_partial (v := v) hf hc hd hr ht he hs hp hk hki hst
  exact ⟨r, F, h1, fun view hv => report_urls h2 hv⟩

end

/-! ### Documents -/

/-- A document with two URLs and two scripts. -/
def linkEdits : List Edit := [⟨[
  ⟨1, 0, .dict [(b!"URI", .dict [(b!"Base", .str b!"http://a/")]), (b!"OpenAction", .dict [(b!"S", .name b!"JavaScript"), (b!"JS", .str b!"f;")])], none⟩,
  ⟨2, 0, .dict [(b!"S", .name b!"URI"), (b!"URI", .str b!"b.html")], none⟩,
  ⟨3, 0, .dict [(b!"S", .name b!"JavaScript"), (b!"JS", .ref 4 0)], none⟩,
  ⟨4, 0, .dict [(b!"Length", .num (.fin 3))], some b!"gg;"⟩], [0]⟩]

theorem linkEdits_check : documentB linkEdits = true := by decide +kernel

example (sys : Sys) (ext : Ext) (hf : sys.input = some (fileText 1 linkEdits)) (hc : ∀ h, sys.canCreate h = true) (pw : Bytes) :
    ∃ r F, (∀ f fx ft, F ≤ f → F ≤ fx → F ≤ ft → parse sys ext (some true) f fx ft pw = r) ∧ ∃ urls : List Bytes, r.out.urls = urls.flatMap (· ++ b!"\n") ∧ b!"http://a/" ∈ urls ∧ b!"b.html" ∈ urls := by
  obtain ⟨h1, h2, h3, h4, h5, h6, h7, h8⟩ := document_of_check linkEdits_check ext.toCodecs
  obtain ⟨r, F, g1, g2⟩ := C88_partial (v := true) (by rw [docText_updates]; exact hf) hc h1 h2 h3 h4 h5 h6 pw
  obtain ⟨urls, k1, k2, -⟩ := g2 _ h7
  exact ⟨r, F, g1, urls, k1, k2 _ ⟨1, _, by rw [h8]; rfl, List.mem_cons_self ..⟩ _ (.base rfl rfl), k2 _ ⟨2, _, by rw [h8]; rfl, List.mem_cons_self ..⟩ _ (.uri rfl)⟩

example (sys : Sys) (ext : Ext) (hf : sys.input = some (fileText 1 linkEdits)) (hc : ∀ h, sys.canCreate h = true) (pw : Bytes) :
    ∃ r F, (∀ f fx ft, F ≤ f → F ≤ fx → F ≤ ft → parse sys ext (some true) f fx ft pw = r) ∧ ∃ scripts : List Bytes, r.out.javascript = scripts.flatMap (· ++ b!"\n") ∧ b!"f;" ∈ scripts ∧ b!"gg;" ∈ scripts := by
  obtain ⟨h1, h2, h3, h4, h5, h6, h7, h8⟩ := document_of_check linkEdits_check ext.toCodecs
  obtain ⟨r, F, g1, g2⟩ := C89_partial (v := true) (by rw [docText_updates]; exact hf) hc h1 h2 h3 h4 h5 h6 pw
  obtain ⟨scripts, k1, k2, -⟩ := g2 _ h7
  refine ⟨r, F, g1, scripts, k1, k2 [(b!"S", .name b!"JavaScript"), (b!"JS", .str b!"f;")] ⟨1, _, by rw [h8]; rfl, ?_⟩ _ (.string rfl), k2 _ ⟨3, _, by rw [h8]; rfl, List.mem_cons_self ..⟩ _ (.stream rfl rfl rfl)⟩
  show _ ∈ dictsIn _
  simp [dictsIn, dictsInValues]

/-- A document that opens a URL, given by a file specification. -/
def specEdits : List Edit := [⟨[⟨1, 0, .dict [(b!"OpenAction", .ref 2 0)], none⟩, ⟨2, 0, .dict [(b!"S", .name b!"GoToR"), (b!"F", .ref 3 0)], none⟩,
  ⟨3, 0, .dict [(b!"FS", .name b!"URL"), (b!"F", .str b!"http://a/")], none⟩], [0]⟩]

theorem specEdits_check : documentB specEdits = true := by decide +kernel

/-- **C88 fails** for URLs given by a file specification as ISO 32000-1 has it: urls.txt is empty. -/
theorem C88_false {sys : Sys} (ext : Ext) (hf : sys.input = some (fileText 1 specEdits)) (hc : ∀ h, sys.canCreate h = true) (pw : Bytes) :
    ∃ us, docText docHead us = fileText 1 specEdits ∧ Document ext.toCodecs docHead us ∧ RightTables (docText docHead us) docHead.length us ∧
      (∃ view d, Means us view ∧ DictIn us d ∧ UrlIn ByName view d b!"http://a/") ∧
      ∃ r F, (∀ f fx ft, F ≤ f → F ≤ fx → F ≤ ft → parse sys ext (some true) f fx ft pw = r) ∧ r.out.urls = [] := by
  obtain ⟨h1, h2, h3, h4, h5, h6, h7, h8⟩ := document_of_check specEdits_check ext.toCodecs
  obtain ⟨r, F, g1, g2⟩ := C88_partial (v := true) (by rw [docText_updates]; exact hf) hc h1 h2 h3 h4 h5 h6 pw
  refine ⟨_, docText_updates 1 specEdits, h1, h2, ⟨viewOf specEdits, _, h7, ⟨1, _, by rw [h8]; rfl, List.mem_cons_self ..⟩, .file (.action (.openAction rfl) (.inl rfl) rfl) (f := [(b!"FS", .name b!"URL"), (b!"F", .str b!"http://a/")]) (by unfold ByName; rfl) rfl⟩, r, F, g1, ?_⟩
  obtain ⟨urls, k1, -, k2⟩ := g2 _ h7
  have hd : ∀ d, DictIn (updatesOf 1 9 none specEdits) d → d = [(b!"OpenAction", .ref 2 0)] ∨ d = [(b!"S", .name b!"GoToR"), (b!"F", .ref 3 0)] ∨ d = [(b!"FS", .name b!"URL"), (b!"F", .str b!"http://a/")] := by
    rintro d ⟨n, p, hp, hd⟩
    rw [h8] at hp
    obtain ⟨o, ho, rfl⟩ := Option.map_eq_some_iff.1 hp
    obtain ⟨e, he, hoe⟩ := after_mem ho
    simp only [specEdits, List.mem_singleton] at he
    subst he
    simp only [List.mem_cons, List.not_mem_nil, or_false] at hoe
    rcases hoe with rfl | rfl | rfl
    · left; simpa [dictsOf, pieceOf, reread, dictsIn, dictsInValues] using hd
    · right; left; simpa [dictsOf, pieceOf, reread, dictsIn, dictsInValues] using hd
    · right; right; simpa [dictsOf, pieceOf, reread, dictsIn, dictsInValues] using hd
  have hn : urls = [] := by
    rw [List.eq_nil_iff_forall_not_mem]
    intro u hu
    obtain ⟨d, h, hu⟩ := k2 (by
      intro d h root hr
      rcases hd d h with rfl | rfl | rfl <;> rcases hr with hr | hr <;> cases hr) u hu
    cases hu with
    | uri hu => rcases hd d h with rfl | rfl | rfl <;> cases hu
    | base hu _ => rcases hd d h with rfl | rfl | rfl <;> cases hu
    | tree hu _ _ _ _ => rcases hd d h with rfl | rfl | rfl <;> cases hu
    | @file f hf hs _ =>
      cases hf with
      | tree hf =>
        obtain ⟨hr, -, -, -, -⟩ := hf
        rcases hd d h with rfl | rfl | rfl <;> cases hr
      | @action a k ha hk hf =>
        have ha' : a = [(b!"S", .name b!"GoToR"), (b!"F", .ref 3 0)] := by
          cases ha with
          | action ha => rcases hd d h with rfl | rfl | rfl <;> cases ha
          | openAction ha => rcases hd d h with rfl | rfl | rfl <;> cases ha; rfl
          | additional ha _ _ => rcases hd d h with rfl | rfl | rfl <;> cases ha
        subst ha'
        rcases hk with rfl | rfl
        · cases hf; cases hs
        · cases hf
  rw [k1, hn]
  rfl

end Pdf.Props
