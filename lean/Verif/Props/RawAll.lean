import Verif.Props.Urls
import Verif.Props.Files
/-!
C102: raw.pdf has the objects of a document, each once.
-/

namespace Pdf.Props
open Pdf Pdf.Spec

theorem fileReport_raw {ext : Ext} {v : View} {b : Bool} {f : Dict} {o : IndObj} {x : Obj} : .raw o x ∉ fileReport ext v b f := by
  rw [fileReport]
  split
  · simp
  · split
    · simp [dumped]
    · simp
    · cases b <;> simp
    · simp

theorem actionReport_raw {ext : Ext} {v : View} {a : Dict} {o : IndObj} {x : Obj} : .raw o x ∉ actionReport ext v a := by
  rw [actionReport, List.mem_append, not_or]
  constructor
  · split
    · simp
    · exact fileReport_raw
    · simp
  · intro h
    obtain ⟨f, -, h⟩ := List.mem_flatMap.1 h
    exact fileReport_raw h

theorem reports_raw {ext : Ext} {v : View} {d : Dict} {part : List Write} {o : IndObj} {x : Obj} (hp : Reports ext v d part) : .raw o x ∉ part := by
  obtain ⟨aa, embedded, urls, pages, texts, h1, -, -, -, -, rfl⟩ := hp
  intro h
  simp only [List.mem_append] at h
  rcases h with (((((((h | h) | h) | h) | h) | h) | h) | h) | h
  · obtain ⟨a, -, h⟩ := List.mem_flatMap.1 h
    exact actionReport_raw h
  · obtain ⟨a, -, h⟩ := List.mem_flatMap.1 h
    exact actionReport_raw h
  · obtain ⟨e, -, h⟩ := List.mem_flatMap.1 (h1.mem_iff.1 h)
    obtain ⟨k, -, h⟩ := List.mem_flatMap.1 h
    obtain ⟨a, -, h⟩ := List.mem_flatMap.1 h
    exact actionReport_raw h
  · rw [formReport] at h
    split at h <;> simp [dumped] at h
  · rw [embeddedReport] at h
    obtain ⟨o, -, h⟩ := List.mem_flatMap.1 h
    split at h
    · simp at h
    · exact absurd h fileReport_raw
    · cases h
  · rw [scriptReport] at h
    split at h <;> simp at h
  · obtain ⟨t, -, h⟩ := List.mem_map.1 h
    cases h
  · rw [uriReport] at h
    split at h <;> simp at h
  · rw [urlsReport] at h
    obtain ⟨o, -, h⟩ := List.mem_flatMap.1 h
    split at h <;> simp at h

theorem visible_raw (ws : List Write) : (visible ws).flatMap Write.rawPdf = ws.flatMap Write.rawPdf := by
  induction ws with
  | nil => rfl
  | cons w ws ih =>
    rw [visible, List.filter_cons, List.flatMap_cons, ← ih]
    cases w <;> rfl

/-- raw.pdf is the text of the objects of the document. -/
theorem report_raw {us : List Update} {ext : Ext} {r : ParseResult} (h2 : ∀ view, Means us view → ∃ l ws, l.Nodup ∧ (∀ n, n ∈ l ↔ (meant us n).isSome) ∧ Holds r.out ws ∧
      Parts (fun n part => ∃ p, meant us n = some p ∧ ObjectReport ext view p.obj part) l (visible ws)) {view : View} (hv : Means us view) :
    ∃ ps : List (Int × IndObj), (ps.map (·.1)).Nodup ∧ (∀ n o, (n, o) ∈ ps ↔ ∃ p, meant us n = some p ∧ p.obj = o) ∧ Printed (ps.map (·.2)) r.out.raw := by
  obtain ⟨l, ws, hn, h3, h4, parts, g1, g2, g3⟩ := h2 view hv
  let obj : Int → IndObj := fun n => ((meant us n).map (·.obj)).getD (newIndObj 0)
  refine ⟨parts.map fun q => (q.1, obj q.1), ?_, fun n o => ⟨fun h => ?_, ?_⟩, ?_⟩
  · rw [List.map_map]
    exact g1.nodup_iff.2 hn
  · obtain ⟨q, hq, e⟩ := List.mem_map.1 h
    cases e
    obtain ⟨p, hp, -⟩ := g2 q hq
    exact ⟨p, hp, by show _ = obj q.1; simp only [obj, hp]; rfl⟩
  · rintro ⟨p, hp, rfl⟩
    obtain ⟨q, hq, rfl⟩ := List.mem_map.1 (g1.mem_iff.2 ((h3 n).2 (by rw [hp]; rfl)))
    exact List.mem_map.2 ⟨q, hq, by simp only [obj, hp]; rfl⟩
  · rw [h4.raw, ← visible_raw, g3]
    clear g1 g3 h4
    induction parts with
    | nil => exact .nil
    | cons q parts ih =>
      obtain ⟨p, hp, inside, printed, ⟨qs, -, e2, e3⟩, k2, k3⟩ := g2 q (List.mem_cons_self ..)
      have hin : inside.flatMap Write.rawPdf = [] := by
        rw [List.flatMap_eq_nil_iff]
        intro w hw
        rw [e3] at hw
        obtain ⟨y, hy, hw⟩ := List.mem_flatMap.1 hw
        cases w with
        | raw o x => exact absurd hw (reports_raw (e2 y hy))
        | _ => rfl
      have ho : obj q.1 = p.obj := by simp only [obj, hp]; rfl
      rw [List.flatMap_cons, List.flatMap_append, k3, List.flatMap_append, hin, List.nil_append, List.map_cons, List.map_cons, ho]
      have : [Write.raw p.obj printed].flatMap Write.rawPdf = { p.obj with value := printed }.toBytes ++ b!"\n" := by simp [Write.rawPdf]
      rw [this]
      exact .cons k2 (ih fun y hy => g2 y (List.mem_cons_of_mem _ hy))

section
variable {sys : Sys} {P : Bytes} {us : List Update} {ext : Ext} {v : Bool}

/-- **C102, partial** raw.pdf has every object of a document once, with its data decoded, in some order, with the entries of dictionaries in some order; and nothing else. Missing: as for `C75_partial`. -/
theorem C102_partial (hf : sys.input = some (docText P us)) (hc : ∀ h, sys.canCreate h = true)
    (hd : Document ext.toCodecs P us) (hr : RightTables (docText P us) P.length us) (henc : trailerFor us b!"Encrypt" = none) (henc' : ∀ d, FirstDict us.tail d → d.get? b!"Encrypt" = none)
    (hk : KidsEnd us) (hs : StreamsLoad us) (pw : Bytes) :
    ∃ r F, (∀ f fx ft, F ≤ f → F ≤ fx → F ≤ ft → parse sys ext (some v) f fx ft pw = r) ∧ ∀ view, Means us view →
      ∃ ps : List (Int × IndObj), (ps.map (·.1)).Nodup ∧ (∀ n o, (n, o) ∈ ps ↔ ∃ p, meant us n = some p ∧ p.obj = o) ∧ Printed (ps.map (·.2)) r.out.raw := by
  obtain ⟨r, F, h1, -, h2⟩ := C75_partial (v := v) hf hc hd hr henc henc' hk hs pw
  exact ⟨r, F, h1, fun view hv => report_raw h2 hv⟩

/-- **C102, partial** The same for encrypted documents, with the user password: the objects are decrypted. Missing: as for `C76_report_partial`. -/
theorem C102_secret_partial {c : Secrecy} {skip : Option Int} {enc : Dict} {sd : StdDict} {pw : Bytes} (hf : sys.input = some (docText P us)) (hc : ∀ h, sys.canCreate h = true)
    (hd : Document (Reading.secret ext.md5 rc4 ext.toCodecs c skip) P us) (hr : RightTables (docText P us) P.length us) (ht : Typed us) (he : EncryptAt us enc skip) (hs : StdEntries us enc sd)
    (hp : UserPassword ext.md5 rc4 sd pw) (hk : Keys ext.md5 enc sd pw c) (hki : KidsEnd us) (hst : StreamsLoad us) :
    ∃ r F, (∀ f fx ft, F ≤ f → F ≤ fx → F ≤ ft → parse sys ext (some v) f fx ft pw = r) ∧ ∀ view, Means us view →
      ∃ ps : List (Int × IndObj), (ps.map (·.1)).Nodup ∧ (∀ n o, (n, o) ∈ ps ↔ ∃ p, meant us n = some p ∧ p.obj = o) ∧ Printed (ps.map (·.2)) r.out.raw := by
  obtain ⟨r, F, h1, -, h2, -⟩ := C76_report_partial (v := v) hf hc hd hr ht he hs hp hk hki hst
  exact ⟨r, F, h1, fun view hv => report_raw h2 hv⟩

end

/-- The document with two URLs and two scripts: raw.pdf has its objects. -/
example (sys : Sys) (ext : Ext) (hf : sys.input = some (fileText 1 linkEdits)) (hc : ∀ h, sys.canCreate h = true) (pw : Bytes) :
    ∃ r F, (∀ f fx ft, F ≤ f → F ≤ fx → F ≤ ft → parse sys ext (some true) f fx ft pw = r) ∧
      ∃ ps : List (Int × IndObj), (ps.map (·.1)).Nodup ∧ (4, (⟨4, 0, .dict [(b!"Length", .num (.fin 3))], some b!"gg;"⟩ : IndObj)) ∈ ps ∧ Printed (ps.map (·.2)) r.out.raw := by
  obtain ⟨h1, h2, h3, h4, h5, h6, h7, h8⟩ := document_of_check linkEdits_check ext.toCodecs
  obtain ⟨r, F, g1, g2⟩ := C102_partial (v := true) (by rw [docText_updates]; exact hf) hc h1 h2 h3 h4 h5 h6 pw
  obtain ⟨ps, k1, k2, k3⟩ := g2 _ h7
  exact ⟨r, F, g1, ps, k1, (k2 _ _).2 ⟨_, by rw [h8]; rfl, rfl⟩, k3⟩

end Pdf.Props
