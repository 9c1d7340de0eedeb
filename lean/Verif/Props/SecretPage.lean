import Verif.Props.Encoding
import Verif.Props.Exact
import Verif.Props.Secret
/-!
An encrypted document with a page: a concrete case of the hypotheses of the theorems on the text of encrypted documents.
-/

namespace Pdf.Props
open Pdf Pdf.Spec

/-- The content of the page, encrypted with the key for object 5. -/
def secretShown : Bytes := [220, 9, 40, 128, 48, 79, 181, 130, 178, 173, 135, 233, 4, 96, 253, 125, 250, 0, 93, 160]

/-- Object 1 has the pages, object 4 is the page, object 5 its content, encrypted in the file; object 3 is the encryption dictionary. -/
def secretPage : Update where
  parts := [⟨⟨1, 0, .dict [(b!"Pages", .ref 2 0)], none⟩, [], (⟨1, 0, .dict [(b!"Pages", .ref 2 0)], none⟩ : IndObj).toBytes ++ b!"\n"⟩,
    ⟨⟨2, 0, .dict [(b!"Kids", .arr [.ref 4 0])], none⟩, [], (⟨2, 0, .dict [(b!"Kids", .arr [.ref 4 0])], none⟩ : IndObj).toBytes ++ b!"\n"⟩,
    ⟨⟨3, 0, .dict secretEnc, none⟩, [], (⟨3, 0, .dict secretEnc, none⟩ : IndObj).toBytes ++ b!"\n"⟩,
    ⟨⟨4, 0, .dict [(b!"Contents", .ref 5 0)], none⟩, [], (⟨4, 0, .dict [(b!"Contents", .ref 5 0)], none⟩ : IndObj).toBytes ++ b!"\n"⟩,
    ⟨⟨5, 0, .dict [], some codeShown⟩, [], (⟨5, 0, .dict [], some secretShown⟩ : IndObj).toBytes ++ b!"\n"⟩]
  sect := .table [(0, [⟨0, 9, false⟩, ⟨9, 0, true⟩, ⟨42, 0, true⟩, ⟨76, 0, true⟩, ⟨201, 0, true⟩, ⟨237, 0, true⟩])] [(b!"Encrypt", .ref 3 0), (b!"ID", .arr [.str b!"id"])] []
    b!"xref\n0 6\n0 9 f \n9 0 n \n42 0 n \n76 0 n \n201 0 n \n237 0 n \ntrailer\n" b!"/Encrypt 3 0 R/ID[(id)]>>" b!"\n"
  back := b!"startxref\n296\n%%EOF\n"

set_option maxRecDepth 100000 in
theorem secretPage_sealed : sealed Concrete.ext.md5 rc4 secretSecrecy ⟨5, 0, .dict [], some codeShown⟩ = ⟨5, 0, .dict [], some secretShown⟩ := by
  have h : hide Concrete.ext.md5 rc4 (some secretKey) 5 0 codeShown = secretShown := by decide +kernel
  show IndObj.mk 5 0 (.dict []) (some (hide Concrete.ext.md5 rc4 (some secretKey) 5 0 codeShown)) = _
  rw [h]

theorem secretShown_raw : RawText ⟨5, 0, .dict [], some secretShown⟩ [] ((⟨5, 0, .dict [], some secretShown⟩ : IndObj).toBytes ++ b!"\n") := by
  have h : Reprintable ⟨5, 0, .dict [], some secretShown⟩ := by
    refine ⟨by decide, by decide, .dict .nil (by decide), (lacks_dec (by decide)).noHeader, ?_⟩
    rintro d ⟨⟩
    exact ⟨[], rfl, rfl, rfl, (fun a b h => by cases h), by decide, (lacks_dec (by decide)).noHeader, lacks_dec (by decide)⟩
  have := h.raw
  rwa [show reread ⟨5, 0, .dict [], some secretShown⟩ = ⟨5, 0, .dict [], some secretShown⟩ by decide] at this

set_option maxRecDepth 100000 in
theorem secretPage_at : UpdateAt secretReading (fun _ => False) docHead.length none secretPage b!"\n" where
  parts := by
    intro p hp
    simp only [secretPage, List.mem_cons, List.not_mem_nil, or_false] at hp
    rcases hp with rfl | rfl | rfl | rfl | rfl
    · refine ⟨_, raw_printed (by decide) (.dict (.cons (regular_all (by decide)) (.ref (by decide) (by decide)) .nil) (by decide)) (by decide), ?_⟩
      refine Secret.hidden (m := ⟨1, 0, .dict [(b!"Pages", .ref 2 0)], none⟩) ?_ (by decide) .value
      rintro d ⟨⟩; decide
    · refine ⟨_, raw_printed (by decide) (.dict (.cons (regular_all (by decide)) (.arr (.cons (.ref (by decide) (by decide)) .nil)) .nil) (by decide)) (by decide), ?_⟩
      refine Secret.hidden (m := ⟨2, 0, .dict [(b!"Kids", .arr [.ref 4 0])], none⟩) ?_ (by decide) .value
      rintro d ⟨⟩; decide
    · exact ⟨_, raw_printed (by decide) secretEnc_plain (by decide), .plain (.inr rfl) .value⟩
    · refine ⟨_, raw_printed (by decide) (.dict (.cons (regular_all (by decide)) (.ref (by decide) (by decide)) .nil) (by decide)) (by decide), ?_⟩
      refine Secret.hidden (m := ⟨4, 0, .dict [(b!"Contents", .ref 5 0)], none⟩) ?_ (by decide) .value
      rintro d ⟨⟩; decide
    · refine ⟨_, secretShown_raw, ?_⟩
      rw [← secretPage_sealed]
      refine Secret.hidden ?_ (by decide) (.stream (fs := []) (ps := []) (.none rfl) (.none rfl) (fun a b h => by cases h) (by decide) fun rs => rfl)
      rintro d ⟨⟩; decide
  sect := by
    refine .table rfl ?_ ?_ ⟨b!"\n0 6\n0 9 f \n9 0 n \n42 0 n \n76 0 n \n201 0 n \n237 0 n \ntrailer\n", rfl⟩ (by decide) ?_
    · intro p hp
      simp only [secretPage, List.mem_cons, List.not_mem_nil, or_false] at hp
      rcases hp with rfl | rfl | rfl | rfl | rfl <;> (rintro d ⟨⟩; decide)
    · have sp : Gap [32] := gap_of (by decide)
      have nl : Gap [10] := gap_of (by decide)
      have sn : Gap [32, 10] := gap_of (by decide)
      exact .mk (w := []) (w1 := [32, 10]) (w2 := [10]) .nil (.cons (w := [10]) (w1 := [32]) (ls := [⟨0, 9, false⟩, ⟨9, 0, true⟩, ⟨42, 0, true⟩, ⟨76, 0, true⟩, ⟨201, 0, true⟩, ⟨237, 0, true⟩]) nl (.mk (ds := [0]) (by decide) (by decide) (by decide)) sp (.mk (ds := [6]) (by decide) (by decide) (by decide))
      (.cons (w := [10]) (w1 := [32]) (w2 := [32]) (u := false) nl (.mk (ds := [0]) (by decide) (by decide) (by decide)) sp (.mk (ds := [9]) (by decide) (by decide) (by decide)) sp
      (.cons (w := [32, 10]) (w1 := [32]) (w2 := [32]) (u := true) sn (.mk (ds := [9]) (by decide) (by decide) (by decide)) sp (.mk (ds := [0]) (by decide) (by decide) (by decide)) sp
      (.cons (w := [32, 10]) (w1 := [32]) (w2 := [32]) (u := true) sn (.mk (ds := [4, 2]) (by decide) (by decide) (by decide)) sp (.mk (ds := [0]) (by decide) (by decide) (by decide)) sp
      (.cons (w := [32, 10]) (w1 := [32]) (w2 := [32]) (u := true) sn (.mk (ds := [7, 6]) (by decide) (by decide) (by decide)) sp (.mk (ds := [0]) (by decide) (by decide) (by decide)) sp
      (.cons (w := [32, 10]) (w1 := [32]) (w2 := [32]) (u := true) sn (.mk (ds := [2, 0, 1]) (by decide) (by decide) (by decide)) sp (.mk (ds := [0]) (by decide) (by decide) (by decide)) sp
      (.cons (w := [32, 10]) (w1 := [32]) (w2 := [32]) (u := true) sn (.mk (ds := [2, 3, 7]) (by decide) (by decide) (by decide)) sp (.mk (ds := [0]) (by decide) (by decide) (by decide)) sp .nil)))))) (by decide) .nil) sn nl.1
    · intro z
      exact .cons (w := []) (kt := b!"Encrypt") (w' := b!" ") (t := b!"3 0 R") (u := b!"/ID[(id)]>>") (e := []) (e' := []) (e'' := []) .nil (nameText_plain _ (by decide)) (blank_of_white (by decide))
        (by rintro b t ⟨⟩; decide) (.ref (ds := [3]) (w := b!" ") (gs := [0]) (w' := b!" ") (by decide) (by decide) (by decide) (blank_of_white (by decide)) (by decide) (by decide) (by decide) (by decide)
        (blank_of_white (by decide)) (by decide) (by rintro b t ⟨⟩; decide))
        (.cons (w := []) (kt := b!"ID") (w' := []) (t := b!"[(id)]") (u := b!">>") (e := []) (e' := []) (e'' := []) .nil (nameText_plain _ (by decide)) .nil (by rintro b t ⟨⟩; decide)
          (.arr (t := b!"(id)]") (.cons (w := []) (t := b!"(id)") (u := b!"]") (e := []) (e' := []) .nil (.str (t := b!"id") (strText_plain (by decide))) (.nil (w := []) .nil))) (.nil (w := []) .nil))
  back := by
    have := BackText.mk (w := b!"\n") (w' := b!"\n") (r := b!"\n") (ds := [2, 9, 6]) (by decide) (by decide) (by decide) (by decide) (by decide)
    exact ⟨_, this, .inl (by decide)⟩
  word := lacks_dec (by decide)
  hasPrev := by rintro p ⟨⟩
  noPrev _ := by decide
  first h := absurd rfl h

set_option maxRecDepth 100000 in
/-- The hypotheses of the theorems on encrypted documents, for a document with a page and the user password `pw`. -/
theorem secretPage_document : Document secretReading docHead [secretPage] ∧ RightTables (docText docHead [secretPage]) docHead.length [secretPage] ∧ Typed [secretPage] ∧ EncryptAt [secretPage] secretEnc (some 3) ∧
    StdEntries [secretPage] secretEnc secretStd ∧ UserPassword Concrete.ext.md5 rc4 secretStd b!"pw" ∧ Keys Concrete.ext.md5 secretEnc secretStd b!"pw" secretSecrecy ∧ KidsEnd [secretPage] ∧
    StreamsLoad [secretPage] := by
  refine ⟨⟨.linked (.last secretPage_at (by decide)), (by rintro u ⟨⟩; decide), lacks_dec (by decide), ?_, noOpen_dec (by decide), words_dec (by decide +kernel), by decide +kernel⟩,
    (rightTables_plain (by decide)).2 ⟨rightTable_dec (by decide) (by decide), trivial⟩, ?_, .indirect (g := 0) (p := secretPage.parts[2]) (by decide) (by rfl) (by rfl), ?_,
    secret_document.2.2.2.2.2.1, secret_document.2.2.2.2.2.2.2.1, ?_, ?_⟩
  · intro a b h
    have := (List.append_inj' (show b!"%PDF-1.4" ++ b!"\n" = a ++ [b] from h) rfl).2
    cases this
    unfold IsDec; decide
  · refine ⟨?_, fun h => by cases h⟩
    intro u hu _ _ _ _ _ _ h
    rw [List.mem_singleton] at hu
    subst hu
    cases h
  · exact ⟨by rfl, ⟨_, by rfl, by decide⟩, ⟨_, by rfl, by decide⟩, by decide, by decide, .inl ⟨by rfl, by rfl⟩, by rfl, by rfl, (fun h => absurd h (by decide)), ⟨_, by rfl, by decide⟩, .inl ⟨by rfl, by rfl⟩, [], by rfl⟩
  · refine KidsInPlace.ends fun n p hp d hd m g => ?_
    obtain ⟨u, hu, hpu⟩ := meant_part hp
    cases List.mem_singleton.1 hu
    simp only [secretPage, List.mem_cons, List.not_mem_nil, or_false] at hpu
    rcases hpu with rfl | rfl | rfl | rfl | rfl <;> (simp [dictsIn, dictsInValues, dictsInList, secretEnc] at hd; subst hd; intro h; cases h)
  · intro n p hp data hd
    obtain ⟨u, hu, hpu⟩ := meant_part hp
    cases List.mem_singleton.1 hu
    simp only [secretPage, List.mem_cons, List.not_mem_nil, or_false] at hpu
    rcases hpu with rfl | rfl | rfl | rfl | rfl <;> cases hd
    exact ⟨⟨[], 1⟩, by decide +kernel⟩

/-- What the objects of the document are. -/
theorem secretPage_view {view : View} (hv : Means [secretPage] view) : view.value 2 = .dict [(b!"Kids", .arr [.ref 4 0])] ∧ view.value 4 = .dict [(b!"Contents", .ref 5 0)] ∧ view.value 5 = .dict [] ∧ view.stream 5 = some codeShown :=
  ⟨(final_unique (hv 2) (.stop (p := secretPage.parts[1]) (by simp) (by rfl) (fun _ _ h => by cases h))).1,
    (final_unique (hv 4) (.stop (p := secretPage.parts[3]) (by simp) (by rfl) (fun _ _ h => by cases h))).1,
    (final_unique (hv 5) (.stop (p := secretPage.parts[4]) (by simp) (by rfl) (fun _ _ h => by cases h))).1,
    (final_unique (hv 5) (.stop (p := secretPage.parts[4]) (by simp) (by rfl) (fun _ _ h => by cases h))).2⟩

/-- The hypotheses of `C84_secret_partial`, `C99_secret_partial` and `C103_secret_partial` on pages, and what `C103_secret_partial` gives: the decrypted text of the page is in
contents.txt. -/
example (sys : Sys) (hf : sys.input = some (docText docHead [secretPage])) (hc : ∀ h, sys.canCreate h = true) :
    ∃ r F, (∀ f fx ft, F ≤ f → F ≤ fx → F ≤ ft → parse sys Concrete.ext (some true) f fx ft b!"pw" = r) ∧ ∃ a b, r.out.text = a ++ (b!"\x00\n" ++ b) := by
  obtain ⟨h1, h2, h3, h4, h5, h6, h7, h8, h9⟩ := secretPage_document
  obtain ⟨r, F, g1, g2⟩ := C103_secret_partial (v := true) hf hc h1 h2 h3 h4 h5 h6 h7 h8 h9
  obtain ⟨view, hv, -⟩ := C75_means [secretPage]
  obtain ⟨v2, v4, v5, w5⟩ := secretPage_view hv
  refine ⟨r, F, g1, g2 view hv [(b!"Pages", .ref 2 0)] ⟨1, secretPage.parts[0], by rfl, by decide⟩ [(b!"Contents", .ref 5 0)] (fun _ => none) codeShown _ ?_ ?_ (fun k f h => by cases h) ?_
    (codeShown_shows (l := [0]) ⟨[[0]], [], by decide, by decide, by decide, by decide⟩)⟩
  · refine .kid (node := [(b!"Kids", .arr [.ref 4 0])]) (n := 4) (g := 0) (.root ?_) (List.mem_singleton.2 rfl) v4
    show (match some (view.value 2) with | some (.dict e) => some e | _ => none) = _
    rw [v2]
  · intro k
    refine Eq.mpr (if_neg ?_) rfl
    show ¬ k ∈ Assoc.keys ([] : Dict)
    simp [Assoc.keys]
  · have : contents view [(b!"Contents", .ref 5 0)] = [codeShown] := by
      have h : view.streamAt [(b!"Contents", .ref 5 0)] b!"Contents" = some codeShown := by
        show some ((view.stream 5).getD []) = _
        rw [w5]; rfl
      simp only [contents, h]
    rw [this]
    exact List.mem_singleton.2 rfl

theorem secret_number {us : List Update} {n : Int} {p : Part} (h : meant us n = some p) : p.obj.number = n := by
  rw [meant] at h
  split at h
  · cases h
  · split at h
    · have := List.find?_some h
      simpa using this
    · cases h

/-- The hypotheses of `C84_exact_secret_partial`, and what it gives: contents.txt is the decrypted text of the page and nothing else. -/
example (sys : Sys) (hf : sys.input = some (docText docHead [secretPage])) (hc : ∀ h, sys.canCreate h = true) :
    ∃ r F, (∀ f fx ft, F ≤ f → F ≤ fx → F ≤ ft → parse sys Concrete.ext (some true) f fx ft b!"pw" = r) ∧ r.out.text = b!"\x00\n" := by
  obtain ⟨h1, h2, h3, h4, h5, h6, h7, h8, h9⟩ := secretPage_document
  obtain ⟨r, F, g1, g2⟩ := C84_exact_secret_partial (v := true) hf hc h1 h2 h3 h4 h5 h6 h7 h8 h9
  obtain ⟨view, hv, -⟩ := C75_means [secretPage]
  obtain ⟨v2, v4, v5, w5⟩ := secretPage_view hv
  have hroot : view.dict [(b!"Pages", .ref 2 0)] b!"Pages" = some [(b!"Kids", .arr [.ref 4 0])] := by
    show (match some (view.value 2) with | some (.dict e) => some e | _ => none) = _
    rw [v2]
  have hcon : contents view [(b!"Contents", .ref 5 0)] = [codeShown] := by
    have h : view.streamAt [(b!"Contents", .ref 5 0)] b!"Contents" = some codeShown := by
      show some ((view.stream 5).getD []) = _
      rw [w5]; rfl
    simp only [contents, h]
  have hnone : ∀ k : Bytes, ¬ k ∈ Assoc.keys ([] : Dict) := fun k => by simp [Assoc.keys]
  refine ⟨r, F, g1, g2 view hv [(b!"Pages", .ref 2 0)] ⟨1, secretPage.parts[0], [], [], by rfl, rfl, (fun x hx => by cases hx), ?_⟩
    [[(b!"Kids", .arr [.ref 4 0])], [(b!"Contents", .ref 5 0)]] b!"\x00\n" ?_
    (.cons (l := []) (t := b!"\x00\n") (fonts := fun _ => none) (fun k => Eq.mpr (if_neg (hnone k)) rfl) .nil
      (.cons (l := b!"\x00\n") (t := []) (fonts := fun _ => none) (fun k => Eq.mpr (if_neg (hnone k)) rfl) ?_ .nil))⟩
  · intro m q hm hq x hx
    have hn := secret_number hq
    obtain ⟨u, hu, hpu⟩ := meant_part hq
    cases List.mem_singleton.1 hu
    simp only [secretPage, List.mem_cons, List.not_mem_nil, or_false] at hpu
    rcases hpu with rfl | rfl | rfl | rfl | rfl <;> simp [dictsOf, dictsIn, dictsInValues, dictsInList, secretEnc] at hx
    · exact absurd hn.symm hm
    · subst hx; rfl
    · subst hx; rfl
    · subst hx; rfl
    · subst hx; rfl
  · simp only [Pages, hroot]
    refine ⟨[4], .visit (below := []) (rest := []) (by simp) ?_ .done, ?_⟩
    · have : nextOf view.value 4 = [] := by
        simp only [nextOf, v4]; rfl
      rw [this]
      exact .done
    · simp [v4, asDict]
  · rw [hcon]
    exact .cons (l := b!"\x00\n") (t := []) (codeShown_shows (l := [0]) ⟨[[0]], [], by decide, by decide, by decide, by decide⟩) .nil

end Pdf.Props
