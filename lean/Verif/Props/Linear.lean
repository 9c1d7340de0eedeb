import Verif.Props.Found
/-!
C81: linearized documents.
-/

namespace Pdf.Props
open Pdf Pdf.Spec St

theorem lastWith_of_nodup {ps : List Part} (h : (ps.map (·.obj.number)).Nodup) {p : Part} (hp : p ∈ ps) : lastWith ps p.obj.number = some p := by
  induction ps with
  | nil => cases hp
  | cons q ps ih =>
    rw [List.map_cons, List.nodup_cons] at h
    have e : lastWith (q :: ps) p.obj.number = (lastWith ps p.obj.number).or (lastWith [q] p.obj.number) := by
      rw [lastWith, lastWith, lastWith, List.reverse_cons, List.find?_append]; rfl
    rw [e]
    rcases List.mem_cons.1 hp with rfl | hp
    · have : lastWith ps p.obj.number = none := by
        rw [lastWith, List.find?_eq_none]
        intro x hx hn
        exact h.1 (by rw [← (by simpa using hn : x.obj.number = p.obj.number)]; exact List.mem_map_of_mem (List.mem_reverse.1 hx))
      rw [this]
      simp [lastWith]
    · rw [ih h.2 hp]; rfl

theorem placed_parts {pos : Nat} {ps : List Part} {p : Part} (hp : p ∈ ps) : ∃ o, (o, p) ∈ placedParts pos ps := by
  induction ps generalizing pos with
  | nil => cases hp
  | cons q ps ih =>
    rw [placedParts]
    rcases List.mem_cons.1 hp with rfl | hp
    · exact ⟨pos, by simp⟩
    · obtain ⟨o, ho⟩ := ih (pos := pos + q.text.length) hp
      exact ⟨o, by simp [ho]⟩

/-- **C81** (part: the first object of the second part has no key /Encrypt; no table takes one byte less than a multiple of
4096) In a linearized document all objects of both parts are read, and other numbers are null. -/
theorem C81_read_partial {P : Bytes} {u v : Update} {ext : Ext} (hd : Document ext.toCodecs P [u, v]) (hlin : linear [u, v] = true) (hr : RightTables (docText P [u, v]) P.length [u, v])
    (hnd : ((u.parts ++ v.parts).map (·.obj.number)).Nodup) (henc : trailerFor [u, v] b!"Encrypt" = none)
    (henc' : ∀ d, FirstDict [v] d → d.get? b!"Encrypt" = none) (verbose : Option Bool) (ord : Order) (f fx : Nat) (hfx : 2 ≤ fx) (pw : Bytes) :
    ∃ ls, load ⟨docText P [u, v], ext, verbose⟩ ord (f + 1) fx pw LS.init = .ok (none, ls) ∧
      (∀ p ∈ u.parts ++ v.parts, ∀ f' s, ∃ s', getObject (ls.env ⟨docText P [u, v], ext, verbose⟩) f' p.obj.number s = .ok (p.obj, s') ∧ s'.log = s.log ++ p.notes) ∧
      (∀ n, (∀ p ∈ u.parts ++ v.parts, p.obj.number ≠ n) → ∀ f' s, getObject (ls.env ⟨docText P [u, v], ext, verbose⟩) f' n s = .ok (⟨n, 0, .null, none⟩, s)) := by
  obtain ⟨ls, h1, h2, h3⟩ := C74_meant_partial hd hr henc henc' verbose ord f fx hfx pw
  have hm : ∀ n, meant [u, v] n = if (lastFor (v.sect.entries ++ u.sect.entries) n).any fun x => x.typ = 1 then lastWith (u.parts ++ v.parts) n else none := by
    intro n
    rw [meant_eq, revisions_linear hlin]
    exact meant_new (rs := []) rfl
  rw [rightTables_linear hlin] at hr
  refine ⟨ls, h1, fun p hp => ?_, fun n hn => ?_⟩
  · refine h2 _ p ?_
    have hq : ∃ o, (o, p) ∈ placed P.length [u, v] := by
      rw [placed, placed, placed, List.append_nil]
      rcases List.mem_append.1 hp with hp | hp
      · obtain ⟨o, ho⟩ := placed_parts (pos := P.length) hp
        exact ⟨o, List.mem_append_left _ ho⟩
      · obtain ⟨o, ho⟩ := placed_parts (pos := P.length + u.text.length) hp
        exact ⟨o, List.mem_append_right _ ho⟩
    obtain ⟨o, ho⟩ := hq
    obtain ⟨x, hx, ht⟩ := hr.1.all _ ho
    rw [hm, hx]
    simp [ht, lastWith_of_nodup hnd hp]
  · refine h3 n ?_
    rw [hm]
    split
    · rw [lastWith, List.find?_eq_none]
      intro p hp h
      exact hn p (List.mem_reverse.1 hp) (by simpa using h)
    · rfl

/-- **C81** (part: as above) A linearized document is read like a document with the same objects that is not. -/
theorem C81_same_partial {P P' : Bytes} {u v w : Update} {ext : Ext} (hd : Document ext.toCodecs P [u, v]) (hlin : linear [u, v] = true) (hd' : Document ext.toCodecs P' [w])
    (hr : RightTables (docText P [u, v]) P.length [u, v]) (hr' : RightTables (docText P' [w]) P'.length [w])
    (hsame : ∀ n, (lastWith (u.parts ++ v.parts) n).map (·.obj) = (lastWith w.parts n).map (·.obj))
    (hlists : ∀ n, (lastFor (v.sect.entries ++ u.sect.entries) n).map (·.typ) = (lastFor w.sect.entries n).map (·.typ))
    (henc : trailerFor [u, v] b!"Encrypt" = none) (henc' : ∀ d, FirstDict [v] d → d.get? b!"Encrypt" = none) (hencw : trailerFor [w] b!"Encrypt" = none)
    (verbose : Option Bool) (ord : Order) (f fx : Nat) (hfx : 2 ≤ fx) (pw : Bytes) :
    ∃ ls ls', load ⟨docText P [u, v], ext, verbose⟩ ord (f + 1) fx pw LS.init = .ok (none, ls) ∧ load ⟨docText P' [w], ext, verbose⟩ ord (f + 1) fx pw LS.init = .ok (none, ls') ∧
      ∀ n f' s s', ∃ o t t', getObject (ls.env ⟨docText P [u, v], ext, verbose⟩) f' n s = .ok (o, t) ∧ getObject (ls'.env ⟨docText P' [w], ext, verbose⟩) f' n s' = .ok (o, t') := by
  refine C78_same_partial hd hd' hr hr' ?_ ?_ verbose ord f fx hfx (by simp; omega) pw
  · show SameRevisions (revisions [u, v]) (revisions [w])
    rw [revisions_linear hlin]
    exact .cons hsame hlists .nil
  · intro us0 h
    simp only [List.mem_cons, List.not_mem_nil, or_false] at h
    rcases h with rfl | rfl
    · exact ⟨henc, henc'⟩
    · exact ⟨hencw, fun d hd => by obtain ⟨v, hv, _⟩ := hd; cases hv⟩

/-! ### A linearized document -/

/-- The parameter dictionary and the catalog. -/
def linear1 : Update where
  parts := [⟨⟨2, 0, .dict [(b!"Linearized", .num (intNum false 1))], none⟩, [], b!"2 0 obj\n<</Linearized 1>>\nendobj\n"⟩,
    ⟨⟨3, 0, .dict [(b!"Type", .name b!"Catalog")], none⟩, [], b!"3 0 obj\n<</Type/Catalog>>\nendobj\n"⟩]
  sect := .table [(2, [⟨9, 0, true⟩, ⟨42, 0, true⟩])] [(b!"Root", .ref 3 0), (b!"Prev", .num (intNum false 181))] [] b!"xref\n2 2\n9 0 n \n42 0 n \ntrailer\n" b!"/Root 3 0 R/Prev 181>>" b!"\n"
  back := b!"startxref\n0\n%%EOF\n"

/-- The other objects. -/
def linear2 (r : Bytes) : Update where
  parts := [⟨⟨1, 0, .dict [(b!"Type", .name b!"Pages")], none⟩, [], b!"1 0 obj\n<</Type/Pages>>\nendobj\n"⟩]
  sect := .table [(0, [⟨0, 9, false⟩, ⟨150, 0, true⟩])] [] [] b!"xref\n0 2\n0 9 f \n150 0 n \ntrailer\n" b!">>" b!"\n"
  back := b!"startxref\n75\n%%EOF" ++ r

theorem linear1_at (cd : Codecs) {pos : Nat} {prev : Nat} : UpdateAt cd (fun _ => True) pos (some prev) linear1 b!"\n" where
  parts := by
    intro p hp
    simp only [linear1, List.mem_cons, List.not_mem_nil, or_false] at hp
    rcases hp with rfl | rfl
    · exact ObjectText.value (h := b!"2 0 obj") (w := b!"\n") (t := b!"<</Linearized 1>>") (w' := b!"\n") (u := b!"\n")
        (.mk (ds := [2]) (gs := [0]) (w := b!" ") (w' := b!" ") (by decide) (by decide) (by decide) (by decide) (by decide) (by decide) ⟨by decide, by decide⟩ ⟨by decide, by decide⟩)
        (blank_of_white (by decide)) (stops_dec (by decide)) (by decide)
        (fun r => .dict (es := [(b!"Linearized", .num (intNum false 1))]) (t := b!"/Linearized 1>>")
          (.cons (w := []) (kt := b!"Linearized") (w' := b!" ") (t := b!"1") (u := b!">>") (e := []) (e' := []) (e'' := []) .nil (nameText_plain _ (by decide)) (blank_of_white (by decide)) (by rintro b t ⟨⟩; decide)
            (.int (neg := false) (sg := []) (ds := [1]) .none (by decide) (by decide) (by decide) (by rintro b t ⟨⟩; decide) (by rintro u ⟨⟩) (no_refTail _)) (.nil (w := []) .nil)))
        (blank_of_white (by decide)) (lacks_dec (by decide)).noHeader (noOpen_dec (by decide)) (Break.between ⟨by decide, by decide⟩)
    · exact ObjectText.value (h := b!"3 0 obj") (w := b!"\n") (t := b!"<</Type/Catalog>>") (w' := b!"\n") (u := b!"\n")
        (.mk (ds := [3]) (gs := [0]) (w := b!" ") (w' := b!" ") (by decide) (by decide) (by decide) (by decide) (by decide) (by decide) ⟨by decide, by decide⟩ ⟨by decide, by decide⟩)
        (blank_of_white (by decide)) (stops_dec (by decide)) (by decide)
        (fun r => .dict (es := [(b!"Type", .name b!"Catalog")]) (t := b!"/Type/Catalog>>")
          (.cons (w := []) (kt := b!"Type") (w' := []) (t := b!"/Catalog") (u := b!">>") (e := []) (e' := []) (e'' := []) .nil (nameText_plain _ (by decide)) .nil (by rintro b t ⟨⟩; decide)
            (.name (t := b!"Catalog") (nameText_plain _ (by decide)) (by rintro b t ⟨⟩; decide)) (.nil (w := []) .nil)))
        (blank_of_white (by decide)) (lacks_dec (by decide)).noHeader (noOpen_dec (by decide)) (Break.between ⟨by decide, by decide⟩)
  sect := by
    refine .table rfl ?_ ?_ ⟨b!"\n2 2\n9 0 n \n42 0 n \ntrailer\n", rfl⟩ (by decide) ?_
    · intro p hp
      simp only [linear1, List.mem_cons, List.not_mem_nil, or_false] at hp
      rcases hp with rfl | rfl
      · rintro d ⟨⟩; decide
      · rintro d ⟨⟩; decide
    · have sp : Gap [32] := gap_of (by decide)
      have nl : Gap [10] := gap_of (by decide)
      have sn : Gap [32, 10] := gap_of (by decide)
      exact .mk (w := []) (w1 := [32, 10]) (w2 := [10]) .nil (.cons (w := [10]) (w1 := [32]) (ls := [⟨9, 0, true⟩, ⟨42, 0, true⟩]) nl (.mk (ds := [2]) (by decide) (by decide) (by decide)) sp (.mk (ds := [2]) (by decide) (by decide) (by decide))
      (.cons (w := [10]) (w1 := [32]) (w2 := [32]) (u := true) nl (.mk (ds := [9]) (by decide) (by decide) (by decide)) sp (.mk (ds := [0]) (by decide) (by decide) (by decide)) sp
      (.cons (w := [32, 10]) (w1 := [32]) (w2 := [32]) (u := true) sn (.mk (ds := [4, 2]) (by decide) (by decide) (by decide)) sp (.mk (ds := [0]) (by decide) (by decide) (by decide)) sp .nil)) (by decide) .nil) sn nl.1
    · intro z
      exact .cons (w := []) (kt := b!"Root") (w' := b!" ") (t := b!"3 0 R") (u := b!"/Prev 181>>") (e := []) (e' := []) (e'' := []) .nil (nameText_plain _ (by decide)) (blank_of_white (by decide))
        (by rintro b t ⟨⟩; decide) (.ref (ds := [3]) (w := b!" ") (gs := [0]) (w' := b!" ") (by decide) (by decide) (by decide) (blank_of_white (by decide)) (by decide) (by decide) (by decide) (by decide)
        (blank_of_white (by decide)) (by decide) (by rintro b t ⟨⟩; decide))
        (.cons (w := []) (kt := b!"Prev") (w' := b!" ") (t := b!"181") (u := b!">>") (e := []) (e' := []) (e'' := []) .nil (nameText_plain _ (by decide)) (blank_of_white (by decide))
        (by rintro b t ⟨⟩; decide) (.int (neg := false) (sg := []) (ds := [1, 8, 1]) .none (by decide) (by decide) (by decide) (by rintro b t ⟨⟩; decide) (by rintro u ⟨⟩)
        (no_refTail _)) (.nil (w := []) .nil))
  back := by
    have := BackText.mk (w := b!"\n") (w' := b!"\n") (r := b!"\n") (ds := [0]) (by decide) (by decide) (by decide) (by decide) (by decide)
    exact ⟨0, this, .inr trivial⟩
  word := lacks_dec (by decide)
  hasPrev := by rintro p ⟨⟩; exact .inl ⟨_, rfl, .inr trivial⟩
  noPrev h := by cases h
  first _ := by
    rintro p ⟨⟩ d ⟨⟩
    decide

theorem linear2_back {r : Bytes} (hr : ∀ b ∈ r, IsWhite b) : BackText 75 r (linear2 r).back := BackText.mk (w := b!"\n") (w' := b!"\n") (r := r) (ds := [7, 5]) (by decide) (by decide) (by decide) (by decide) hr

theorem linear2_at (cd : Codecs) {pos : Nat} {r : Bytes} (hr : ∀ b ∈ r, IsWhite b) (hw : hasWord b!"obj" (linear2 r).tail = false) : UpdateAt cd (fun _ => True) pos none (linear2 r) r where
  parts := by
    intro p hp
    cases List.mem_singleton.1 hp
    exact ObjectText.value (h := b!"1 0 obj") (w := b!"\n") (t := b!"<</Type/Pages>>") (w' := b!"\n") (u := b!"\n")
      (.mk (ds := [1]) (gs := [0]) (w := b!" ") (w' := b!" ") (by decide) (by decide) (by decide) (by decide) (by decide) (by decide) ⟨by decide, by decide⟩ ⟨by decide, by decide⟩)
      (blank_of_white (by decide)) (stops_dec (by decide)) (by decide)
      (fun r => .dict (es := [(b!"Type", .name b!"Pages")]) (t := b!"/Type/Pages>>")
        (.cons (w := []) (kt := b!"Type") (w' := []) (t := b!"/Pages") (u := b!">>") (e := []) (e' := []) (e'' := []) .nil (nameText_plain _ (by decide)) .nil (by rintro b t ⟨⟩; decide)
          (.name (t := b!"Pages") (nameText_plain _ (by decide)) (by rintro b t ⟨⟩; decide)) (.nil (w := []) .nil)))
      (blank_of_white (by decide)) (lacks_dec (by decide)).noHeader (noOpen_dec (by decide)) (Break.between ⟨by decide, by decide⟩)
  sect := by
    refine .table rfl ?_ ?_ ⟨b!"\n0 2\n0 9 f \n150 0 n \ntrailer\n", rfl⟩ (by decide) ?_
    · intro p hp
      cases List.mem_singleton.1 hp
      rintro d ⟨⟩; decide
    · have sp : Gap [32] := gap_of (by decide)
      have nl : Gap [10] := gap_of (by decide)
      have sn : Gap [32, 10] := gap_of (by decide)
      exact .mk (w := []) (w1 := [32, 10]) (w2 := [10]) .nil (.cons (w := [10]) (w1 := [32]) (ls := [⟨0, 9, false⟩, ⟨150, 0, true⟩]) nl (.mk (ds := [0]) (by decide) (by decide) (by decide)) sp (.mk (ds := [2]) (by decide) (by decide) (by decide))
      (.cons (w := [10]) (w1 := [32]) (w2 := [32]) (u := false) nl (.mk (ds := [0]) (by decide) (by decide) (by decide)) sp (.mk (ds := [9]) (by decide) (by decide) (by decide)) sp
      (.cons (w := [32, 10]) (w1 := [32]) (w2 := [32]) (u := true) sn (.mk (ds := [1, 5, 0]) (by decide) (by decide) (by decide)) sp (.mk (ds := [0]) (by decide) (by decide) (by decide)) sp .nil)) (by decide) .nil) sn nl.1
    · intro z
      exact .nil (w := []) .nil
  back := ⟨75, linear2_back hr, .inr trivial⟩
  word := lacks_dec hw
  hasPrev := by rintro p ⟨⟩
  noPrev _ := by rfl
  first h := absurd rfl h

set_option maxRecDepth 100000 in
theorem linear_document (cd : Codecs) : Document cd docHead [linear1, linear2 []] where
  nonempty := by rintro u ⟨⟩; decide
  sections := by
    refine .linearized (.mk (r := b!"\n") (r' := []) (x := intNum false 181) (linear1_at cd) (.inl (by decide)) (by decide) (by decide +kernel) (linear2_at cd (by decide) (by decide)) ?_ (.inl ⟨rfl, ?_, by decide⟩))
    · rintro p ⟨⟩ d ⟨⟩
      decide
    · have : linear1.place docHead.length = 75 := by decide
      rw [this]; exact linear2_back (by decide)
  head := (updated_document cd).head
  start := (updated_document cd).start
  noOpen := (updated_document cd).noOpen
  words := words_dec (by decide +kernel)
  short := by decide +kernel

set_option maxRecDepth 100000 in
/-- The hypotheses of `C81_read_partial`. -/
example (cd : Codecs) : Document cd docHead [linear1, linear2 []] ∧ linear [linear1, linear2 []] = true ∧ RightTables (docText docHead [linear1, linear2 []]) docHead.length [linear1, linear2 []] ∧
    ((linear1.parts ++ (linear2 []).parts).map (·.obj.number)).Nodup ∧ trailerFor [linear1, linear2 []] b!"Encrypt" = none ∧ (∀ d, FirstDict [linear2 []] d → d.get? b!"Encrypt" = none) ∧
    trailerFor [linear1, linear2 []] b!"Root" = some (.ref 3 0) := by
  refine ⟨linear_document cd, by decide, (rightTables_linear (by decide)).2 ⟨rightTable_dec (by decide) (by decide), trivial⟩, by decide, by decide, ?_, by decide⟩
  rintro d ⟨v, hv, p, hp, hd⟩
  rw [List.mem_singleton] at hv
  subst hv
  cases hp
  cases hd
  decide

/-- The same objects, not linearized. -/
def plain1 : Update where
  parts := linear1.parts ++ (linear2 []).parts
  sect := .table [(0, [⟨0, 9, false⟩, ⟨75, 0, true⟩, ⟨9, 0, true⟩, ⟨42, 0, true⟩])] [(b!"Root", .ref 3 0)] [] b!"xref\n0 4\n0 9 f \n75 0 n \n9 0 n \n42 0 n \ntrailer\n" b!"/Root 3 0 R>>" b!"\n"
  back := b!"startxref\n106\n%%EOF"

set_option maxRecDepth 100000 in
theorem plain1_at (cd : Codecs) : UpdateAt cd (fun _ => False) docHead.length none plain1 [] where
  parts := by
    intro p hp
    rcases List.mem_append.1 hp with hp | hp
    · exact (linear1_at cd (pos := 0) (prev := 0)).parts p hp
    · exact (linear2_at cd (pos := 0) (r := []) (by decide) (by decide)).parts p hp
  sect := by
    refine .table rfl ?_ ?_ ⟨b!"\n0 4\n0 9 f \n75 0 n \n9 0 n \n42 0 n \ntrailer\n", rfl⟩ (by decide) ?_
    · intro p hp
      simp only [plain1, linear1, linear2, List.cons_append, List.nil_append, List.mem_cons, List.not_mem_nil, or_false] at hp
      rcases hp with rfl | rfl | rfl <;> (rintro d ⟨⟩; decide)
    · have sp : Gap [32] := gap_of (by decide)
      have nl : Gap [10] := gap_of (by decide)
      have sn : Gap [32, 10] := gap_of (by decide)
      exact .mk (w := []) (w1 := [32, 10]) (w2 := [10]) .nil (.cons (w := [10]) (w1 := [32]) (ls := [⟨0, 9, false⟩, ⟨75, 0, true⟩, ⟨9, 0, true⟩, ⟨42, 0, true⟩]) nl (.mk (ds := [0]) (by decide) (by decide) (by decide)) sp (.mk (ds := [4]) (by decide) (by decide) (by decide))
      (.cons (w := [10]) (w1 := [32]) (w2 := [32]) (u := false) nl (.mk (ds := [0]) (by decide) (by decide) (by decide)) sp (.mk (ds := [9]) (by decide) (by decide) (by decide)) sp
      (.cons (w := [32, 10]) (w1 := [32]) (w2 := [32]) (u := true) sn (.mk (ds := [7, 5]) (by decide) (by decide) (by decide)) sp (.mk (ds := [0]) (by decide) (by decide) (by decide)) sp
      (.cons (w := [32, 10]) (w1 := [32]) (w2 := [32]) (u := true) sn (.mk (ds := [9]) (by decide) (by decide) (by decide)) sp (.mk (ds := [0]) (by decide) (by decide) (by decide)) sp
      (.cons (w := [32, 10]) (w1 := [32]) (w2 := [32]) (u := true) sn (.mk (ds := [4, 2]) (by decide) (by decide) (by decide)) sp (.mk (ds := [0]) (by decide) (by decide) (by decide)) sp .nil)))) (by decide) .nil) sn nl.1
    · intro z
      exact .cons (w := []) (kt := b!"Root") (w' := b!" ") (t := b!"3 0 R") (u := b!">>") (e := []) (e' := []) (e'' := []) .nil (nameText_plain _ (by decide)) (blank_of_white (by decide))
        (by rintro b t ⟨⟩; decide) (.ref (ds := [3]) (w := b!" ") (gs := [0]) (w' := b!" ") (by decide) (by decide) (by decide) (blank_of_white (by decide)) (by decide) (by decide) (by decide) (by decide)
        (blank_of_white (by decide)) (by decide) (by rintro b t ⟨⟩; decide)) (.nil (w := []) .nil)
  back := by
    have := BackText.mk (w := b!"\n") (w' := b!"\n") (r := []) (ds := [1, 0, 6]) (by decide) (by decide) (by decide) (by decide) (by decide)
    exact ⟨106, this, .inl (by decide)⟩
  word := lacks_dec (by decide)
  hasPrev := by rintro p ⟨⟩
  noPrev _ := by decide
  first h := absurd rfl h

set_option maxRecDepth 100000 in
/-- The hypotheses of `C81_same_partial` that are not above. -/
example (cd : Codecs) : Document cd docHead [plain1] ∧ RightTables (docText docHead [plain1]) docHead.length [plain1] ∧
    (∀ n, (lastWith (linear1.parts ++ (linear2 []).parts) n).map (·.obj) = (lastWith plain1.parts n).map (·.obj)) ∧
    (∀ n, (lastFor ((linear2 []).sect.entries ++ linear1.sect.entries) n).map (·.typ) = (lastFor plain1.sect.entries n).map (·.typ)) ∧ trailerFor [plain1] b!"Encrypt" = none := by
  refine ⟨⟨.linked (.last (plain1_at cd) (by decide)), (by rintro u ⟨⟩; decide), (updated_document cd).head, (updated_document cd).start, (updated_document cd).noOpen, words_dec (by decide +kernel), by decide +kernel⟩,
    (rightTables_plain (by decide)).2 ⟨rightTable_dec (by decide) (by decide), trivial⟩, fun n => rfl, fun n => ?_, by decide⟩
  have e1 : (linear2 []).sect.entries ++ linear1.sect.entries = [(0, ⟨0, 9, 0, true, false⟩), (1, ⟨150, 0, 1, true, false⟩), (2, ⟨9, 0, 1, true, false⟩), (3, ⟨42, 0, 1, true, false⟩)] := by decide
  have e2 : plain1.sect.entries = [(0, ⟨0, 9, 0, true, false⟩), (1, ⟨75, 0, 1, true, false⟩), (2, ⟨9, 0, 1, true, false⟩), (3, ⟨42, 0, 1, true, false⟩)] := by decide
  rw [e1, e2]
  by_cases h0 : n = 0
  · subst h0; rfl
  by_cases h1 : n = 1
  · subst h1; rfl
  by_cases h2 : n = 2
  · subst h2; rfl
  by_cases h3 : n = 3
  · subst h3; rfl
  simp [lastFor, Ne.symm h0, Ne.symm h1, Ne.symm h2, Ne.symm h3]

/-! ### A linearized document with an update -/

/-- A new version of object 1. -/
def linear3 : Update where
  parts := [⟨⟨1, 0, .str b!"new", none⟩, [], b!"1 0 obj\n(new)\nendobj\n"⟩]
  sect := .table [(1, [⟨238, 0, true⟩])] [(b!"Prev", .num (intNum false 75))] [] b!"xref\n1 1\n238 0 n \ntrailer\n" b!"/Prev 75>>" b!"\n"
  back := b!"startxref\n259\n%%EOF"

set_option maxRecDepth 100000 in
theorem linear3_at (cd : Codecs) : UpdateAt cd (fun _ => False) 238 (some 75) linear3 [] where
  parts := by
    intro p hp
    cases List.mem_singleton.1 hp
    exact ObjectText.value (h := b!"1 0 obj") (w := b!"\n") (t := b!"(new)") (w' := b!"\n") (u := b!"\n")
      (.mk (ds := [1]) (gs := [0]) (w := b!" ") (w' := b!" ") (by decide) (by decide) (by decide) (by decide) (by decide) (by decide) ⟨by decide, by decide⟩ ⟨by decide, by decide⟩)
      (blank_of_white (by decide)) (stops_dec (by decide)) (by decide) (fun r => .str (t := b!"new") (strText_plain (by decide))) (blank_of_white (by decide)) (lacks_dec (by decide)).noHeader
      (noOpen_dec (by decide)) (Break.between ⟨by decide, by decide⟩)
  sect := by
    refine .table rfl ?_ ?_ ⟨b!"\n1 1\n238 0 n \ntrailer\n", rfl⟩ (by decide) ?_
    · intro p hp
      cases List.mem_singleton.1 hp
      rintro d ⟨⟩
    · have sp : Gap [32] := gap_of (by decide)
      have nl : Gap [10] := gap_of (by decide)
      have sn : Gap [32, 10] := gap_of (by decide)
      exact .mk (w := []) (w1 := [32, 10]) (w2 := [10]) .nil (.cons (w := [10]) (w1 := [32]) (ls := [⟨238, 0, true⟩]) nl (.mk (ds := [1]) (by decide) (by decide) (by decide)) sp (.mk (ds := [1]) (by decide) (by decide) (by decide))
      (.cons (w := [10]) (w1 := [32]) (w2 := [32]) (u := true) nl (.mk (ds := [2, 3, 8]) (by decide) (by decide) (by decide)) sp (.mk (ds := [0]) (by decide) (by decide) (by decide)) sp .nil) (by decide) .nil) sn nl.1
    · intro z
      exact .cons (w := []) (kt := b!"Prev") (w' := b!" ") (t := b!"75") (u := b!">>") (e := []) (e' := []) (e'' := []) .nil (nameText_plain _ (by decide)) (blank_of_white (by decide))
        (by rintro b t ⟨⟩; decide) (.int (neg := false) (sg := []) (ds := [7, 5]) .none (by decide) (by decide) (by decide) (by rintro b t ⟨⟩; decide) (by rintro u ⟨⟩)
        (no_refTail _)) (.nil (w := []) .nil)
  back := by
    have := BackText.mk (w := b!"\n") (w' := b!"\n") (r := []) (ds := [2, 5, 9]) (by decide) (by decide) (by decide) (by decide) (by decide)
    exact ⟨259, this, .inl (by decide)⟩
  word := lacks_dec (by decide)
  hasPrev := by
    rintro p ⟨⟩
    exact .inl ⟨_, rfl, .inl (by decide +kernel)⟩
  noPrev h := by cases h
  first _ := by rintro p ⟨⟩ d ⟨⟩

set_option maxRecDepth 100000 in
/-- The hypotheses of `C74_meant_partial` for it; the new version of object 1 is meant, and the old ones of objects 2 and 3. -/
example (cd : Codecs) : let us := [linear1, linear2 b!"\n", linear3]
    Document cd docHead us ∧ RightTables (docText docHead us) docHead.length us ∧ trailerFor us b!"Encrypt" = none ∧ (∀ d, FirstDict us.tail d → d.get? b!"Encrypt" = none) ∧
    (meant us 1).map (·.obj.value) = some (.str b!"new") ∧ (meant us 2).map (·.obj.value) = some (.dict [(b!"Linearized", .num (intNum false 1))]) ∧
    (meant us 3).map (·.obj.value) = some (.dict [(b!"Type", .name b!"Catalog")]) := by
  refine ⟨⟨?_, (by rintro u ⟨⟩; decide), (updated_document cd).head, (updated_document cd).start, (updated_document cd).noOpen, words_dec (by decide +kernel), by decide +kernel⟩,
    (rightTables_linear (by decide)).2 ⟨rightTable_dec (by decide) (by decide), rightTable_dec (by decide) (by decide), trivial⟩, by decide, ?_, by decide, by decide, by decide⟩
  · have e1 : linear1.place docHead.length = 75 := by decide
    have e2 : docHead.length + linear1.text.length + (linear2 b!"\n").text.length = 238 := by decide
    refine .linearized (.mk (r := b!"\n") (r' := b!"\n") (x := intNum false 181) (linear1_at cd) (.inl (by decide)) (by decide) (by decide +kernel) (linear2_at cd (by decide) (by decide)) ?_ (.inr ⟨.inl (by decide), ?_⟩))
    · rintro p ⟨⟩ d ⟨⟩
      decide
    · rw [e1, e2]
      exact .last (linear3_at cd) (by decide)
  · rintro d ⟨v, hv, p, hp, hd⟩
    simp only [List.tail_cons, List.mem_cons, List.not_mem_nil, or_false] at hv
    rcases hv with rfl | rfl
    · cases hp
      cases hd
      decide
    · cases hp
      cases hd

end Pdf.Props
