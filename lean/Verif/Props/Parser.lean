import Verif.Lemmas.Parser
import Verif.Lemmas.Assoc
/-!
C01, C07, C09, C11-C13, C57: reading objects. `file.drop s.pos = l` says that the unread input is `l`.
-/

namespace Pdf.Props
open Pdf Spec

/-! ### C57 and C09 -/

/-- What two calls of the same method, at `s1` and at `s2` with `k` extra bytes in front, have in
common: same result, same number of bytes read (not counting the `k`), same messages logged. -/
def SameBut {α : Type} (k : Nat) (s1 s2 : PS) : Res (α × PS) → Res (α × PS) → Prop
  | .ok (a, s1'), .ok (b, s2') => a = b ∧ ∃ n e, s1'.pos = s1.pos + n ∧ s2'.pos = s2.pos + k + n ∧
      s1'.log = s1.log ++ e ∧ s2'.log = s2.log ++ e
  | .panic w, .panic w' => w = w'
  | _, _ => False

theorem sameBut_of_rel {α : Type} {k : Nat} {s1 s2 : PS} {x y : Res (α × PS)} {X Y : Res (LR α)} (hx : Rel s1 x X) (hy : Rel s2 y Y)
    (hne : X ≠ .oof) (hXY : Y = X.bind fun q => .ok ⟨q.val, k + q.n, q.errs⟩) : SameBut k s1 s2 x y := by
  subst hXY
  match x, X, hx with
  | .ok (a, s1'), .ok q, hx =>
    match y, hy with
    | .ok (b, s2'), hy =>
      exact ⟨by rw [hx.1, hy.1], q.n, q.errs, hx.2.pos, by rw [hy.2.pos]; simp only; omega, hx.2.log, hy.2.log⟩
  | .panic w, .panic w', hx =>
    match y, hy with
    | .panic v, hy => exact hx.trans hy.symm
  | .oof, .oof, _ => exact absurd rfl hne

theorem sameBut_ok {α : Type} {k : Nat} {s1 s2 : PS} {p1 p2 : α × PS} {n : Nat} {e : List Err} (hv : p1.1 = p2.1)
    (h1 : Step s1 p1.2 n e) (h2 : Step s2 p2.2 (k + n) e) : SameBut k s1 s2 (.ok p1) (.ok p2) :=
  ⟨hv, n, e, h1.pos, by rw [h2.pos]; omega, h1.log, h2.log⟩

theorem lskip_bind {β : Type} (w l : Bytes) (g : Bytes → Res (LR β)) :
    lskip w.length (w ++ l) g = (g l).bind fun q => .ok ⟨q.val, w.length + q.n, q.errs⟩ := by
  rw [lskip, lthen, Res.bind_ok]
  simp only [List.drop_left]
  cases g l <;> rfl

/-- `ReadObject` on the remaining bytes, with any sufficient fuel. -/
theorem readObj_rel {dec : Bytes → Res Bytes} (hdec : ∀ b, dec b ≠ .oof) (file : Bytes) (s : PS) {F : Nat} (hF : objFuel file ≤ F) :
    Rel s (readObj file dec s) (lObj dec F (rest file s)) ∧ lObj dec F (rest file s) ≠ .oof := by
  have hr := (readObject_spec file dec (objFuel file)).1 s
  have hl := rest_length_le file s
  have hg := (lObj_good hdec (objFuel file)).1 (rest file s) (by rw [objFuel]; omega)
  have hne : lObj dec (objFuel file) (rest file s) ≠ .oof := by
    intro h; rw [h] at hg; exact hg
  rw [lObj_fuel dec hF hne]
  exact ⟨hr, hne⟩

/-- **C57** What `ReadObject` returns, logs and how far it reads depend on the unread bytes alone: not
on the bytes before, nor on how much of the input happens to be buffered, nor on what was read last
(`Reader.UnreadByte` state). -/
theorem C57_object_unread_only {dec : Bytes → Res Bytes} (hdec : ∀ b, dec b ≠ .oof) {file1 file2 : Bytes} {s1 s2 : PS}
    (h : file1.drop s1.pos = file2.drop s2.pos) : SameBut 0 s1 s2 (readObj file1 dec s1) (readObj file2 dec s2) := by
  obtain ⟨h1, hne⟩ := readObj_rel hdec file1 s1 (Nat.le_max_left (objFuel file1) (objFuel file2))
  obtain ⟨h2, -⟩ := readObj_rel hdec file2 s2 (Nat.le_max_right (objFuel file1) (objFuel file2))
  refine sameBut_of_rel h1 h2 hne ?_
  rw [show rest file2 s2 = rest file1 s1 from h.symm]
  cases lObj dec (max (objFuel file1) (objFuel file2)) (rest file1 s1) <;> simp [Res.bind]

section C09
variable {w l file1 file2 : Bytes} {s1 s2 : PS} (hw : Blank w) (h1 : file1.drop s1.pos = l) (h2 : file2.drop s2.pos = w ++ l)
include hw h1 h2

/-- **C09** `ReadObject` -/
theorem C09_object {dec : Bytes → Res Bytes} (hdec : ∀ b, dec b ≠ .oof) :
    SameBut w.length s1 s2 (readObj file1 dec s1) (readObj file2 dec s2) := by
  obtain ⟨e1, hne⟩ := readObj_rel hdec file1 s1 (Nat.le_max_left (objFuel file1) (objFuel file2))
  obtain ⟨e2, -⟩ := readObj_rel hdec file2 s2 (Nat.le_max_right (objFuel file1) (objFuel file2))
  refine sameBut_of_rel e1 e2 hne ?_
  rw [show rest file2 s2 = w ++ l from h2, show rest file1 s1 = l from h1, lObj_blank hw, lskip_bind]

/-- **C09** `ReadName` -/
theorem C09_name : SameBut w.length s1 s2 (.ok (readName file1 s1)) (.ok (readName file2 s2)) := by
  have d1 := readName_spec file1 s1
  have d2 := readName_spec file2 s2
  rw [show rest file1 s1 = l from h1] at d1
  rw [show rest file2 s2 = w ++ l from h2, lName_blank hw] at d2
  exact sameBut_ok (by rw [d1.val, d2.val]) d1.step d2.step

/-- **C09** `ReadKeyword` -/
theorem C09_keyword : SameBut w.length s1 s2 (.ok (readKeyword file1 s1)) (.ok (readKeyword file2 s2)) := by
  have d1 := readKeyword_spec file1 s1
  have d2 := readKeyword_spec file2 s2
  rw [show rest file1 s1 = l from h1] at d1
  rw [show rest file2 s2 = w ++ l from h2, lKeyword_blank hw] at d2
  exact sameBut_ok (by rw [d1.1, d2.1]) d1.2 d2.2

/-- **C09** `ReadNumber` -/
theorem C09_number : SameBut w.length s1 s2 (.ok (readNumber file1 s1)) (.ok (readNumber file2 s2)) := by
  have d1 := readNumber_spec file1 s1
  have d2 := readNumber_spec file2 s2
  rw [show rest file1 s1 = l from h1] at d1
  rw [show rest file2 s2 = w ++ l from h2, lNumber_blank hw] at d2
  exact sameBut_ok (by rw [d1.1, d2.1]) d1.2 d2.2

/-- **C09** `ReadString` -/
theorem C09_string {dec : Bytes → Res Bytes} (hdec : ∀ b, dec b ≠ .oof) :
    SameBut w.length s1 s2 (readString file1 dec s1) (readString file2 dec s2) := by
  have d1 := readStringRaw_spec file1 s1
  have d2 := readStringRaw_spec file2 s2
  rw [show rest file1 s1 = l from h1] at d1
  rw [show rest file2 s2 = w ++ l from h2, lStr_blank hw] at d2
  have v1 := d1.val
  have v2 := d2.val
  simp only [List.nil_append] at v1 v2
  simp only [readString, v1, v2]
  cases hd : dec (lStr l).val with
  | ok d => exact sameBut_ok rfl d1.step d2.step
  | panic m => rfl
  | oof => exact absurd hd (hdec _)

/-- **C09** `ReadHexString` -/
theorem C09_hex {dec : Bytes → Res Bytes} (hdec : ∀ b, dec b ≠ .oof) :
    SameBut w.length s1 s2 (readHexString file1 dec s1) (readHexString file2 dec s2) := by
  have d1 := readHexRaw_spec file1 s1
  have d2 := readHexRaw_spec file2 s2
  rw [show rest file1 s1 = l from h1] at d1
  rw [show rest file2 s2 = w ++ l from h2, lHex_blank hw] at d2
  have v1 := d1.val
  have v2 := d2.val
  simp only [List.nil_append] at v1 v2
  simp only [readHexString, v1, v2]
  cases hd : dec (lHex l).val with
  | ok d => exact sameBut_ok rfl d1.step d2.step
  | panic m => rfl
  | oof => exact absurd hd (hdec _)

/-- **C09** `ReadArray` -/
theorem C09_array {dec : Bytes → Res Bytes} (hdec : ∀ b, dec b ≠ .oof) :
    SameBut w.length s1 s2 (readArray file1 dec s1) (readArray file2 dec s2) := by
  have e1 := readArray_spec file1 dec s1
  have e2 := readArray_spec file2 dec s2
  have l1 := rest_length_le file1 s1
  have l2 := rest_length_le file2 s2
  have key : ∀ (l : Bytes) (f g : Nat), 2 * l.length + 4 ≤ f → 2 * l.length + 4 ≤ g → lArray dec f l = lArray dec g l ∧ lArray dec f l ≠ .oof := by
    intro l f g hf hg
    have ha : ∀ (u : Bytes) (f : Nat), 2 * u.length + 2 ≤ f → lArr dec f u [] ≠ .oof := by
      intro u f hf h
      have := (lObj_good hdec f).2.1 u [] hf
      rw [h] at this; exact this
    rw [lArray, lArray, lskip, lskip, lthen, lthen, Res.bind_ok, Res.bind_ok]
    have hlen := List.length_drop (i := skipWs false l) (l := l)
    generalize l.drop (skipWs false l) = t at hlen
    cases t with
    | nil => exact ⟨rfl, by simp [lret]⟩
    | cons b t =>
      simp only [List.length_cons] at hlen
      simp only
      by_cases hb : (b == ch%'[') = true
      · simp only [hb, if_true, lskip, lthen, Res.bind_ok, List.drop_one, List.tail_cons]
        have hf' := ha t (2 * t.length + 2) (Nat.le_refl _)
        rw [lArr_fuel dec (f := 2 * t.length + 2) (g := f) (by omega) hf', lArr_fuel dec (f := 2 * t.length + 2) (g := g) (by omega) hf']
        refine ⟨rfl, ?_⟩
        cases hh : lArr dec (2 * t.length + 2) t [] with
        | oof => exact absurd hh hf'
        | ok q => simp
        | panic w => simp
      · simp [hb]
  rw [show rest file1 s1 = l from h1] at e1 l1
  rw [show rest file2 s2 = w ++ l from h2, lArray_blank hw, lskip_bind] at e2
  rw [show rest file2 s2 = w ++ l from h2, List.length_append] at l2
  obtain ⟨k1, k2⟩ := key l (objFuel file1) (objFuel file2) (by rw [objFuel]; omega) (by rw [objFuel]; omega)
  rw [← k1] at e2
  exact sameBut_of_rel e1 e2 k2 rfl

/-- **C09, partial** `ReadInt`, provided something other than white space and comments follows; see
`C09_int_false` for the end of the file. -/
theorem C09_int_partial (hl : ∃ u b t, l = u ++ b :: t ∧ Blank u ∧ ¬ IsWhite b ∧ b ≠ 37) :
    SameBut w.length s1 s2 (.ok (readInt file1 s1)) (.ok (readInt file2 s2)) := by
  have r1 : rest file1 s1 = l := h1
  have r2 : rest file2 s2 = w ++ l := h2
  have hb := lInt_blank hw l
  cases hi : lInt l with
  | some p =>
    rw [hi, Option.map_some] at hb
    obtain ⟨t1, a1, b1⟩ := readInt_some (file := file1) (s := s1) (v := p.1) (n := p.2) (by rw [r1, hi])
    obtain ⟨t2, a2, b2⟩ := readInt_some (file := file2) (s := s2) (v := p.1) (n := w.length + p.2) (by rw [r2, hb])
    rw [a1, a2]
    exact sameBut_ok rfl b1 b2
  | none =>
    rw [hi, Option.map_none] at hb
    obtain ⟨t1, a1, -, b1, -⟩ := readInt_none (file := file1) (s := s1) (by rw [r1, hi])
    obtain ⟨t2, a2, -, b2, -⟩ := readInt_none (file := file2) (s := s2) (by rw [r2, hb])
    obtain ⟨u, b, t, hu, hbu, hb1, hb2⟩ := hl
    have hz := skipWs_zero hb1 hb2 (t := t)
    have n1 : rest file1 (consumeWs file1 s1) ≠ [] := by
      rw [rest_eq (file := file1) (consumeWs_step file1 s1).pos, r1, hu, drop_blank hbu, hz]; simp
    have n2 : rest file2 (consumeWs file2 s2) ≠ [] := by
      rw [rest_eq (file := file2) (consumeWs_step file2 s2).pos, r2, drop_blank hw, hu, drop_blank hbu, hz]; simp
    have b1 := b1 n1
    have b2 := b2 n2
    rw [r1] at b1
    rw [r2, skipWs_blank hw] at b2
    rw [a1, a2]
    exact sameBut_ok rfl b1 b2

end C09

/-- **C09, refuted for `ReadInt` at the end of the file** After white space at the end of the file the
last byte is pushed back, so the position is not shifted by the inserted length. -/
theorem C09_int_false : ∃ (file1 file2 w : Bytes) (s1 s2 : PS), Blank w ∧ file1.drop s1.pos = [] ∧ file2.drop s2.pos = w ++ [] ∧
    ¬ SameBut w.length s1 s2 (.ok (readInt file1 s1)) (.ok (readInt file2 s2)) := by
  refine ⟨[], b!" ", b!" ", PS.init, PS.init, .ws (by decide) .nil, rfl, rfl, ?_⟩
  rintro ⟨-, n, e, h1, h2, -⟩
  have p2 : (unreadByte (consumeWs b!" " PS.init)).pos = 0 := by decide
  rw [p2] at h2
  simp [PS.init] at h2
  omega

example : Blank b!" % a comment\r\n\t" :=
  .ws (by decide) <| .comment (c := b!" a comment") (e := 13) (by decide) (by decide) <| .ws (by decide) <| .ws (by decide) .nil

/-! ### C01 -/

/-- **C01** Reading an object ends with a result, from any state of any file, when decryption does not
crash (no decryption, RC4): the position never moves back, moves forward unless the end of the input
was reached, and does not pass it. -/
theorem C01_object_total {dec : Bytes → Res Bytes} (hdec : ∀ b, ∃ d, dec b = .ok d) (file : Bytes) (s : PS) :
    ∃ o err s', readObj file dec s = .ok ((o, err), s') ∧ s.pos ≤ s'.pos ∧ s'.pos ≤ max s.pos file.length ∧
      (err ≠ .readError → s.pos < s'.pos) ∧
      (err = .readError → file.length ≤ s'.pos ∧ o = Obj.null ∧ s'.log = s.log) := by
  have hne : ∀ b, dec b ≠ .oof := by intro b h; obtain ⟨d, hd⟩ := hdec b; rw [hd] at h; cases h
  have hr := (readObject_spec file dec (objFuel file)).1 s
  have hl := rest_length_le file s
  have hlen : (rest file s).length = file.length - s.pos := by simp [rest]
  have hg := (lObj_good hne (objFuel file)).1 (rest file s) (by rw [objFuel]; omega)
  rw [readObj]
  match hX : readObject file dec (objFuel file) s, hY : lObj dec (objFuel file) (rest file s) with
  | .ok ((o, err), s'), .ok q =>
    rw [hX, hY] at hr
    rw [hY] at hg
    obtain ⟨g1, g2, g3⟩ := hg
    obtain ⟨v, st⟩ := hr
    have hp := st.pos
    rw [← v] at g2 g3
    refine ⟨o, err, s', rfl, by omega, by omega, fun h => ?_, fun h => ?_⟩
    · have := g3 h; omega
    · obtain ⟨a, b, c⟩ := g2 h
      exact ⟨by omega, b, by rw [st.log, c, List.append_nil]⟩
  | .panic m, .panic m' =>
    rw [hY] at hg
    obtain ⟨b, hb⟩ := hg
    obtain ⟨d, hd⟩ := hdec b
    rw [hd] at hb; cases hb
  | _, .oof => rw [hY] at hg; exact hg.elim
  | .ok _, .panic _ => rw [hX, hY] at hr; exact hr.elim
  | .panic _, .ok _ => rw [hX, hY] at hr; exact hr.elim
  | .oof, .ok _ => rw [hX, hY] at hr; exact hr.elim
  | .oof, .panic _ => rw [hX, hY] at hr; exact hr.elim

/-- Reading without decryption qualifies. -/
example : ∀ b, ∃ d, noDec b = .ok d := fun b => ⟨b, rfl⟩

/-! ### C07 -/

/-- **C07** Every spelling of every object, after any white space and comments and followed by
anything that does not extend its last token, is read as that object; the reader stops right after
it and logs exactly the unnecessary escapes in it. -/
theorem C07_object_read {o : Obj} {t r w : Bytes} {e : List Err} (h : ObjAt o t r e) (hw : Blank w) (file : Bytes) (s : PS)
    (hin : file.drop s.pos = w ++ (t ++ r)) :
    ∃ s', readObj file noDec s = .ok ((o, .nil), s') ∧ s'.pos = s.pos + w.length + t.length ∧ s'.log = s.log ++ e := by
  obtain ⟨f, hf⟩ := objAt_read h
  obtain ⟨s', h1, h2, h3⟩ := readObj_of_lObj noDec_ne hin (lObj_blank_ok hw hf)
  exact ⟨s', h1, by rw [h2]; simp only; omega, h3⟩

theorem not_refTail_of {r : Bytes} (h : lInt r = none) : ¬ RefTail r := by
  rw [refTail_iff]
  rintro ⟨g, m, h1, -⟩
  rw [h] at h1; cases h1

/-- `-.5` -/
example : ObjAt (.num (.fin (mkRat (-1) 2))) b!"-.5" b!" /A" [] := by
  have e : mkRat (-1) 2 = -mkRat 1 2 := by decide +kernel
  have h : roundQ (((5 : Nat) : Rat) / 10) = .fin (mkRat 1 2) ∧ roundQ (0 + mkRat 1 2) = .fin (mkRat 1 2) := by decide +kernel
  have h1 : Rounded (((5 : Nat) : Rat) / 10) (.fin (mkRat 1 2)) := h.1 ▸ (roundQ_rounded (by positivity)).1
  have h2 : Rounded (0 + mkRat 1 2) (.fin (mkRat 1 2)) := h.2 ▸ (roundQ_rounded (by decide +kernel)).1
  rw [e]
  exact .real (neg := true) (sg := b!"-") (ds := []) (fs := [5]) .minus (by decide) (by decide) (by decide) .nil
    (.snoc (ds := []) .nil (.inl ⟨0, _, rfl, by simpa using h1, h2⟩)) (.fin (by decide +kernel)) (by rintro b t ⟨⟩; decide) (not_refTail_of (by decide))

/-- `[1 /A 2 0 R<</K(x)>>]` -/
example : ObjAt (.arr [.num (intNum false 1), .name b!"A", .ref 2 0, .dict (dictOf [(b!"K", .str b!"x")])])
    b!"[1 /A 2 0 R<</K(x)>>]" b!" 7" [] := by
  have h1 : ObjAt (.num (intNum false (decVal [1]))) b!"1" (b!" /A 2 0 R<</K(x)>>]" ++ b!" 7") [] :=
    .int (sg := []) (ds := [1]) .none (by decide) (by decide) (by decide) (by rintro b t ⟨⟩; decide) (by rintro u ⟨⟩)
      (not_refTail_of (by decide))
  have h2 : ObjAt (.name b!"A") b!"/A" (b!" 2 0 R<</K(x)>>]" ++ b!" 7") [] :=
    .name (.plain (by decide) (by decide) .nil) (by rintro b t ⟨⟩; decide)
  have h3 : ObjAt (.ref (decVal [2]) (decVal [0])) b!"2 0 R" (b!"<</K(x)>>]" ++ b!" 7") [] :=
    .ref (ds := [2]) (w := b!" ") (gs := [0]) (w' := b!" ") (by decide) (by decide) (by decide) (.ws (by decide) .nil) (by decide)
      (by decide) (by decide) (by decide) (.ws (by decide) .nil) (by decide) (by rintro b t ⟨⟩; decide)
  have h4 : ObjAt (.str b!"x") b!"(x)" (b!">>" ++ (b!"]" ++ b!" 7")) [] :=
    .str (.plain (by decide) (by decide) (by decide) .nil)
  have h5 : DictAt [(b!"K", .str b!"x")] b!"/K(x)>>" (b!"]" ++ b!" 7") [] :=
    .cons (w := []) (kt := b!"K") (w' := []) (u := b!">>") .nil (.plain (by decide) (by decide) .nil) .nil (by rintro b t ⟨⟩; decide)
      h4 (.nil (w := []) .nil)
  exact .arr <| .cons (w := []) (t := b!"1") (u := b!" /A 2 0 R<</K(x)>>]") .nil h1 <|
    .cons (w := b!" ") (t := b!"/A") (u := b!" 2 0 R<</K(x)>>]") (.ws (by decide) .nil) h2 <|
    .cons (w := b!" ") (t := b!"2 0 R") (u := b!"<</K(x)>>]") (.ws (by decide) .nil) h3 <|
    .cons (w := []) (t := b!"<</K(x)>>") (u := b!"]") .nil (.dict h5) (.nil (w := []) .nil)

/-! ### C11 -/

/-- **C11** An object that the end of the file cuts off, at any depth: everything read so far is
returned, the whole input is used up, and each open construct is reported. -/
theorem C11_cut_off {o : Obj} {t w : Bytes} {e : List Err} (h : OpenAt o t e) (hw : Blank w) (file : Bytes) (s : PS)
    (hin : file.drop s.pos = w ++ t) :
    ∃ s', readObj file noDec s = .ok ((o, .nil), s') ∧ s'.pos = s.pos + (file.drop s.pos).length ∧ s'.log = s.log ++ e := by
  obtain ⟨f, hf⟩ := openAt_read h
  obtain ⟨s', h1, h2, h3⟩ := readObj_of_lObj noDec_ne hin (lObj_blank_ok hw hf)
  exact ⟨s', h1, by rw [h2, hin]; simp, h3⟩

theorem readObj_ok {dec : Bytes → Res Bytes} (hdec : ∀ b, ∃ d, dec b = .ok d) (file : Bytes) (s : PS) {l : Bytes} (hl : file.drop s.pos = l) :
    ∃ q s', lObj dec (objFuel file) l = .ok q ∧ readObj file dec s = .ok (q.val, s') ∧ s'.pos = s.pos + q.n ∧ s'.log = s.log ++ q.errs := by
  have hr := (readObject_spec file dec (objFuel file)).1 s
  obtain ⟨o, err, s', h, -⟩ := C01_object_total hdec file s
  rw [readObj] at h
  rw [h, show rest file s = l from hl] at hr
  match hY : lObj dec (objFuel file) l, hr with
  | .ok q, hr => exact ⟨q, s', rfl, by rw [readObj, h, hr.1], hr.2.pos, hr.2.log⟩

/-- **C11** Whatever follows `[`: either the array ends at a `]`, or the input is used up and
`unclosed array` is the last message. -/
theorem C11_array {l w : Bytes} (hw : Blank w) {dec : Bytes → Res Bytes} (hdec : ∀ b, ∃ d, dec b = .ok d) (file : Bytes) (s : PS)
    (hin : file.drop s.pos = w ++ 91 :: l) :
    ∃ os s', readObj file dec s = .ok ((.arr os, .nil), s') ∧
      ((∃ u v, l = u ++ 93 :: v ∧ s'.pos = s.pos + w.length + 1 + u.length + 1) ∨
        (s'.pos = s.pos + (file.drop s.pos).length ∧ ∃ e, s'.log = s.log ++ e ++ [.unclosedArray])) := by
  have hne : ∀ b, dec b ≠ .oof := by intro b h; obtain ⟨d, hd⟩ := hdec b; rw [hd] at h; cases h
  obtain ⟨q, s', h1, h2, h3, h4⟩ := readObj_ok hdec file s hin
  rw [lObj_blank hw] at h1
  obtain ⟨p, hp, rfl⟩ := lskip_inv h1
  rw [List.drop_left, objFuel, lObj_arr] at hp
  obtain ⟨p', hp', rfl⟩ := lskip_inv hp
  obtain ⟨a, b, ha, hb, rfl⟩ := lthen_inv hp'
  rw [lret] at hb
  injection hb with hb
  subst hb
  refine ⟨a.val, s', h2, ?_⟩
  simp only [List.drop_one, List.tail_cons] at ha
  simp only [List.append_nil, Nat.add_zero] at h3 h4
  rcases lArr_ends hne _ _ _ _ ha with ⟨u, v, e1, e2⟩ | ⟨e1, e, e2⟩
  · exact .inl ⟨u, v, e1, by rw [h3, e2]; omega⟩
  · exact .inr ⟨by rw [h3, e1, hin]; simp; omega, e, by rw [h4, e2, List.append_assoc]⟩

/-- **C11** Whatever follows `<<`: either the dictionary ends at a `>>`, or the input is used up and the
last message is `unclosed dictionary` or, after a key, `missing dictionary value`. -/
theorem C11_dictionary {l w : Bytes} (hw : Blank w) {dec : Bytes → Res Bytes} (hdec : ∀ b, ∃ d, dec b = .ok d) (file : Bytes) (s : PS)
    (hin : file.drop s.pos = w ++ 60 :: 60 :: l) :
    ∃ d s', readObj file dec s = .ok ((.dict d, .nil), s') ∧
      ((∃ u v, l = u ++ 62 :: 62 :: v ∧ s'.pos = s.pos + w.length + 2 + u.length + 2) ∨
        (s'.pos = s.pos + (file.drop s.pos).length ∧
          ∃ e x, s'.log = s.log ++ e ++ [x] ∧ (x = .unclosedDictionary ∨ x = .missingDictionaryValue))) := by
  have hne : ∀ b, dec b ≠ .oof := by intro b h; obtain ⟨d, hd⟩ := hdec b; rw [hd] at h; cases h
  obtain ⟨q, s', h1, h2, h3, h4⟩ := readObj_ok hdec file s hin
  rw [lObj_blank hw] at h1
  obtain ⟨p, hp, rfl⟩ := lskip_inv h1
  rw [List.drop_left, objFuel, lObj_dict] at hp
  obtain ⟨p', hp', rfl⟩ := lskip_inv hp
  obtain ⟨a, b, ha, hb, rfl⟩ := lthen_inv hp'
  rw [lret] at hb
  injection hb with hb
  subst hb
  refine ⟨a.val, s', h2, ?_⟩
  simp only [List.drop_succ_cons, List.drop_zero] at ha
  simp only [List.append_nil, Nat.add_zero] at h3 h4
  rcases lDict_ends hne _ _ _ _ ha with ⟨u, v, e1, e2⟩ | ⟨e1, e, x, e2, e3⟩
  · exact .inl ⟨u, v, e1, by rw [h3, e2]; omega⟩
  · exact .inr ⟨by rw [h3, e1, hin]; simp; omega, e, x, by rw [h4, e2, List.append_assoc], e3⟩

/-- **C11** Whatever follows `(`: either the string ends at a `)`, or the input is used up and the last
message is `unclosed string` or, after a backslash, `unclosed escape in string`. -/
theorem C11_string {l w : Bytes} (hw : Blank w) {dec : Bytes → Res Bytes} (hdec : ∀ b, ∃ d, dec b = .ok d) (file : Bytes) (s : PS)
    (hin : file.drop s.pos = w ++ 40 :: l) :
    ∃ v s', readObj file dec s = .ok ((.str v, .nil), s') ∧
      ((∃ u v, l = u ++ 41 :: v ∧ s'.pos = s.pos + w.length + 1 + u.length + 1) ∨
        (s'.pos = s.pos + (file.drop s.pos).length ∧
          ∃ e x, s'.log = s.log ++ e ++ [x] ∧ (x = .unclosedString ∨ x = .unclosedStringEscape))) := by
  obtain ⟨q, s', h1, h2, h3, h4⟩ := readObj_ok hdec file s hin
  rw [lObj_blank hw] at h1
  obtain ⟨p, hp, rfl⟩ := lskip_inv h1
  rw [List.drop_left, objFuel, lObj_str, lDec] at hp
  obtain ⟨d, hd⟩ := hdec (LR.pre [] 1 [] (strGo 0 1 l)).val
  rw [hd] at hp
  injection hp with hp
  subst hp
  refine ⟨d, s', h2, ?_⟩
  simp only [LR.pre, List.nil_append] at h3 h4
  rcases strGo_ends l 0 1 (Nat.zero_le _) (Nat.le_refl _) with ⟨u, v, e1, e2⟩ | ⟨e1, e, x, e2, e3⟩
  · exact .inl ⟨u, v, e1, by rw [h3]; omega⟩
  · exact .inr ⟨by rw [h3, hin]; simp; omega, e, x, by rw [h4, e2, List.append_assoc], e3⟩

/-- `<</K [1 (ab` : a string in an array in a dictionary, all cut off. -/
example : OpenAt (.dict (dictOf [(b!"K", .arr [.num (intNum false 1), .str b!"ab"])])) b!"<</K [1 (ab"
    [.unclosedString, .unclosedArray, .unclosedDictionary] := by
  have h1 : ObjAt (.num (intNum false (decVal [1]))) b!"1" b!" (ab" [] :=
    .int (sg := []) (ds := [1]) .none (by decide) (by decide) (by decide) (by rintro b t ⟨⟩; decide) (by rintro u ⟨⟩)
      (not_refTail_of (by decide))
  have h2 : OpenAt (.str b!"ab") b!"(ab" [.unclosedString] :=
    .str (.eof (e := []) (.plain (by decide) (by decide) (by decide) (.plain (by decide) (by decide) (by decide) .nil)) (by
      rintro (⟨u, h⟩ | ⟨u, x, hx, h⟩ | ⟨u, x, y, hx, hy, h⟩)
      · have := congrArg List.reverse h; simp at this
      · have := congrArg List.reverse h; simp at this
      · have := congrArg List.length h; simp at this))
  have h3 : OpenArr [.num (intNum false 1), .str b!"ab"] b!"1 (ab" [.unclosedString, .unclosedArray] :=
    .cons (w := []) (t := b!"1") (u := b!" (ab") (e := []) .nil h1 (.last (w := b!" ") (e := [.unclosedString]) (.ws (by decide) .nil) h2)
  exact .dict <| .last (w := []) (kt := b!"K") (w' := b!" ") (t := b!"[1 (ab") (e := []) .nil (.plain (by decide) (by decide) .nil)
    (.ws (by decide) .nil) (by rintro b t ⟨⟩; decide) (.arr h3)

/-! ### C12 -/

/-- **C12** A dictionary whose key positions hold names or stray objects: the stray objects are skipped,
each with a message, and every key has the value of its last occurrence. -/
theorem C12_dictionary {es : List (Bytes × Obj)} {t r w : Bytes} {e : List Err} (h : DictAny es t r e) (hw : Blank w) (file : Bytes) (s : PS)
    (hin : file.drop s.pos = w ++ (60 :: 60 :: t ++ r)) :
    ∃ d s', readObj file noDec s = .ok ((.dict d, .nil), s') ∧ s'.pos = s.pos + w.length + 2 + t.length ∧ s'.log = s.log ++ e ∧
      ∀ k, Assoc.get? d k = (es.reverse.find? fun p => p.1 = k).map (·.2) := by
  obtain ⟨f, hf⟩ := dictAny_read h []
  have hd : lObj noDec (f + 1) (60 :: 60 :: t ++ r) = .ok ⟨(.dict (dictOf es), .nil), 2 + t.length, e⟩ := by
    rw [List.cons_append, List.cons_append, lObj_dict, lskip_ok (q := ⟨(.dict (dictOf es), .nil), t.length, e⟩)]
    rw [List.drop_succ_cons, List.drop_succ_cons, List.drop_zero, lthen_ok hf (q := ⟨(.dict (dictOf es), .nil), 0, []⟩) rfl]
    simp
  obtain ⟨s', h1, h2, h3⟩ := readObj_of_lObj noDec_ne hin (lObj_blank_ok hw hd)
  refine ⟨_, s', h1, by rw [h2]; simp only; omega, h3, fun k => ?_⟩
  rw [dictOf, Assoc.get?_foldl_set]
  simp

/-- `/A 1 (stray) /A 2>>` -/
example : DictAny [(b!"A", .num (intNum false 1)), (b!"A", .num (intNum false 2))] b!"/A 1 (stray) /A 2>>" []
    [.invalidDictionaryKeyType] := by
  have h1 : ObjAt (.num (intNum false (decVal [1]))) b!"1" (b!" (stray) /A 2>>" ++ []) [] :=
    .int (sg := []) (ds := [1]) .none (by decide) (by decide) (by decide) (by rintro b t ⟨⟩; decide) (by rintro u ⟨⟩)
      (not_refTail_of (by decide))
  have h2 : ObjAt (.num (intNum false (decVal [2]))) b!"2" (b!">>" ++ []) [] :=
    .int (sg := []) (ds := [2]) .none (by decide) (by decide) (by decide) (by rintro b t ⟨⟩; decide) (by rintro u ⟨⟩)
      (not_refTail_of (by decide))
  have h3 : ObjAt (.str b!"stray") b!"(stray)" (b!" /A 2>>" ++ []) [] :=
    .str (t := b!"stray") (.plain (by decide) (by decide) (by decide) <| .plain (by decide) (by decide) (by decide) <|
      .plain (by decide) (by decide) (by decide) <| .plain (by decide) (by decide) (by decide) <| .plain (by decide) (by decide) (by decide) .nil)
  exact .cons (w := []) (kt := b!"A") (w' := b!" ") (t := b!"1") (u := b!" (stray) /A 2>>") (e := []) (e' := []) .nil
    (.plain (by decide) (by decide) .nil) (.ws (by decide) .nil) (by rintro b t ⟨⟩; decide) h1 <|
    .stray (w := b!" ") (t := b!"(stray)") (u := b!" /A 2>>") (e := []) (e' := []) (.ws (by decide) .nil) h3 (by rintro n ⟨⟩) <|
    .cons (w := b!" ") (kt := b!"A") (w' := b!" ") (t := b!"2") (u := b!">>") (e := []) (e' := []) (.ws (by decide) .nil)
      (.plain (by decide) (by decide) .nil) (.ws (by decide) .nil) (by rintro b t ⟨⟩; decide) h2 (.nil (w := []) .nil)

/-! ### C13 -/

theorem readObj_token {t r w : Bytes} (h : NumToken t r) (hw : Blank w) (file : Bytes) (s : PS) (hin : file.drop s.pos = w ++ (t ++ r)) :
    ∃ s', readObj file noDec s = .ok (((lNumOrRef (t ++ r)).val, .nil), s') ∧ s'.pos = s.pos + w.length + (lNumOrRef (t ++ r)).n ∧
      s'.log = s.log ++ (lNumOrRef (t ++ r)).errs := by
  obtain ⟨b, u, rfl, hb, -⟩ := numToken_numGo h
  have := lObj_num hb noDec 0 (u ++ r)
  obtain ⟨s', h1, h2, h3⟩ := readObj_of_lObj noDec_ne hin (lObj_blank_ok hw this)
  exact ⟨s', h1, by rw [h2]; simp only [List.cons_append]; omega, h3⟩

/-- **C13** A number token that no integer and `R` follow is returned as a number, and the reader stops
immediately after its text, whatever comes next. -/
theorem C13_number {t r w : Bytes} (h : NumToken t r) (hr : ¬ RefTail r) (hw : Blank w) (file : Bytes) (s : PS)
    (hin : file.drop s.pos = w ++ (t ++ r)) :
    ∃ x s', readObj file noDec s = .ok ((.num x, .nil), s') ∧ s'.pos = s.pos + w.length + t.length ∧ s'.log = s.log := by
  obtain ⟨s', h1, h2, h3⟩ := readObj_token h hw file s hin
  have hn := lNumber_token h
  have hnr := lNumOrRef_num (l := t ++ r) (by rw [hn, List.drop_left]; exact hr)
  rw [hnr] at h1 h2 h3
  exact ⟨_, s', h1, by rw [h2]; simp only; omega, by simpa using h3⟩

/-- **C13** Followed by an unsigned integer and the keyword `R`, it is a reference with that integer as
generation, and the reader stops after the `R`. -/
theorem C13_reference {t r w w1 w2 : Bytes} {gs : List Nat} (h : NumToken t (w1 ++ (gs.map decDigit ++ (w2 ++ 82 :: r)))) (hw : Blank w)
    (hw1 : Blank w1) (hw2 : Blank w2) (hne : gs ≠ []) (hd : ∀ d ∈ gs, d < 10) (hs : Stops r) (file : Bytes) (s : PS)
    (hin : file.drop s.pos = w ++ (t ++ (w1 ++ (gs.map decDigit ++ (w2 ++ 82 :: r))))) :
    ∃ n g s', readObj file noDec s = .ok ((.ref n g, .nil), s') ∧ IsInt64Of (decVal gs) g ∧
      s'.pos = s.pos + w.length + t.length + w1.length + gs.length + w2.length + 1 ∧ s'.log = s.log := by
  obtain ⟨s', h1, h2, h3⟩ := readObj_token h hw file s hin
  have hn := lNumber_token h
  obtain ⟨g, hg, hnr⟩ := lNumOrRef_ref (l := t ++ (w1 ++ (gs.map decDigit ++ (w2 ++ 82 :: r)))) (by rw [hn, List.drop_left]) hw1 hw2 hne hd hs
  rw [hnr] at h1 h2 h3
  exact ⟨_, g, s', h1, hg, by rw [h2]; simp only; omega, by simpa using h3⟩

/-- **C13** The two cases are all there is: what starts with a digit, sign or point is a number token
and something that does not continue it. -/
theorem C13_token (b : UInt8) (u : Bytes) (h : (48 ≤ b.toNat ∧ b.toNat ≤ 57) ∨ b = 43 ∨ b = 45 ∨ b = 46) :
    ∃ t r, b :: u = t ++ r ∧ NumToken t r := by
  apply numToken_total
  rw [← isDigit_iff] at h
  simp only [Bool.or_eq_true, beq_iff_eq]
  rcases h with h | h | h | h <;> simp [h]

/-- `-12.5` before ` 0 obj` is a number; `12` before ` 0 R]` is a reference. -/
example : NumToken b!"-12.5" b!" 0 obj" ∧ ¬ RefTail b!" 0 obj" ∧ NumToken b!"12" (b!" " ++ ([0].map decDigit ++ (b!" " ++ 82 :: b!"]"))) :=
  ⟨.real (sg := b!"-") (ds := [1, 2]) (fs := [5]) .minus (by decide) (by decide) (by rintro b t ⟨⟩; decide),
    by rw [refTail_iff]
       rintro ⟨g, m, h1, h2⟩
       have : lInt b!" 0 obj" = some (0, 2) := by decide
       rw [this] at h1
       injection h1 with h1
       injection h1 with h1 h3
       subst h3
       revert h2; decide,
    .int (sg := []) (ds := [1, 2]) .none (by decide) (by decide) (by rintro b t ⟨⟩; decide) (by rintro u ⟨⟩)⟩

end Pdf.Props
