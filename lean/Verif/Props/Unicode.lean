import Mathlib.Data.List.Chain
import Verif.Spec.Unicode
import Verif.Props.Font
import Verif.Props.Page
import Verif.Props.Lexer
import Verif.Props.Urls
/-!
C95, C96, C97: characters and line breaks.
-/

namespace Pdf.Props
open Pdf Spec

/-! ### C96 -/

/-- What is read differs from what is meant by the line breaks written with CR. -/
theorem stringText_read {n : Nat} {v t : Bytes} (h : StringText n v t) :
    ∃ (w : Bytes) (e : List Err), StrText w t e ∧ w.count 13 = v.count 13 + n ∧ (n = 0 → w = v) := by
  have put : ∀ {b : UInt8} {n : Nat} {v w : Bytes}, w.count 13 = v.count 13 + n ∧ (n = 0 → w = v) → (b :: w).count 13 = (b :: v).count 13 + n ∧ (n = 0 → b :: w = b :: v) := by
    intro b n v w ⟨h1, h2⟩
    refine ⟨?_, fun h => by rw [h2 h]⟩
    rw [List.count_cons, List.count_cons, h1]
    omega
  induction h with
  | nil => exact ⟨_, _, .nil, rfl, fun _ => rfl⟩
  | plain h1 h2 h3 h4 _ ih =>
    obtain ⟨w, e, g, g'⟩ := ih
    exact ⟨_, _, .plain h1 h2 h3 g, put g'⟩
  | breakCr h1 _ ih =>
    obtain ⟨w, e, g, g1, g2⟩ := ih
    refine ⟨_, _, .plain (b := 13) (by decide) (by decide) (by decide) g, ?_, by omega⟩
    rw [List.count_cons_self, List.count_cons_of_ne (by decide), g1]
    omega
  | breakCrLf _ ih =>
    obtain ⟨w, e, g, g1, g2⟩ := ih
    refine ⟨_, _, .plain (b := 13) (by decide) (by decide) (by decide) (.plain (b := 10) (by decide) (by decide) (by decide) g), ?_, by omega⟩
    rw [List.count_cons_self, List.count_cons_of_ne (by decide), List.count_cons_of_ne (by decide), g1]
    omega
  | parens _ _ ih ih' =>
    obtain ⟨w, e, g, g1, g2⟩ := ih
    obtain ⟨w', e', k, k1, k2⟩ := ih'
    refine ⟨_, _, .parens g k, ?_, fun h => by rw [g2 (by omega), k2 (by omega)]⟩
    simp only [List.cons_append, List.count_append, List.count_cons_of_ne (show (40 : UInt8) ≠ 13 by decide), List.count_cons_of_ne (show (41 : UInt8) ≠ 13 by decide), g1, k1]
    omega
  | letter h1 _ ih =>
    obtain ⟨w, e, g, g'⟩ := ih
    exact ⟨_, _, .letter h1 g, put g'⟩
  | self h1 h2 h3 h4 _ ih =>
    obtain ⟨w, e, g, g'⟩ := ih
    exact ⟨_, _, .self h1 h2 h3 h4 g, put g'⟩
  | oct3 h1 h2 h3 _ ih =>
    obtain ⟨w, e, g, g'⟩ := ih
    exact ⟨_, _, .oct3 h1 h2 h3 g, put g'⟩
  | oct2 h1 h2 h3 _ ih =>
    obtain ⟨w, e, g, g'⟩ := ih
    exact ⟨_, _, .oct2 h1 h2 h3 g, put g'⟩
  | oct1 h1 h2 _ ih =>
    obtain ⟨w, e, g, g'⟩ := ih
    exact ⟨_, _, .oct1 h1 h2 g, put g'⟩
  | lf _ ih =>
    obtain ⟨w, e, g, g'⟩ := ih
    exact ⟨_, _, .lf g, g'⟩
  | crlf _ ih =>
    obtain ⟨w, e, g, g'⟩ := ih
    exact ⟨_, _, .crlf g, g'⟩
  | cr h1 _ ih =>
    obtain ⟨w, e, g, g'⟩ := ih
    exact ⟨_, _, .cr h1 g, g'⟩

/-- **C96, partial** A literal string is read to its end, and as the standard means it exactly when none of its line breaks is written
with CR or CR LF, apart from those after a backslash. Missing: strings with the others, which are read wrongly (`C96_false`). -/
theorem C96_partial {n : Nat} {v t w r : Bytes} (h : StringText n v t) (hw : Blank w) (file : Bytes) (s : PS) (hin : file.drop s.pos = w ++ 40 :: (t ++ 41 :: r)) :
    ∃ v' s', readString file noDec s = .ok (v', s') ∧ s'.pos = s.pos + w.length + t.length + 2 ∧ (v' = v ↔ n = 0) := by
  obtain ⟨v', e, h1, h2, h3⟩ := stringText_read h
  obtain ⟨s', g1, g2, -⟩ := C02_string_read h1 hw file s hin
  refine ⟨v', s', g1, g2, fun hv => ?_, h3⟩
  rw [hv] at h2
  omega

/-- `a` and `b` on two lines, written with CR LF. -/
theorem crlf_text : StringText 1 b!"a\nb" b!"a\r\nb" :=
  .plain (by decide) (by decide) (by decide) (by decide) (.breakCrLf (.plain (by decide) (by decide) (by decide) (by decide) .nil))

example : StringText 0 b!"a\nb\r" b!"a\n\\\r\nb\\r" :=
  .plain (by decide) (by decide) (by decide) (by decide) (.plain (by decide) (by decide) (by decide) (by decide)
    (.crlf (.plain (by decide) (by decide) (by decide) (by decide) (.letter (by simp [Letter]) .nil))))

/-- **C96 fails** for line breaks written with CR LF. -/
theorem C96_false : ¬ ∀ (n : Nat) (v t w r : Bytes), StringText n v t → Blank w → ∀ (file : Bytes) (s : PS), file.drop s.pos = w ++ 40 :: (t ++ 41 :: r) →
    ∃ s', readString file noDec s = .ok (v, s') := by
  intro h
  obtain ⟨s', h1⟩ := h _ _ _ [] [] crlf_text .nil b!"(a\r\nb)" PS.init rfl
  obtain ⟨v', s'', h2, -, h3⟩ := C96_partial crlf_text (w := []) (r := []) .nil b!"(a\r\nb)" PS.init rfl
  rw [h1] at h2
  cases h2
  exact absurd (h3.1 rfl) (by decide)

/-! ### C95 -/

/-- Characters up to U+07FF other than U+0000 begin differently in UTF-16 and in UTF-8. -/
theorem utf16_ne_utf8 {c : Char} (h0 : c.toNat ≠ 0) (h : c.toNat < 2048) (cs ds : List Char) : utf16 (c :: cs) ≠ utf8 (c :: ds) := by
  intro he
  have e1 : (utf16 (c :: cs)).head? = some (UInt8.ofNat (c.toNat / 256)) := by
    rw [utf16, List.flatMap_cons, utf16Char, if_pos (by omega), twoBytes]
    rfl
  have e2 : (utf8 (c :: ds)).head? = if c.toNat ≤ 127 then some (UInt8.ofNat c.toNat) else some (UInt8.ofNat (c.toNat / 64 % 32 + 192)) := by
    have hv : c.val.toNat = c.toNat := rfl
    rw [utf8, List.flatMap_cons, String.utf8EncodeChar]
    simp only [hv]
    by_cases h1 : c.toNat ≤ 127
    · rw [if_pos h1, if_pos h1]; rfl
    · rw [if_neg h1, if_neg h1, if_pos (by omega)]; rfl
  rw [he, e2] at e1
  have key : ∀ {a b : Nat}, UInt8.ofNat a = UInt8.ofNat b → a < 256 → b < 256 → a = b := by
    intro a b hab ha hb
    have := congrArg UInt8.toNat hab
    rw [UInt8.toNat_ofNat_of_lt' ha, UInt8.toNat_ofNat_of_lt' hb] at this
    exact this
  split at e1
  · have := key (Option.some.inj e1) (by omega) (by omega)
    omega
  · have := key (Option.some.inj e1) (by omega) (by omega)
    omega

/-- Codes that a character map gives characters, each code being the first of its range. -/
def Characters (is : List MapItem) (chars : Bytes → List Char) (codes : List Bytes) : Prop :=
  ∀ c ∈ codes, lastRange (is.flatMap MapItem.entries) (beVal c) = some (0, utf16 (chars c))

/-- **C95, partial** Text shown in a font whose ToUnicode map gives characters for its codes is written in UTF-16BE, the encoding of the
values in the map; when it begins with a character from U+0001 to U+07FF, this is not UTF-8. Missing: UTF-8 (`C95_false`), and codes that are not
the first of their range, as for `C44_first_partial`. -/
theorem C95_partial {is : List MapItem} {t : Bytes} (h : MapText is t) {font : Font} (hf : newFont t = .ok font) {codes : List Bytes} {chars : Bytes → List Char}
    (hc : ∀ c ∈ codes, c.length = font.width) (h7 : font.width ≤ 7) (hx : Characters is chars codes) :
    font.decode codes.flatten = .ok (utf16 (codes.flatMap chars)) ∧
    ∀ c cs, codes.flatMap chars = c :: cs → c.toNat ≠ 0 → c.toNat < 2048 → font.decode codes.flatten ≠ .ok (utf8 (codes.flatMap chars)) := by
  have h1 : font.decode codes.flatten = .ok (utf16 (codes.flatMap chars)) := by
    rw [C44_text h hf hc h7]
    congr 1
    clear hc
    induction codes with
    | nil => rfl
    | cons c cs ih =>
      have e := ih fun x hx' => hx x (List.mem_cons_of_mem _ hx')
      rw [decodeCodes] at e ⊢
      rw [List.flatMap_cons, e, hx c (List.mem_cons_self ..), List.flatMap_cons]
      show utf16 (chars c) ++ utf16 (cs.flatMap chars) = utf16 (chars c ++ cs.flatMap chars)
      simp only [utf16, List.flatMap_append]
  refine ⟨h1, fun c cs hcs h0 h2 he => ?_⟩
  rw [h1, hcs] at he
  exact utf16_ne_utf8 h0 h2 cs cs (Res.ok.inj he)

/-- A map for the character A. -/
def wideMap : Bytes := b!"1 beginbfchar <01> <0041> endbfchar"

theorem wideMap_text : MapText [.chars [([1], [0, 65])], .other ⟨b!"endbfchar", []⟩] wideMap := by
  have hone : CmdAt ⟨b!"beginbfchar", [] ++ [.num (intNum false 1)]⟩ b!"1 beginbfchar" (b!" <01> <0041>" ++ b!" endbfchar") :=
    .arg (w := []) (t := [49]) (u := b!" beginbfchar") (e := []) .nil
      (.int (sg := []) (ds := [1]) .none (by decide) (by decide) (by decide) (by rintro b t ⟨⟩; decide) (by rintro u ⟨⟩) (not_refTail_of (by decide)))
      (by rintro k ⟨⟩)
      (.op (w := [32]) (.ws (by decide) .nil) (.kw (b := 98) (k := b!"eginbfchar") (by decide) (by decide) (by decide) (by decide) (by decide) (by decide) (by rintro b t ⟨⟩; decide)))
  have hend : CmdAt ⟨b!"endbfchar", []⟩ b!" endbfchar" [] :=
    .op (w := [32]) (.ws (by decide) .nil) (.kw (b := 101) (k := b!"ndbfchar") (by decide) (by decide) (by decide) (by decide) (by decide) (by decide) (by rintro b t ⟨⟩))
  have h1 : HexAt [1] b!" <01>" := .mk (w := [32]) (ds := [0, 1]) (t := b!"01") (.ws (by decide) .nil)
    (.digit (n := 0) (c := hexLower 0) ⟨by omega, .inl rfl⟩ (.digit (n := 1) (c := hexLower 1) ⟨by omega, .inl rfl⟩ .nil)) (by simp)
  have h2 : HexAt [0, 65] b!" <0041>" := .mk (w := [32]) (ds := [0, 0, 4, 1]) (t := b!"0041") (.ws (by decide) .nil)
    (.digit (n := 0) (c := hexLower 0) ⟨by omega, .inl rfl⟩ (.digit (n := 0) (c := hexLower 0) ⟨by omega, .inl rfl⟩
      (.digit (n := 4) (c := hexLower 4) ⟨by omega, .inl rfl⟩ (.digit (n := 1) (c := hexLower 1) ⟨by omega, .inl rfl⟩ .nil)))) (by simp)
  exact .chars (l := [([1], [0, 65])]) (t := b!" <01> <0041>") (u := b!" endbfchar") hone (.cons (.mk h1 (by decide)) h2 .nil) (by decide)
    (.other (u := []) hend (by decide) (by decide) (.nil ⟨[], [], rfl, .nil, .inl rfl⟩))

theorem wideMap_font : newFont wideMap = .ok ⟨[(1, 1, [0, 65])], 1⟩ := by decide +kernel

example : (Font.mk [(1, 1, [0, 65])] 1).decode [[1], [1]].flatten = .ok (utf16 ['A', 'A']) :=
  (C95_partial wideMap_text wideMap_font (codes := [[1], [1]]) (chars := fun _ => ['A']) (by decide) (by decide) (by unfold Characters; decide)).1

/-- **C95 fails**: A is written as two bytes, so that contents.txt has a zero byte in front of it. -/
theorem C95_false : newFont wideMap = .ok ⟨[(1, 1, utf16 ['A'])], 1⟩ ∧
    pageText [(b!"F", ⟨[(1, 1, utf16 ['A'])], 1⟩)] b!"BT /F 1 Tf <01> Tj ET" = .ok (utf16 ['A'] ++ b!"\n") ∧ utf16 ['A'] = [0, 65] ∧ utf8 ['A'] = b!"A" := by
  decide +kernel

/-! ### C97 -/

/-- ASCII is UTF-8. -/
theorem ascii_utf8 : ∀ {cs : List Char}, (∀ c ∈ cs, c.toNat < 128) → (cs.map fun c => UInt8.ofNat c.toNat) = utf8 cs
  | [], _ => rfl
  | c :: cs, h => by
    have h1 := h c (List.mem_cons_self ..)
    rw [List.map_cons, ascii_utf8 fun x hx => h x (List.mem_cons_of_mem _ hx), utf8, utf8, List.flatMap_cons, String.utf8EncodeChar]
    have hv : c.val.toNat = c.toNat := rfl
    simp only [hv]
    rw [if_pos (by omega)]
    rfl

section
variable {sys : Sys} {ext : Ext} {v : Bool} {P : Bytes} {us : List Update}

/-- **C97, partial** Every script given as a text string of ASCII characters, one byte for each, is in javascript.js in UTF-8, followed by a line break. Missing:
scripts in UTF-16 (`C97_false`), and as for `C89_partial`. -/
theorem C97_partial (hf : sys.input = some (docText P us)) (hc : ∀ h, sys.canCreate h = true)
    (hd : Document ext.toCodecs P us) (hr : RightTables (docText P us) P.length us) (henc : trailerFor us b!"Encrypt" = none) (henc' : ∀ d, FirstDict us.tail d → d.get? b!"Encrypt" = none)
    (hk : KidsEnd us) (hs : StreamsLoad us) (pw : Bytes) :
    ∃ r F, (∀ f fx ft, F ≤ f → F ≤ fx → F ≤ ft → parse sys ext (some v) f fx ft pw = r) ∧ ∀ view, Means us view → ∀ d, DictIn us d → ∀ js cs,
      view.string d b!"JS" = some js → TextString cs js → (∀ rest, js ≠ 254 :: rest) → ∃ a b, r.out.javascript = a ++ (utf8 cs ++ b!"\n" ++ b) := by
  obtain ⟨r, F, h1, h2⟩ := C89_partial (v := v) hf hc hd hr henc henc' hk hs pw
  refine ⟨r, F, h1, fun view hv d hdi js cs hjs ht hw => ?_⟩
  obtain ⟨scripts, k1, k2, -⟩ := h2 view hv
  obtain ⟨x, y, hxy⟩ := List.append_of_mem (k2 d hdi js (.string hjs))
  have he : js = utf8 cs := by
    cases ht with
    | wide => exact absurd rfl (hw _)
    | ascii h => exact ascii_utf8 h
  refine ⟨x.flatMap (· ++ b!"\n"), y.flatMap (· ++ b!"\n"), ?_⟩
  rw [k1, hxy, List.flatMap_append, List.flatMap_cons, he]

end

example (sys : Sys) (ext : Ext) (hf : sys.input = some (fileText 1 linkEdits)) (hc : ∀ h, sys.canCreate h = true) (pw : Bytes) :
    ∃ r F, (∀ f fx ft, F ≤ f → F ≤ fx → F ≤ ft → parse sys ext (some true) f fx ft pw = r) ∧ ∃ a b, r.out.javascript = a ++ (utf8 ['f', ';'] ++ b!"\n" ++ b) := by
  obtain ⟨h1, h2, h3, h4, h5, h6, h7, h8⟩ := document_of_check linkEdits_check ext.toCodecs
  obtain ⟨r, F, g1, g2⟩ := C97_partial (v := true) (by rw [docText_updates]; exact hf) hc h1 h2 h3 h4 h5 h6 pw
  refine ⟨r, F, g1, g2 _ h7 [(b!"S", .name b!"JavaScript"), (b!"JS", .str b!"f;")] ⟨1, _, by rw [h8]; rfl, ?_⟩ b!"f;" ['f', ';'] rfl (.ascii (by decide)) (by rintro rest ⟨⟩)⟩
  show _ ∈ dictsIn _
  simp [dictsIn, dictsInValues]

/-- A document with a script in UTF-16. -/
def wideEdits : List Edit := [⟨[⟨1, 0, .dict [(b!"S", .name b!"JavaScript"), (b!"JS", .str (254 :: 255 :: utf16 ['f', ';']))], none⟩], [0]⟩]

theorem wideEdits_check : documentB wideEdits = true := by decide +kernel

/-- The bytes of the script do not follow one another in lines that have it in UTF-16. -/
theorem no_script {scripts : List Bytes} (h : ∀ js ∈ scripts, js = [] ∨ js = 254 :: 255 :: utf16 ['f', ';']) (a b : Bytes) :
    scripts.flatMap (· ++ b!"\n") ≠ a ++ 102 :: 59 :: b := by
  have key : ∀ l : List Bytes, (∀ js ∈ l, js = [] ∨ js = 254 :: 255 :: utf16 ['f', ';']) → (l.flatMap (· ++ b!"\n")).IsChain fun x y => ¬ (x = 102 ∧ y = 59) := by
    intro l
    induction l with
    | nil => intro _; exact .nil
    | cons js l ih =>
      intro hl
      rw [List.flatMap_cons, List.isChain_append]
      refine ⟨?_, ih fun x hx => hl x (List.mem_cons_of_mem _ hx), fun x hx y _ => ?_⟩
      · rcases hl js (List.mem_cons_self ..) with rfl | rfl
        · decide
        · decide +kernel
      · have hx : x ∈ (js ++ [10]).getLast? := hx
        rw [List.getLast?_concat] at hx
        cases hx
        rintro ⟨h, -⟩
        exact absurd h (by decide)
  intro he
  have h1 := key scripts h
  rw [he, List.isChain_append] at h1
  have h2 := h1.2.1
  rw [List.isChain_cons_cons] at h2
  exact h2.1 ⟨rfl, rfl⟩

/-- **C97 fails** for scripts in UTF-16: they are copied with the byte order mark. -/
theorem C97_false {sys : Sys} (ext : Ext) (hf : sys.input = some (fileText 1 wideEdits)) (hc : ∀ h, sys.canCreate h = true) (pw : Bytes) :
    ∃ us, docText docHead us = fileText 1 wideEdits ∧ Document ext.toCodecs docHead us ∧ RightTables (docText docHead us) docHead.length us ∧
      (∃ view d js, Means us view ∧ DictIn us d ∧ view.string d b!"JS" = some js ∧ TextString ['f', ';'] js) ∧
      ∃ r F, (∀ f fx ft, F ≤ f → F ≤ fx → F ≤ ft → parse sys ext (some true) f fx ft pw = r) ∧ ¬ ∃ a b, r.out.javascript = a ++ (utf8 ['f', ';'] ++ b) := by
  obtain ⟨h1, h2, h3, h4, h5, h6, h7, h8⟩ := document_of_check wideEdits_check ext.toCodecs
  obtain ⟨r, F, g1, g2⟩ := C89_partial (v := true) (by rw [docText_updates]; exact hf) hc h1 h2 h3 h4 h5 h6 pw
  refine ⟨_, docText_updates 1 wideEdits, h1, h2, ⟨viewOf wideEdits, _, _, h7, ⟨1, _, by rw [h8]; rfl, List.mem_cons_self ..⟩, rfl, .wide⟩, r, F, g1, ?_⟩
  obtain ⟨scripts, k1, -, k2⟩ := g2 _ h7
  have hs : ∀ js ∈ scripts, js = [] ∨ js = 254 :: 255 :: utf16 ['f', ';'] := by
    intro js hjs
    refine (k2 js hjs).imp id ?_
    rintro ⟨d, ⟨n, p, hp, hd⟩, hj⟩
    rw [h8] at hp
    obtain ⟨o, ho, rfl⟩ := Option.map_eq_some_iff.1 hp
    obtain ⟨e, he, hoe⟩ := after_mem ho
    simp only [wideEdits, List.mem_singleton] at he
    subst he
    simp only [List.mem_cons, List.not_mem_nil, or_false] at hoe
    subst hoe
    have : d = [(b!"S", .name b!"JavaScript"), (b!"JS", .str (254 :: 255 :: utf16 ['f', ';']))] := by
      simpa [dictsOf, pieceOf, reread, dictsIn, dictsInValues] using hd
    subst this
    cases hj with
    | string h => cases h; rfl
    | stream h _ _ => cases h
  rintro ⟨a, b, hab⟩
  exact no_script hs a b (by rw [← k1, hab]; rfl)

end Pdf.Props
