import Verif.Lemmas.Num
/-!
C02-C06: strings, names and numbers. `file.drop s.pos = l` says that the unread input is `l`.
-/

namespace Pdf.Props
open Pdf Spec

/-! ### C02 -/

/-- **C02** Any spelling `t` of the bytes `v` as a literal string (plain bytes, balanced parentheses,
letter, octal and line-break escapes), in any file and after any white space and comments, is read as
exactly `v`; the reader stops just after the closing parenthesis; only unnecessary octal escapes are
logged. -/
theorem C02_string_read {v t w r : Bytes} {e : List Err} (h : StrText v t e) (hw : Blank w) (file : Bytes) (s : PS)
    (hin : file.drop s.pos = w ++ 40 :: (t ++ 41 :: r)) :
    ∃ s', readString file noDec s = .ok (v, s') ∧ s'.pos = s.pos + w.length + t.length + 2 ∧ s'.log = s.log ++ e := by
  have hd := readStringRaw_spec file s
  have hl : lStr (rest file s) = ⟨v, w.length + t.length + 2, e⟩ := by
    rw [show rest file s = w ++ 40 :: (t ++ 41 :: r) from hin]
    have hz : skipWs false (40 :: (t ++ 41 :: r)) = 0 := skipWs_cons (by decide) (by decide)
    simp only [lStr]
    rw [drop_blank hw, skipWs_blank hw, hz]
    simp only [List.drop_zero]
    rw [if_neg (by decide), strGo_closed h]
    simp [LR.pre]; omega
  rw [hl] at hd
  have hv := hd.val
  have hp := hd.step.pos
  have hlog := hd.step.log
  simp only [List.nil_append] at hv
  refine ⟨(readStringRaw file s).2, ?_, by rw [hp]; simp only; omega, hlog⟩
  simp only [readString, noDec, Res.bind_ok, hv]

/-- **C02** In particular every byte string survives the usual escaping, and nothing is logged. -/
theorem C02_string_roundtrip (v w r : Bytes) (hw : Blank w) (file : Bytes) (s : PS)
    (hin : file.drop s.pos = w ++ 40 :: (escapeStr v ++ 41 :: r)) :
    ∃ s', readString file noDec s = .ok (v, s') ∧
      s'.pos = s.pos + w.length + (escapeStr v).length + 2 ∧ s'.log = s.log := by
  obtain ⟨s', h1, h2, h3⟩ := C02_string_read (escapeStr_text v) hw file s hin
  exact ⟨s', h1, h2, by simpa using h3⟩

/-- `a(b\)\053\` + line break + `c)` spells `a(b)+c)`; the octal escape of `+` was not needed. -/
example : StrText b!"a(b)+c)" (b!"a(b)\\053\\\nc\\)") [.unnecessaryEscapeString] :=
  .plain (by decide) (by decide) (by decide) <|
    .parens (v := b!"b") (t := b!"b") (.plain (by decide) (by decide) (by decide) .nil) <|
    .oct3 (x := 0) (y := 5) (z := 3) (by decide) (by decide) (by decide) <|
    .lf <| .plain (by decide) (by decide) (by decide) <|
    .self (by simp [Letter]) (by decide) (by decide) (by decide) .nil

/-! ### C03 -/

/-- **C03** With a closing `>`: the digits count in pairs, everything else is ignored, and each byte
that does not belong there is logged. -/
theorem C03_hex_closed {ds : List Nat} {t w r : Bytes} {k : Nat} (h : HexBody ds t k) (hw : Blank w) (file : Bytes) (s : PS)
    (hin : file.drop s.pos = w ++ 60 :: (t ++ 62 :: r)) :
    ∃ s', readHexString file noDec s = .ok (hexPairs ds, s') ∧ s'.pos = s.pos + w.length + t.length + 2 ∧
      s'.log = s.log ++ List.replicate k .invalidHexStringChar := by
  have hd := readHexRaw_spec file s
  have hl : lHex (rest file s) = ⟨hexPairs ds, w.length + t.length + 2, List.replicate k .invalidHexStringChar⟩ := by
    rw [show rest file s = w ++ 60 :: (t ++ 62 :: r) from hin]
    have hz : skipWs false (60 :: (t ++ 62 :: r)) = 0 := skipWs_cons (by decide) (by decide)
    simp only [lHex]
    rw [drop_blank hw, skipWs_blank hw, hz]
    simp only [List.drop_zero]
    rw [if_neg (by decide), hexGo_closed h]
    simp [LR.pre]; omega
  rw [hl] at hd
  have hv := hd.val
  have hp := hd.step.pos
  simp only [List.nil_append] at hv
  refine ⟨(readHexRaw file s).2, ?_, by rw [hp]; simp only; omega, hd.step.log⟩
  simp only [readHexString, noDec, Res.bind_ok, hv]

/-- **C03** Without a closing `>` everything up to the end of the file counts and the missing marker
is logged. -/
theorem C03_hex_unclosed {ds : List Nat} {t u w : Bytes} {k : Nat} (h : HexBody ds t k) (hu : OpenComment u) (hw : Blank w)
    (file : Bytes) (s : PS) (hin : file.drop s.pos = w ++ 60 :: (t ++ u)) :
    ∃ s', readHexString file noDec s = .ok (hexPairs ds, s') ∧
      s'.pos = s.pos + (file.drop s.pos).length ∧
      s'.log = s.log ++ List.replicate k .invalidHexStringChar ++ [.unclosedHexString] := by
  have hd := readHexRaw_spec file s
  have hl : lHex (rest file s) = ⟨hexPairs ds, (w ++ 60 :: (t ++ u)).length,
      List.replicate k .invalidHexStringChar ++ [.unclosedHexString]⟩ := by
    rw [show rest file s = w ++ 60 :: (t ++ u) from hin]
    have hz : skipWs false (60 :: (t ++ u)) = 0 := skipWs_cons (by decide) (by decide)
    simp only [lHex]
    rw [drop_blank hw, skipWs_blank hw, hz]
    simp only [List.drop_zero]
    rw [if_neg (by decide), hexGo_unclosed h hu]
    simp [LR.pre]; omega
  rw [hl] at hd
  have hv := hd.val
  have hp := hd.step.pos
  simp only [List.nil_append] at hv
  refine ⟨(readHexRaw file s).2, ?_, by rw [hp, hin], by rw [hd.step.log]; simp⟩
  simp only [readHexString, noDec, Res.bind_ok, hv]

/-- **C03** The two cases are all there is: after `<`, every input is a body and `>`, or a body cut
off by the end of the file (possibly inside a comment). -/
theorem C03_hex_cases (l : Bytes) : ∃ ds t k, HexBody ds t k ∧
    ((∃ r, l = t ++ 62 :: r) ∨ ∃ u, OpenComment u ∧ l = t ++ u) :=
  hexBody_total l.length l (Nat.le_refl _)

/-- Two hex digits for every byte, the letter case chosen by `up` for each digit. -/
def hexOf (up : Nat → Bool) : Nat → Bytes → Bytes
  | _, [] => []
  | i, b :: t => (if up i then hexUpper (b.toNat / 16) else hexLower (b.toNat / 16)) ::
      (if up (i + 1) then hexUpper (b.toNat % 16) else hexLower (b.toNat % 16)) :: hexOf up (i + 2) t

/-- **C03** In particular the hex encoding of every byte string is read back. -/
theorem C03_hex_roundtrip (v w r : Bytes) (up : Nat → Bool) (hw : Blank w) (file : Bytes) (s : PS)
    (hin : file.drop s.pos = w ++ 60 :: (hexOf up 0 v ++ 62 :: r)) :
    ∃ s', readHexString file noDec s = .ok (v, s') ∧ s'.log = s.log ∧
      s'.pos = s.pos + w.length + 2 * v.length + 2 := by
  have key : ∀ (v : Bytes) (i : Nat), ∃ ds, HexBody ds (hexOf up i v) 0 ∧ hexPairs ds = v ∧ (hexOf up i v).length = 2 * v.length := by
    intro v
    induction v with
    | nil => intro i; exact ⟨[], .nil, rfl, rfl⟩
    | cons b v ih =>
      intro i
      obtain ⟨ds, h1, h2, h3⟩ := ih (i + 2)
      have hb := b.toNat_lt
      have hd1 : IsHexDigit (b.toNat / 16) (if up i then hexUpper (b.toNat / 16) else hexLower (b.toNat / 16)) :=
        ⟨by omega, by split <;> simp⟩
      have hd2 : IsHexDigit (b.toNat % 16) (if up (i + 1) then hexUpper (b.toNat % 16) else hexLower (b.toNat % 16)) :=
        ⟨by omega, by split <;> simp⟩
      refine ⟨b.toNat / 16 :: b.toNat % 16 :: ds, .digit hd1 (.digit hd2 h1), ?_, ?_⟩
      · rw [hexPairs, h2, Nat.div_add_mod]; simp
      · simp [hexOf, h3]; omega
  obtain ⟨ds, h1, h2, h3⟩ := key v 0
  obtain ⟨s', e1, e2, e3⟩ := C03_hex_closed h1 hw file s hin
  exact ⟨s', by rw [e1, h2], by simpa using e3, by rw [e2, h3]⟩

/-- `4 %x⏎ G8 5` holds the digits 4, 8, 5 and one byte that does not belong: it reads `48 50`. -/
example : HexBody [4, 8, 5] b!"4 %x\n G8 5" 1 ∧ hexPairs [4, 8, 5] = [0x48, 0x50] :=
  ⟨.digit ⟨by decide, .inl rfl⟩ <| .ws (by decide) <| .comment (c := b!"x") (by decide) (.inl rfl) <| .ws (by decide) <|
    .junk (by
      rintro ⟨n, hn, h⟩
      have : ∀ n : Fin 16, ¬ ((71 : UInt8) = hexLower n ∨ (71 : UInt8) = hexUpper n) := by decide
      exact this ⟨n, hn⟩ h) (by decide) (by decide) (by decide) <|
    .digit ⟨by decide, .inl rfl⟩ <| .ws (by decide) <| .digit ⟨by decide, .inl rfl⟩ .nil, rfl⟩

/-! ### C04 -/

/-- **C04** Any spelling of a name, followed by a delimiter, white space or the end of the file, is
read as exactly that name, and the reader stops before what follows. -/
theorem C04_name_read {v t w r : Bytes} {e : List Err} (h : NameText v t e) (hr : Stops r) (hw : Blank w) (file : Bytes) (s : PS)
    (hin : file.drop s.pos = w ++ 47 :: (t ++ r)) :
    (readName file s).1 = v ∧ (readName file s).2.pos = s.pos + w.length + 1 + t.length ∧
      (readName file s).2.log = s.log ++ e := by
  have hd := readName_spec file s
  have hl : lName (rest file s) = ⟨v, w.length + 1 + t.length, e⟩ := by
    rw [show rest file s = w ++ 47 :: (t ++ r) from hin]
    have hz : skipWs false (47 :: (t ++ r)) = 0 := skipWs_cons (by decide) (by decide)
    simp only [lName]
    rw [drop_blank hw, skipWs_blank hw, hz]
    simp only [List.drop_zero]
    rw [if_neg (by decide), nameGo_text h r hr]
    simp [LR.pre]
  rw [hl] at hd
  exact ⟨by simpa using hd.val, by rw [hd.step.pos]; simp only; omega, hd.step.log⟩

/-- **C04** In particular every byte string survives being written as a name, and nothing is logged. -/
theorem C04_name_roundtrip (v w r : Bytes) (hr : Stops r) (hw : Blank w) (file : Bytes) (s : PS)
    (hin : file.drop s.pos = w ++ 47 :: (escapeName v ++ r)) :
    (readName file s).1 = v ∧ (readName file s).2.pos = s.pos + w.length + 1 + (escapeName v).length ∧
      (readName file s).2.log = s.log := by
  have key : ∀ v, NameText v (escapeName v) [] := by
    intro v
    induction v with
    | nil => exact .nil
    | cons b v ih =>
      simp only [escapeName, List.flatMap_cons]
      by_cases h : Spec.IsRegular b ∧ b ≠ 35 ∧ 33 ≤ b.toNat ∧ b.toNat ≤ 126
      · rw [if_pos h]
        exact .plain h.1 h.2.1 ih
      · rw [if_neg h]
        have hb := b.toNat_lt
        have hn : nameNote b = [] := by
          rw [nameNote]
          refine if_neg ?_
          rintro ⟨h1, h2, h3, h4⟩
          refine h ⟨⟨?_, h4⟩, h3, h1, h2⟩
          intro hw
          rcases hw with rfl | rfl | rfl | rfl | rfl | rfl <;> revert h1 <;> decide
        have hval : UInt8.ofNat (16 * (b.toNat / 16) + b.toNat % 16) = b := by rw [Nat.div_add_mod]; simp
        have := NameText.esc (h := b.toNat / 16) (l := b.toNat % 16) (c1 := hexLower (b.toNat / 16)) (c2 := hexLower (b.toNat % 16))
          ⟨by omega, .inl rfl⟩ ⟨by omega, .inl rfl⟩ ih
        rw [hval, hn] at this
        exact this
  have := C04_name_read (key v) hr hw file s hin
  simpa using this

/-- `/A#20B` is the name `A B`, nothing unusual; it ends before `/`. -/
example : NameText b!"A B" b!"A#20B" [] ∧ Stops b!"/C" :=
  ⟨.plain (by decide) (by decide) <| .esc (h := 2) (l := 0) (c1 := 50) (c2 := 48) ⟨by decide, .inl rfl⟩ ⟨by decide, .inl rfl⟩ <|
    .plain (by decide) (by decide) .nil, by rintro b t ⟨⟩; decide⟩

/-! ### C05 -/

/-- **C05** A decimal integer of magnitude below 2^53, with or without sign, is read exactly. -/
theorem C05_number_exact {w sg r : Bytes} {ds : List Nat} {neg : Bool} (hw : Blank w) (hs : Sign neg sg)
    (hd : ∀ d ∈ ds, d < 10) (hne : ds ≠ []) (hr : NoDigit r) (hp : ∀ u, r ≠ 46 :: u) (hv : decVal ds < 2 ^ 53)
    (file : Bytes) (s : PS) (hin : file.drop s.pos = w ++ (sg ++ (ds.map decDigit ++ r))) :
    (readNumber file s).1.toInt = (if neg then -(decVal ds : Int) else decVal ds) ∧
      ((readNumber file s).1 = .fin (if neg then -(decVal ds : Rat) else (decVal ds : Rat)) ∨
        neg = true ∧ decVal ds = 0 ∧ (readNumber file s).1 = .negZero) ∧
      (readNumber file s).2.pos = s.pos + w.length + sg.length + ds.length ∧ (readNumber file s).2.log = s.log := by
  obtain ⟨h1, h2⟩ := readNumber_spec file s
  rw [show rest file s = w ++ (sg ++ (ds.map decDigit ++ r)) from hin, lNumber_int hw hs hd hne hr hp hv] at h1 h2
  rw [h1]
  refine ⟨signed_toInt neg hv, ?_, by rw [h2.pos]; omega, by simpa using h2.log⟩
  cases neg
  · left; simp [signed]
  · simp only [signed, if_true, F64.neg]
    by_cases h0 : decVal ds = 0
    · right; simp [h0]
    · left
      rw [if_neg]
      exact_mod_cast h0

/-- **C05** `ReadInt` returns the value of the digit run modulo 2^64, as a signed 64-bit integer. -/
theorem C05_int_modulo {w r : Bytes} {ds : List Nat} (hw : Blank w) (hd : ∀ d ∈ ds, d < 10) (hne : ds ≠ []) (hr : NoDigit r)
    (file : Bytes) (s : PS) (hin : file.drop s.pos = w ++ (ds.map decDigit ++ r)) :
    ∃ y s', readInt file s = ((y, true), s') ∧ IsInt64Of (decVal ds) y ∧
      s'.pos = s.pos + w.length + ds.length ∧ s'.log = s.log := by
  obtain ⟨y, h1, h2⟩ := lInt_digits hw ds hd hne r hr
  obtain ⟨s', h3, h4⟩ := readInt_some (file := file) (s := s) (v := y) (n := w.length + ds.length)
    (by rw [show rest file s = _ from hin]; exact h2)
  exact ⟨y, s', h3, h1, by rw [h4.pos]; omega, by simpa using h4.log⟩

/-- **C05** and fails when no digit follows the white space. -/
theorem C05_int_fails {w r : Bytes} (hw : Blank w) (hr : ∀ b t, r = b :: t → ¬ IsWhite b ∧ b ≠ 37) (hnd : NoDigit r)
    (file : Bytes) (s : PS) (hin : file.drop s.pos = w ++ r) : ∃ s', readInt file s = ((0, false), s') ∧ s'.log = s.log := by
  have : lInt (rest file s) = none := by
    rw [show rest file s = w ++ r from hin, lInt, drop_blank hw]
    cases r with
    | nil => rfl
    | cons b t =>
      obtain ⟨h1, h2⟩ := hr b t rfl
      have h3 := hnd b t rfl
      rw [← isDigit_iff] at h3
      rw [skipWs_zero h1 h2]
      simp [h3]
  obtain ⟨s', h1, h2, -⟩ := readInt_none this
  exact ⟨s', h1, h2⟩

example : decVal [1, 2, 3] = 123 ∧ [1, 2, 3].map decDigit = b!"123" ∧ NoDigit b!" 4" ∧ Sign true b!"-" :=
  ⟨rfl, rfl, by rintro b t ⟨⟩; decide, .minus⟩

/-! ### C06 -/

/-- **C06, refuted** `0.25` is read as 0.45: fraction digit number `i` contributes `d / (10 i)`
instead of `d / 10^i`. (0.25 is exactly representable.) -/
theorem C06_fraction_false : ∃ (file : Bytes) (s : PS), file.drop s.pos = b!"0.25" ∧
    (readNumber file s).1 ≠ .fin (mkRat 1 4) ∧ (readNumber file s).1 = roundQ (mkRat 45 100) :=
  ⟨b!"0.25", PS.init, rfl, by decide +kernel, by decide +kernel⟩

/-- **C06, partial** With one fraction digit the result is the integer part plus the tenth, each
rounded to the nearest double. Missing: two or more fraction digits. -/
theorem C06_fraction_partial {w r : Bytes} {ds : List Nat} {d : Nat} (hw : Blank w) (hd : ∀ d ∈ ds, d < 10) (h1 : d < 10)
    (hne : ds ≠ []) (hr : NoDigit r) (hv : decVal ds < 2 ^ 53) (file : Bytes) (s : PS)
    (hin : file.drop s.pos = w ++ (ds.map decDigit ++ 46 :: decDigit d :: r)) :
    (∀ q : Rat, roundQ (mkRat d 10) = .fin q → (readNumber file s).1 = roundQ ((decVal ds : Rat) + q)) ∧
      (readNumber file s).2.pos = s.pos + w.length + ds.length + 2 ∧ (readNumber file s).2.log = s.log := by
  obtain ⟨g1, g2⟩ := readNumber_spec file s
  cases ds with
  | nil => exact absurd rfl hne
  | cons d0 ds =>
    obtain ⟨f1, f2, f3, f4, f5, f6, -⟩ := decDigit_facts (hd d0 (by simp))
    obtain ⟨k1, k2, -⟩ := decDigit_facts h1
    have hz : skipWs false ((d0 :: ds).map decDigit ++ 46 :: decDigit d :: r) = 0 := skipWs_cons f6 f5
    have h10 : F64.mul10Add (.fin 0) d0 = .fin (d0 : Rat) := by
      have := mul10Add_int (n := 0) (d := d0) (by have := hd d0 (by simp); omega)
      simpa using this
    have hv' : decVal (d0 :: ds) = ds.foldl (fun v d => v * 10 + d) d0 := by simp [decVal]
    have hfrac : ∀ x : F64, fracGo (decDigit d :: r) x 1 = (x.addFrac d 1, 1) := by
      intro x
      rw [fracGo, if_pos k1, k2]
      cases r with
      | nil => rfl
      | cons b t =>
        have := hr b t rfl
        rw [← isDigit_iff] at this
        simp [fracGo, this]
    have hnum : numGo (decDigit d0) (ds.map decDigit ++ 46 :: decDigit d :: r) =
        (F64.addFrac (.fin ((decVal (d0 :: ds) : Nat) : Rat)) d 1, ds.length + 2) := by
      simp only [numGo, f1, f2, if_true, h10]
      rw [wholeGo_point ds (fun x hx => hd x (by simp [hx])) _ d0 (by rw [← hv']; exact hv)]
      have hdrop : List.drop (ds.length + 1) (ds.map decDigit ++ 46 :: decDigit d :: r) = decDigit d :: r := by
        rw [List.drop_append]; simp
      simp only [beq_iff_eq, f3, f4, if_false, if_true, hdrop, hfrac, hv']
    have hl : lNumber (rest file s) = (F64.addFrac (.fin ((decVal (d0 :: ds) : Nat) : Rat)) d 1,
        w.length + (d0 :: ds).length + 2) := by
      rw [show rest file s = _ from hin]
      simp only [lNumber]
      rw [drop_blank hw, skipWs_blank hw, hz]
      simp only [List.map_cons, List.cons_append, List.drop_zero]
      rw [if_pos (by simp [f1]), hnum]
      simp; omega
    rw [hl] at g1 g2
    refine ⟨?_, by rw [g2.pos]; omega, by simpa using g2.log⟩
    intro q hq
    rw [g1]
    simp only [F64.addFrac, Nat.mul_one, hq]

/-- `12.5` satisfies the hypotheses and is read as 12.5. -/
example : (readNumber b!"12.5" PS.init).1 = .fin (mkRat 25 2) ∧ decVal [1, 2] < 2 ^ 53 := by decide +kernel

end Pdf.Props
