import Verif.Lemmas.ObjTotal
import Verif.Lemmas.Filters
import Verif.Spec.Syntax
/-!
The list-level readers against the syntax specification.
-/

namespace Pdf
open Spec

/-! ### Byte classes: checked on all 256 bytes -/

theorem forall_u8 {p : UInt8 → Prop} (h : ∀ n : Fin 256, p (UInt8.ofNat n.val)) (b : UInt8) : p b := by
  have := h ⟨b.toNat, b.toNat_lt⟩
  simpa using this

theorem isDelim_iff (b : UInt8) : isDelim b = true ↔ IsDelimiter b := by
  revert b; apply forall_u8; decide +kernel

theorem isRegular_iff (b : UInt8) : Spec.IsRegular b ↔ isWs b = false ∧ isDelim b = false := by
  rw [Spec.IsRegular, ← isWs_iff, ← isDelim_iff]; simp

theorem isDigit_iff (b : UInt8) : isDigit b = true ↔ 48 ≤ b.toNat ∧ b.toNat ≤ 57 := by
  revert b; apply forall_u8; decide +kernel

theorem isOctal_iff (b : UInt8) : isOctal b = true ↔ 48 ≤ b.toNat ∧ b.toNat ≤ 55 := by
  revert b; apply forall_u8; decide +kernel

theorem strNote_eq (b : UInt8) : strNote b = strEscErr b := by
  revert b; apply forall_u8; decide +kernel

theorem nameNote_eq (b : UInt8) : nameNote b = nameEscErr b := by
  revert b; apply forall_u8; decide +kernel

theorem isHex_digit : ∀ b : UInt8, isHex b = true → ∃ n : Fin 16, b = hexLower n.val ∨ b = hexUpper n.val := by
  apply forall_u8; decide +kernel

theorem digit_isHex : ∀ n : Fin 16, isHex (hexLower n.val) = true ∧ isHex (hexUpper n.val) = true := by
  decide +kernel

theorem isHex_of_digit {n : Nat} {c : UInt8} (h : IsHexDigit n c) : isHex c = true := by
  have := digit_isHex ⟨n, h.1⟩
  rcases h.2 with e | e
  · rw [e]; exact this.1
  · rw [e]; exact this.2

theorem not_isHex {c : UInt8} (h : ¬ ∃ n, IsHexDigit n c) : isHex c = false := by
  cases hc : isHex c
  · rfl
  · obtain ⟨n, hn⟩ := isHex_digit c hc
    exact absurd ⟨n.val, n.isLt, hn⟩ h

/-! ### Blanks -/

theorem skipWs_comment : ∀ (c r : Bytes) (e : UInt8), (∀ b ∈ c, b ≠ 10 ∧ b ≠ 13) → e = 10 ∨ e = 13 →
    skipWs true (c ++ e :: r) = c.length + 1 + skipWs false r := by
  intro c r e hc he
  induction c with
  | nil => rcases he with rfl | rfl <;> simp [skipWs, isEol] <;> omega
  | cons b c ih =>
    obtain ⟨h1, h2⟩ := hc b (by simp)
    simp only [List.cons_append, skipWs, isEol]
    rw [show (!(b == 10 || b == 13)) = true by simp [h1, h2], ih fun x hx => hc x (by simp [hx])]
    simp; omega

theorem skipWs_blank {w : Bytes} (h : Blank w) (l : Bytes) : skipWs false (w ++ l) = w.length + skipWs false l := by
  induction h with
  | nil => simp
  | @ws b t hb _ ih =>
    simp only [List.cons_append, skipWs]
    have h1 : b ≠ 37 := by rintro rfl; simp [IsWhite] at hb
    rw [if_neg (by simpa using h1), if_pos ((isWs_iff b).2 hb), ih]
    simp; omega
  | @comment c e t hc he _ ih =>
    simp only [List.cons_append, List.append_assoc, skipWs]
    rw [if_pos (by decide), skipWs_comment c _ e hc he, ih]
    simp; omega

theorem drop_blank {w : Bytes} (h : Blank w) (l : Bytes) :
    (w ++ l).drop (skipWs false (w ++ l)) = l.drop (skipWs false l) := by
  rw [skipWs_blank h, List.drop_append]
  simp

/-- Skipping stops at input that starts with a regular byte or a delimiter other than `%`. -/
theorem skipWs_zero {b : UInt8} {t : Bytes} (h1 : ¬ IsWhite b) (h2 : b ≠ 37) : skipWs false (b :: t) = 0 := by
  refine skipWs_cons ?_ h2
  cases h : isWs b
  · rfl
  · exact absurd ((isWs_iff b).1 h) h1

/-- What is skipped is blank when something follows. -/
theorem blank_take : ∀ (l : Bytes) (c : Bool), l.drop (skipWs c l) ≠ [] →
    (c = false → Blank (l.take (skipWs c l))) ∧
    (c = true → ∃ k e t, l.take (skipWs c l) = k ++ e :: t ∧ (∀ b ∈ k, b ≠ 10 ∧ b ≠ 13) ∧ (e = 10 ∨ e = 13) ∧ Blank t) := by
  intro l
  induction l with
  | nil => intro c h; simp at h
  | cons b t ih =>
    intro c h
    cases c
    · refine ⟨fun _ => ?_, fun h => by cases h⟩
      by_cases h1 : (b == ch%'%') = true
      · have he : skipWs false (b :: t) = skipWs true t + 1 := by simp only [skipWs, h1, if_true]
        rw [he] at h ⊢
        obtain ⟨k, e, u, hk, hc, hee, hb⟩ := (ih true h).2 rfl
        rw [List.take_succ_cons, hk, eq_of_beq h1]
        exact Blank.comment hc hee hb
      by_cases h2 : isWs b = true
      · have he : skipWs false (b :: t) = skipWs false t + 1 := by simp only [skipWs, h1, h2, if_true, if_false, Bool.false_eq_true]
        rw [he] at h ⊢
        exact Blank.ws ((isWs_iff b).1 h2) ((ih false h).1 rfl)
      · have he : skipWs false (b :: t) = 0 := by simp only [skipWs, h1, h2, if_false, Bool.false_eq_true]
        rw [he]
        exact Blank.nil
    · refine ⟨fun h => (by cases h), fun _ => ?_⟩
      have he : skipWs true (b :: t) = skipWs (!isEol b) t + 1 := rfl
      rw [he] at h ⊢
      by_cases h1 : isEol b = true
      · rw [h1] at h ⊢
        have hb : b = 10 ∨ b = 13 := by simpa [isEol] using h1
        exact ⟨[], b, t.take (skipWs false t), rfl, by simp, hb, (ih false h).1 rfl⟩
      · have h1 : isEol b = false := by simpa using h1
        rw [h1] at h ⊢
        obtain ⟨k, e, u, hk, hc, hee, hb⟩ := (ih true h).2 rfl
        have hb' : b ≠ 10 ∧ b ≠ 13 := by simpa [isEol] using h1
        exact ⟨b :: k, e, u, by rw [Bool.not_false, List.take_succ_cons, hk]; rfl, by
          intro x hx
          rcases List.mem_cons.1 hx with rfl | hx
          · exact hb'
          · exact hc x hx, hee, hb⟩

/-! ### Names -/

theorem nameGo_text {v t : Bytes} {e : List Err} (h : NameText v t e) (r : Bytes) (hr : Stops r) :
    nameGo 0 (t ++ r) = ⟨v, t.length, e⟩ := by
  induction h with
  | nil =>
    cases r with
    | nil => simp [nameGo]
    | cons b u =>
      have := hr b u rfl
      rw [isRegular_iff] at this
      have : (isDelim b || isWs b) = true := by
        cases h1 : isWs b <;> cases h2 : isDelim b <;> simp_all
      simp [nameGo, this]
  | @plain b v t e hb hn _ ih =>
    rw [isRegular_iff] at hb
    simp only [List.cons_append, nameGo, hb.1, hb.2, ih]
    rw [if_neg (by simp), if_neg (by simpa using hn)]
    simp [LR.pre]; omega
  | @esc h l c1 c2 v t e h1 h2 _ ih =>
    obtain ⟨hv1, -, -⟩ := Spec.IsHexDigit.facts h1
    obtain ⟨hv2, -, -⟩ := Spec.IsHexDigit.facts h2
    have hh1 := isHex_of_digit h1
    have hh2 := isHex_of_digit h2
    simp only [List.cons_append, nameGo]
    rw [if_neg (by decide), if_pos (by decide)]
    simp [nameCode, hh1, hh2, nameGo_skip 2, ih, LR.pre, nameCodeVal, parseHex2, hv1, hv2, nameNote_eq, Nat.mul_comm]
    omega

/-! ### Hex strings -/

theorem hexGo_comment : ∀ (c r : Bytes) (e : UInt8) (p : Option UInt8), (∀ b ∈ c, b ≠ 10 ∧ b ≠ 13) → e = 10 ∨ e = 13 →
    hexGo true p (c ++ e :: r) = LR.pre [] (c.length + 1) [] (hexGo false p r) := by
  intro c r e p hc he
  induction c with
  | nil => rcases he with rfl | rfl <;> simp [hexGo, isEol, LR.pre]
  | cons b c ih =>
    obtain ⟨h1, h2⟩ := hc b (by simp)
    simp only [List.cons_append, hexGo, isEol]
    rw [show (!(b == 10 || b == 13)) = true by simp [h1, h2], ih fun x hx => hc x (by simp [hx])]
    simp [LR.pre]; omega

/-- Digits pending in front of further digits. -/
def pendDigits : Option UInt8 → List Nat
  | none => []
  | some h => [(hexVal? h).getD 0]

theorem hexGo_text {ds : List Nat} {t : Bytes} {k : Nat} (h : HexBody ds t k) :
    ∀ (p : Option UInt8) (r : Bytes), (∀ c, p = some c → isHex c = true) →
    ∃ v q, hexGo false p (t ++ r) = LR.pre v t.length (List.replicate k .invalidHexStringChar) (hexGo false q r) ∧
      (∀ c, q = some c → isHex c = true) ∧
      ∀ ds', v ++ hexPairs (pendDigits q ++ ds') = hexPairs (pendDigits p ++ ds ++ ds') := by
  induction h with
  | nil => intro p r hp; exact ⟨[], p, by simp [LR.pre], hp, by simp⟩
  | @digit n c ds t k hc _ ih =>
    intro p r hp
    obtain ⟨hv, hw, hg⟩ := Spec.IsHexDigit.facts hc
    have hh := isHex_of_digit hc
    have h37 : c ≠ 37 := by rintro rfl; revert hh; decide
    cases p with
    | none =>
      obtain ⟨v, q, e1, e2, e3⟩ := ih (some c) r (by rintro _ ⟨⟩; exact hh)
      refine ⟨v, q, ?_, e2, ?_⟩
      · rw [List.cons_append, hexGo.eq_def]
        simp only
        rw [if_neg (by simpa using h37), if_neg (by simp [hw]), if_neg (by simpa using hg), if_neg (by simp [hh]), e1]
        simp [LR.pre]; omega
      · intro ds'; rw [e3]; simp [pendDigits, hv]
    | some a =>
      obtain ⟨v, q, e1, e2, e3⟩ := ih none r (by rintro _ ⟨⟩)
      have ha := hp a rfl
      obtain ⟨m, hm⟩ := isHex_digit a ha
      obtain ⟨hva, -, -⟩ := Spec.IsHexDigit.facts (show IsHexDigit m.val a from ⟨m.isLt, hm⟩)
      refine ⟨UInt8.ofNat (16 * m.val + n) :: v, q, ?_, e2, ?_⟩
      · rw [List.cons_append, hexGo.eq_def]
        simp only
        rw [if_neg (by simpa using h37), if_neg (by simp [hw]), if_neg (by simpa using hg), if_neg (by simp [hh]), e1]
        simp [LR.pre, parseHex2, hv, hva, Nat.mul_comm]; omega
      · intro ds'
        rw [List.cons_append, e3]
        simp [pendDigits, hva, hexPairs]
  | @ws b ds t k hb _ ih =>
    intro p r hp
    obtain ⟨v, q, e1, e2, e3⟩ := ih p r hp
    refine ⟨v, q, ?_, e2, e3⟩
    have h1 : b ≠ 37 := by rintro rfl; simp [IsWhite] at hb
    rw [List.cons_append, hexGo.eq_def]
    simp only
    rw [if_neg (by simpa using h1), if_pos ((isWs_iff b).2 hb), e1]
    simp [LR.pre]; omega
  | @comment c e ds t k hc he _ ih =>
    intro p r hp
    obtain ⟨v, q, e1, e2, e3⟩ := ih p r hp
    refine ⟨v, q, ?_, e2, e3⟩
    simp only [List.cons_append, List.append_assoc]
    rw [hexGo.eq_def]
    simp only
    rw [if_pos (by decide), hexGo_comment _ _ _ _ hc he, e1]
    simp [LR.pre]; omega
  | @junk b ds t k h1 h2 h3 h4 _ ih =>
    intro p r hp
    obtain ⟨v, q, e1, e2, e3⟩ := ih p r hp
    refine ⟨v, q, ?_, e2, e3⟩
    have hw : isWs b = false := by
      cases h : isWs b
      · rfl
      · exact absurd ((isWs_iff b).1 h) h2
    rw [List.cons_append, hexGo.eq_def]
    simp only
    rw [if_neg (by simpa using h3), if_neg (by simp [hw]), if_neg (by simpa using h4), if_pos (by simp [not_isHex h1]), e1]
    simp [LR.pre, List.replicate_succ]; omega

theorem hexFin_pairs (q : Option UInt8) (h : ∀ c, q = some c → isHex c = true) : hexFin q = hexPairs (pendDigits q) := by
  cases q with
  | none => rfl
  | some a =>
    obtain ⟨m, hm⟩ := isHex_digit a (h a rfl)
    obtain ⟨hva, -, -⟩ := Spec.IsHexDigit.facts (show IsHexDigit m.val a from ⟨m.isLt, hm⟩)
    have h0 : hexVal? 48 = some 0 := by decide
    simp [hexFin, pendDigits, hva, hexPairs, parseHex2, h0, Nat.mul_comm]

theorem hexGo_closed {ds : List Nat} {t : Bytes} {k : Nat} (h : HexBody ds t k) (r : Bytes) :
    hexGo false none (t ++ 62 :: r) = ⟨hexPairs ds, t.length + 1, List.replicate k .invalidHexStringChar⟩ := by
  obtain ⟨v, q, e1, e2, e3⟩ := hexGo_text h none (62 :: r) (by rintro _ ⟨⟩)
  have e3 := e3 []
  simp only [List.append_nil, show pendDigits none = [] from rfl, List.nil_append] at e3
  rw [e1, hexGo.eq_def]
  simp only
  rw [if_neg (by decide), if_neg (by decide), if_pos (by decide), hexFin_pairs q e2]
  simp [LR.pre, e3]

theorem hexGo_openComment (u : Bytes) (p : Option UInt8) (h : OpenComment u) :
    hexGo false p u = ⟨hexFin p, u.length, [.unclosedHexString]⟩ := by
  rcases h with rfl | ⟨c, rfl, hc⟩
  · simp [hexGo]
  · rw [hexGo.eq_def]
    simp only
    rw [if_pos (by decide)]
    have : ∀ c : Bytes, (∀ b ∈ c, b ≠ 10 ∧ b ≠ 13) → hexGo true p c = ⟨hexFin p, c.length, [.unclosedHexString]⟩ := by
      intro c hc
      induction c with
      | nil => simp [hexGo]
      | cons b c ih =>
        obtain ⟨h1, h2⟩ := hc b (by simp)
        simp only [hexGo, isEol]
        rw [show (!(b == 10 || b == 13)) = true by simp [h1, h2], ih fun x hx => hc x (by simp [hx])]
        simp [LR.pre]; omega
    rw [this c hc]
    simp [LR.pre]; omega

theorem hexGo_unclosed {ds : List Nat} {t u : Bytes} {k : Nat} (h : HexBody ds t k) (hu : OpenComment u) :
    hexGo false none (t ++ u) =
      ⟨hexPairs ds, t.length + u.length, List.replicate k .invalidHexStringChar ++ [.unclosedHexString]⟩ := by
  obtain ⟨v, q, e1, e2, e3⟩ := hexGo_text h none u (by rintro _ ⟨⟩)
  have e3 := e3 []
  simp only [List.append_nil, show pendDigits none = [] from rfl, List.nil_append] at e3
  rw [e1, hexGo_openComment u q hu, hexFin_pairs q e2]
  simp [LR.pre, e3]

/-- Every input after `<` is a body followed by `>`, or a body that the end of the file cuts off. -/
theorem hexBody_total : ∀ (n : Nat) (l : Bytes), l.length ≤ n → ∃ ds t k, HexBody ds t k ∧
    ((∃ r, l = t ++ 62 :: r) ∨ ∃ u, OpenComment u ∧ l = t ++ u) := by
  intro n
  induction n with
  | zero =>
    intro l hl
    have : l = [] := List.length_eq_zero_iff.1 (by omega)
    subst this
    exact ⟨[], [], 0, .nil, .inr ⟨[], .inl rfl, rfl⟩⟩
  | succ n ih =>
    intro l hl
    cases l with
    | nil => exact ⟨[], [], 0, .nil, .inr ⟨[], .inl rfl, rfl⟩⟩
    | cons b l =>
      simp only [List.length_cons] at hl
      by_cases h62 : b = 62
      · subst h62; exact ⟨[], [], 0, .nil, .inl ⟨l, rfl⟩⟩
      by_cases h37 : b = 37
      · subst h37
        have : (∃ c e t, l = c ++ e :: t ∧ (∀ b ∈ c, b ≠ 10 ∧ b ≠ 13) ∧ (e = 10 ∨ e = 13)) ∨ ∀ b ∈ l, b ≠ 10 ∧ b ≠ 13 := by
          clear ih hl
          induction l with
          | nil => right; simp
          | cons x l ih =>
            by_cases hx : x = 10 ∨ x = 13
            · exact .inl ⟨[], x, l, rfl, by simp, hx⟩
            · have hx : x ≠ 10 ∧ x ≠ 13 := by simpa using hx
              rcases ih with ⟨c, e, t, rfl, h1, h2⟩ | h
              · refine .inl ⟨x :: c, e, t, rfl, ?_, h2⟩
                intro y hy
                rcases List.mem_cons.1 hy with rfl | hy
                · exact hx
                · exact h1 y hy
              · right
                intro y hy
                rcases List.mem_cons.1 hy with rfl | hy
                · exact hx
                · exact h y hy
        rcases this with ⟨c, e, u, rfl, h1, h2⟩ | h
        · obtain ⟨ds, t, k, hb, hr⟩ := ih u (by simp at hl; omega)
          refine ⟨ds, 37 :: c ++ e :: t, k, .comment h1 h2 hb, ?_⟩
          rcases hr with ⟨r, rfl⟩ | ⟨r, hr, rfl⟩
          · exact .inl ⟨r, by simp⟩
          · exact .inr ⟨r, hr, by simp⟩
        · exact ⟨[], [], 0, .nil, .inr ⟨37 :: l, .inr ⟨l, rfl, h⟩, rfl⟩⟩
      obtain ⟨ds, t, k, hb, hr⟩ := ih l (by omega)
      have hext : (∃ r, b :: l = (b :: t) ++ 62 :: r) ∨ ∃ u, OpenComment u ∧ b :: l = (b :: t) ++ u := by
        rcases hr with ⟨r, rfl⟩ | ⟨r, hr, rfl⟩
        · exact .inl ⟨r, by simp⟩
        · exact .inr ⟨r, hr, by simp⟩
      by_cases hw : IsWhite b
      · exact ⟨ds, b :: t, k, .ws hw hb, hext⟩
      by_cases hd : ∃ m, IsHexDigit m b
      · obtain ⟨m, hm⟩ := hd
        exact ⟨m :: ds, b :: t, k, .digit hm hb, hext⟩
      · exact ⟨ds, b :: t, k + 1, .junk hd hw h37 h62 hb, hext⟩

/-! ### Literal strings -/

theorem octDigit_facts {n : Nat} (h : n ≤ 7) : isOctal (octDigit n) = true ∧ (octDigit n).toNat - 48 = n ∧
    namedEscape (octDigit n) = octDigit n ∧ octDigit n ≠ 10 ∧ octDigit n ≠ 13 := by
  have : ∀ n : Fin 8, isOctal (octDigit n) = true ∧ (octDigit n).toNat - 48 = n.val ∧
    namedEscape (octDigit n) = octDigit n ∧ octDigit n ≠ 10 ∧ octDigit n ≠ 13 := by decide +kernel
  exact this ⟨n, by omega⟩

/-- What may follow string text without changing its meaning. -/
def Follow (t r : Bytes) : Prop :=
  (∃ b r', r = b :: r' ∧ isOctal b = false ∧ b ≠ 10) ∨ (r = [] ∧ ¬ EndsEsc t)

theorem EndsEsc_append {t : Bytes} (x : Bytes) (h : EndsEsc t) : EndsEsc (x ++ t) := by
  rcases h with ⟨u, rfl⟩ | ⟨u, a, ha, rfl⟩ | ⟨u, a, b, ha, hb, rfl⟩
  · exact .inl ⟨x ++ u, by simp⟩
  · exact .inr (.inl ⟨x ++ u, a, ha, by simp⟩)
  · exact .inr (.inr ⟨x ++ u, a, b, ha, hb, by simp⟩)

theorem Follow.suffix {t r : Bytes} (x : Bytes) (h : Follow (x ++ t) r) : Follow t r := by
  rcases h with h | ⟨h, h'⟩
  · exact .inl h
  · exact .inr ⟨h, fun he => h' (EndsEsc_append x he)⟩

theorem octMore_stop {t : Bytes} (h : NoOctal t) (n : Nat) (r : Bytes) (hf : t = [] → ∃ b r', r = b :: r' ∧ isOctal b = false ∧ b ≠ 10) :
    octMore n (t ++ r) = ([], []) := by
  cases n with
  | zero => rfl
  | succ n =>
    cases t with
    | nil =>
      obtain ⟨b, r', rfl, hb, -⟩ := hf rfl
      simp [octMore, hb]
    | cons b t =>
      have := h b t rfl
      rw [← isOctal_iff] at this
      simp [octMore, this]

theorem strEsc_octal {x : Nat} (hx : x ≤ 7) (u : Bytes) : strEsc (octDigit x :: u) =
    ⟨[(octGo (octDigit x) u).1], 1 + (octGo (octDigit x) u).2.1, (octGo (octDigit x) u).2.2, false⟩ := by
  obtain ⟨h1, h2, h3, h4, h5⟩ := octDigit_facts hx
  rw [strEsc.eq_def]
  simp only
  rw [if_neg (by simpa using h4), if_neg (by simpa using h5), h3, if_pos h1]

theorem namedEscape_letter {c b : UInt8} (h : Letter c b) : namedEscape c = b ∧ c ≠ 10 ∧ c ≠ 13 ∧ isOctal b = false := by
  rcases h with h | h | h | h | h <;> obtain ⟨rfl, rfl⟩ := h <;> decide

theorem namedEscape_self {c : UInt8} (h : ¬ ∃ b, Letter c b) : namedEscape c = c := by
  have : ∀ c : UInt8, namedEscape c = c ∨ c = 110 ∨ c = 114 ∨ c = 116 ∨ c = 98 ∨ c = 102 := by
    apply forall_u8; decide +kernel
  rcases this c with h' | h' | h' | h' | h' | h'
  · exact h'
  all_goals exact absurd ⟨_, by rw [h']; simp [Letter]; rfl⟩ h

theorem strGo_follow {v t : Bytes} {e : List Err} (h : StrText v t e) :
    ∀ (o : Nat) (r : Bytes), Follow t r → strGo 0 (o + 1) (t ++ r) = LR.pre v t.length e (strGo 0 (o + 1) r) := by
  induction h with
  | nil => intro o r _; simp [LR.pre]
  | @plain b v t e h1 h2 h3 _ ih =>
    intro o r hf
    have ih := ih o r (Follow.suffix [b] hf)
    rw [List.cons_append, strGo, if_neg (by simpa using h3)]
    rw [show strOpens (o + 1) b = o + 1 by simp [strOpens, h1, h2], if_neg (by omega), ih]
    simp [LR.pre]; omega
  | @parens v t e v' t' e' _ _ ih1 ih2 =>
    intro o r hf
    have ih1 := fun q => ih1 (o + 1) (41 :: q) (.inl ⟨41, q, rfl, by decide, by decide⟩)
    have ih2 := ih2 o r (Follow.suffix (40 :: t ++ [41]) (by simpa using hf))
    simp only [List.cons_append, List.append_assoc]
    rw [strGo, if_neg (by decide), show strOpens (o + 1) 40 = (o + 1) + 1 from rfl, if_neg (by omega), ih1,
      strGo, if_neg (by decide), show strOpens (o + 1 + 1) 41 = o + 1 from rfl, if_neg (by omega), ih2]
    simp [LR.pre]; omega
  | @letter c b v t e hl _ ih =>
    intro o r hf
    have ih := ih o r (Follow.suffix [92, c] hf)
    obtain ⟨h1, h2, h3, h4⟩ := namedEscape_letter hl
    have he : strEsc (c :: (t ++ r)) = ⟨[b], 1, [], false⟩ := by
      rw [strEsc.eq_def]
      simp only
      rw [if_neg (by simpa using h2), if_neg (by simpa using h3), h1, if_neg (by simp [h4])]
    simp only [List.cons_append]
    rw [strGo, if_pos (by decide), he]
    simp [strGo_skip 1, ih, LR.pre]; omega
  | @self c v t e hl ho h2 h3 _ ih =>
    intro o r hf
    have ih := ih o r (Follow.suffix [92, c] hf)
    have h1 := namedEscape_self hl
    rw [← isOctal_iff] at ho
    have he : strEsc (c :: (t ++ r)) = ⟨[c], 1, [], false⟩ := by
      rw [strEsc.eq_def]
      simp only
      rw [if_neg (by simpa using h2), if_neg (by simpa using h3), h1, if_neg ho]
    simp only [List.cons_append]
    rw [strGo, if_pos (by decide), he]
    simp [strGo_skip 1, ih, LR.pre]; omega
  | @oct3 x y z v t e hx hy hz _ ih =>
    intro o r hf
    have ih := ih o r (Follow.suffix [92, octDigit x, octDigit y, octDigit z] hf)
    obtain ⟨-, x2, -⟩ := octDigit_facts (n := x) (by omega)
    obtain ⟨y1, y2, -⟩ := octDigit_facts hy
    obtain ⟨z1, z2, -⟩ := octDigit_facts hz
    have hv : octalVal [octDigit x, octDigit y, octDigit z] = 64 * x + 8 * y + z := by
      simp [octalVal, x2, y2, z2]; omega
    have ho : octGo (octDigit x) (octDigit y :: octDigit z :: (t ++ r)) =
        (UInt8.ofNat (64 * x + 8 * y + z), 2, strNote (UInt8.ofNat (64 * x + 8 * y + z))) := by
      simp only [octGo, octMore, y1, z1, if_true, hv]
      rw [if_pos (by omega)]
      simp [strNote_eq]
    simp only [List.cons_append]
    rw [strGo, if_pos (by decide), strEsc_octal (by omega), ho]
    simp [strGo_skip 3, ih, LR.pre]; omega
  | @oct2 y z v t e hy hz hn _ ih =>
    intro o r hf
    have ih := ih o r (Follow.suffix [92, octDigit y, octDigit z] hf)
    obtain ⟨y1, y2, -⟩ := octDigit_facts hy
    obtain ⟨z1, z2, -⟩ := octDigit_facts hz
    have hv : octalVal [octDigit y, octDigit z] = 8 * y + z := by
      simp [octalVal, y2, z2]; omega
    have hstop : t = [] → ∃ b r', r = b :: r' ∧ isOctal b = false ∧ b ≠ 10 := by
      rintro rfl
      rcases hf with h | ⟨-, h⟩
      · exact h
      · exact absurd (.inr (.inr ⟨[], y, z, hy, hz, rfl⟩)) h
    have ho : octGo (octDigit y) (octDigit z :: (t ++ r)) =
        (UInt8.ofNat (8 * y + z), 1, strNote (UInt8.ofNat (8 * y + z))) := by
      simp only [octGo]
      rw [show octMore 2 (octDigit z :: (t ++ r)) = ([octDigit z], []) by
        rw [octMore, if_pos z1, octMore_stop hn _ _ hstop]]
      simp only [hv]
      rw [if_pos (by omega)]
      simp [strNote_eq]
    simp only [List.cons_append]
    rw [strGo, if_pos (by decide), strEsc_octal hy, ho]
    simp [strGo_skip 2, ih, LR.pre]; omega
  | @oct1 z v t e hz hn _ ih =>
    intro o r hf
    have ih := ih o r (Follow.suffix [92, octDigit z] hf)
    obtain ⟨z1, z2, -⟩ := octDigit_facts hz
    have hv : octalVal [octDigit z] = z := by simp [octalVal, z2]
    have hstop : t = [] → ∃ b r', r = b :: r' ∧ isOctal b = false ∧ b ≠ 10 := by
      rintro rfl
      rcases hf with h | ⟨-, h⟩
      · exact h
      · exact absurd (.inr (.inl ⟨[], z, hz, rfl⟩)) h
    have ho : octGo (octDigit z) (t ++ r) = (UInt8.ofNat z, 0, strNote (UInt8.ofNat z)) := by
      simp only [octGo]
      rw [octMore_stop hn _ _ hstop]
      simp only [hv]
      rw [if_pos (by omega)]
      simp [strNote_eq]
    simp only [List.cons_append]
    rw [strGo, if_pos (by decide), strEsc_octal hz, ho]
    simp [strGo_skip 1, ih, LR.pre]; omega
  | @lf v t e _ ih =>
    intro o r hf
    have ih := ih o r (Follow.suffix [92, 10] hf)
    have he : strEsc (10 :: (t ++ r)) = ⟨[], 1, [], false⟩ := rfl
    simp only [List.cons_append]
    rw [strGo, if_pos (by decide), he]
    simp [strGo_skip 1, ih, LR.pre]; omega
  | @crlf v t e _ ih =>
    intro o r hf
    have ih := ih o r (Follow.suffix [92, 13, 10] hf)
    have he : strEsc (13 :: 10 :: (t ++ r)) = ⟨[], 2, [], false⟩ := rfl
    simp only [List.cons_append]
    rw [strGo, if_pos (by decide), he]
    simp [strGo_skip 2, ih, LR.pre]; omega
  | @cr v t e hn _ ih =>
    intro o r hf
    have ih := ih o r (Follow.suffix [92, 13] hf)
    have he : strEsc (13 :: (t ++ r)) = ⟨[], 1, [], false⟩ := by
      cases t with
      | nil =>
        rcases hf with ⟨b, r', rfl, -, h⟩ | ⟨-, h⟩
        · simp [strEsc, h]
        · exact absurd (.inl ⟨[], rfl⟩) h
      | cons b t =>
        have : b ≠ 10 := by rintro rfl; exact hn t rfl
        simp [strEsc, this]
    simp only [List.cons_append]
    rw [strGo, if_pos (by decide), he]
    simp [strGo_skip 1, ih, LR.pre]; omega

theorem strGo_text {v t : Bytes} {e : List Err} (h : StrText v t e) (o : Nat) (r : Bytes) :
    strGo 0 (o + 1) (t ++ 41 :: r) = LR.pre v t.length e (strGo 0 (o + 1) (41 :: r)) :=
  strGo_follow h o _ (.inl ⟨41, r, rfl, by decide, by decide⟩)

theorem strGo_closed {v t : Bytes} {e : List Err} (h : StrText v t e) (r : Bytes) :
    strGo 0 1 (t ++ 41 :: r) = ⟨v, t.length + 1, e⟩ := by
  rw [strGo_text h 0 r, strGo, if_neg (by decide), show strOpens (0 + 1) 41 = 0 from rfl, if_pos rfl]
  simp [LR.pre]

theorem escapeStr_text (v : Bytes) : StrText v (escapeStr v) [] := by
  induction v with
  | nil => exact .nil
  | cons b v ih =>
    simp only [escapeStr, List.flatMap_cons]
    by_cases h : b = 40 ∨ b = 41 ∨ b = 92
    · rw [if_pos h]
      refine .self ?_ ?_ ?_ ?_ ih
      all_goals rcases h with rfl | rfl | rfl <;> simp [Letter]
    · rw [if_neg h]
      simp only [not_or] at h
      exact .plain h.1 h.2.1 h.2.2 ih

/-! ### Integers -/

theorem decDigit_facts {n : Nat} (h : n < 10) : isDigit (decDigit n) = true ∧ (decDigit n).toNat - 48 = n ∧
    decDigit n ≠ 46 ∧ decDigit n ≠ 45 ∧ decDigit n ≠ 37 ∧ isWs (decDigit n) = false ∧ isDelim (decDigit n) = false := by
  have : ∀ n : Fin 10, isDigit (decDigit n) = true ∧ (decDigit n).toNat - 48 = n.val ∧
    decDigit n ≠ 46 ∧ decDigit n ≠ 45 ∧ decDigit n ≠ 37 ∧ isWs (decDigit n) = false ∧ isDelim (decDigit n) = false := by decide +kernel
  exact this ⟨n, h⟩

theorem digit_decDigit {b : UInt8} (h : isDigit b = true) : ∃ n, n < 10 ∧ b = decDigit n := by
  have : ∀ b : UInt8, isDigit b = true → b.toNat - 48 < 10 ∧ b = decDigit (b.toNat - 48) := by
    apply forall_u8; decide +kernel
  exact ⟨_, this b h⟩

end Pdf
