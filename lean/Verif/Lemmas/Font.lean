import Verif.Lemmas.Command
import Verif.Props.Lexer
/-!
Fonts and character maps (font.go).
-/

namespace Pdf
open Spec

theorem decodeLoopFont_codes {font : Font} (hw : 1 ≤ font.width) {tail : Bytes} (ht : tail.length < font.width) : ∀ (codes : List Bytes) (f : Nat),
    (∀ c ∈ codes, c.length = font.width) → codes.length < f →
    decodeLoopFont font f (codes.flatten ++ tail) = decodeCodes (fun c => font.lookup (bytesToInt c)) codes := by
  intro codes
  induction codes with
  | nil =>
    intro f _ hf
    obtain ⟨f, rfl⟩ : ∃ g, f = g + 1 := ⟨f - 1, by simp at hf; omega⟩
    rw [decodeLoopFont]
    simp [decodeCodes, ht]
  | cons c cs ih =>
    intro f hc hf
    obtain ⟨f, rfl⟩ : ∃ g, f = g + 1 := ⟨f - 1, by simp at hf; omega⟩
    have hl := hc c (by simp)
    rw [decodeLoopFont, List.flatten_cons, List.append_assoc, if_neg (by simp; omega)]
    simp only [decodeCodes, List.flatMap_cons]
    rw [List.take_append_of_le_length (by omega), List.take_of_length_le (by omega), List.drop_append_of_le_length (by omega), List.drop_of_length_le (by omega), List.nil_append]
    rw [ih f (fun x hx => hc x (by simp [hx])) (by simpa using hf)]
    rfl

theorem length_flatten_ge {w : Nat} (hw : 1 ≤ w) : ∀ {codes : List Bytes}, (∀ c ∈ codes, c.length = w) → codes.length ≤ codes.flatten.length := by
  intro codes
  induction codes with
  | nil => intro _; simp
  | cons c cs ih =>
    intro h
    have h1 := h c (by simp)
    have h2 := ih fun x hx => h x (by simp [hx])
    simp only [List.flatten_cons, List.length_append, List.length_cons]
    omega

theorem split_codes {w : Nat} (hw : 1 ≤ w) : ∀ (n : Nat) (b : Bytes), b.length ≤ n → ∃ (codes : List Bytes) (tail : Bytes), b = codes.flatten ++ tail ∧
    (∀ c ∈ codes, c.length = w) ∧ tail.length < w := by
  intro n
  induction n with
  | zero =>
    intro b hb
    exact ⟨[], b, by simp, by simp, by omega⟩
  | succ n ih =>
    intro b hb
    by_cases h : b.length < w
    · exact ⟨[], b, by simp, by simp, h⟩
    · obtain ⟨codes, tail, h1, h2, h3⟩ := ih (b.drop w) (by simp; omega)
      refine ⟨b.take w :: codes, tail, ?_, ?_, h3⟩
      · rw [List.flatten_cons, List.append_assoc, ← h1, List.take_append_drop]
      · intro c hc
        rcases List.mem_cons.1 hc with rfl | hc
        · simp; omega
        · exact h2 c hc

/-! ### Width -/

theorem bfRange_width (cmap : Bytes) : ∀ (n : Nat) (s : PS) (font font' : Font) (s' : PS), 1 ≤ font.width → bfRange cmap n s font = .ok (font', s') → 1 ≤ font'.width := by
  intro n
  induction n with
  | zero => intro s font font' s' h e; cases e; exact h
  | succ n ih =>
    intro s font font' s' h e
    rw [bfRange] at e
    dsimp only at e
    split at e
    · cases e; exact h
    · rename_i hne
      have hw : 1 ≤ (readHexRaw cmap s).1.length := by
        cases hx : (readHexRaw cmap s).1 with
        | nil => rw [hx] at hne; simp at hne
        | cons b t => simp
      split at e
      · cases e; exact hw
      · split at e
        · cases e; exact hw
        · split at e
          · cases e
          · exact ih _ _ _ _ (by exact hw) e

theorem bfChar_width (cmap : Bytes) : ∀ (n : Nat) (s : PS) (font : Font), 1 ≤ font.width → 1 ≤ (bfChar cmap n s font).1.width := by
  intro n
  induction n with
  | zero => intro s font h; exact h
  | succ n ih =>
    intro s font h
    rw [bfChar]
    dsimp only
    split
    · exact h
    · rename_i hne
      have hw : 1 ≤ (readHexRaw cmap s).1.length := by
        cases hx : (readHexRaw cmap s).1 with
        | nil => rw [hx] at hne; simp at hne
        | cons b t => simp
      split
      · exact hw
      · exact ih _ _ (by exact hw)

theorem fontLoop_width (cmap : Bytes) : ∀ (f : Nat) (s : PS) (font font' : Font), 1 ≤ font.width → fontLoop cmap f s font = .ok font' → 1 ≤ font'.width := by
  intro f
  induction f with
  | zero => intro s font font' _ e; cases e
  | succ f ih =>
    intro s font font' h e
    rw [fontLoop] at e
    obtain ⟨k, os, err, s', h1, -⟩ := readCommand_total cmap s
    rw [h1] at e
    change (if err = .readError then _ else _) = _ at e
    split at e
    · cases e; exact h
    · split at e
      · cases hb : bfRange cmap (operandCount os) s' font with
        | ok p =>
          rw [hb] at e
          exact ih _ _ _ (bfRange_width cmap _ _ _ _ _ h hb) e
        | panic w => rw [hb] at e; cases e
        | oof => rw [hb] at e; cases e
      · split at e
        · exact ih _ _ _ (bfChar_width cmap _ _ _ h) e
        · exact ih _ _ _ h e

/-! ### Termination -/

theorem readHexRaw_pos (file : Bytes) (s : PS) : s.pos ≤ (readHexRaw file s).2.pos := by
  have := (readHexRaw_spec file s).step.pos
  omega

theorem bfRange_runs (cmap : Bytes) (hno : ∀ s : PS, bytesToInt (readHexRaw cmap s).1 ≠ 9223372036854775807) : ∀ (n : Nat) (s : PS) (font : Font),
    ∃ font' s', bfRange cmap n s font = .ok (font', s') ∧ s.pos ≤ s'.pos := by
  intro n
  induction n with
  | zero => intro s font; exact ⟨_, _, rfl, Nat.le_refl _⟩
  | succ n ih =>
    intro s font
    rw [bfRange]
    dsimp only
    have h1 := readHexRaw_pos cmap s
    have h2 := readHexRaw_pos cmap (readHexRaw cmap s).2
    have h3 := readHexRaw_pos cmap (readHexRaw cmap (readHexRaw cmap s).2).2
    split
    · exact ⟨_, _, rfl, h1⟩
    · split
      · exact ⟨_, _, rfl, by omega⟩
      · split
        · exact ⟨_, _, rfl, by omega⟩
        · rw [if_neg (hno _)]
          obtain ⟨font', s', h4, h5⟩ := ih (readHexRaw cmap (readHexRaw cmap (readHexRaw cmap s).2).2).2
            { font with width := (readHexRaw cmap s).1.length, cmap := (bytesToInt (readHexRaw cmap s).1, bytesToInt (readHexRaw cmap (readHexRaw cmap s).2).1, (readHexRaw cmap (readHexRaw cmap (readHexRaw cmap s).2).2).1) :: font.cmap }
          exact ⟨font', s', h4, by omega⟩

theorem bfChar_pos (cmap : Bytes) : ∀ (n : Nat) (s : PS) (font : Font), s.pos ≤ (bfChar cmap n s font).2.pos := by
  intro n
  induction n with
  | zero => intro s font; exact Nat.le_refl _
  | succ n ih =>
    intro s font
    rw [bfChar]
    dsimp only
    have h1 := readHexRaw_pos cmap s
    have h2 := readHexRaw_pos cmap (readHexRaw cmap s).2
    split
    · exact h1
    · split
      · exact Nat.le_trans h1 h2
      · exact Nat.le_trans (Nat.le_trans h1 h2) (ih _ _)

theorem fontLoop_runs (cmap : Bytes) (hno : ∀ s : PS, bytesToInt (readHexRaw cmap s).1 ≠ 9223372036854775807) : ∀ (f : Nat) (s : PS) (font : Font),
    cmap.length - s.pos < f → ∃ font', fontLoop cmap f s font = .ok font' := by
  intro f
  induction f with
  | zero => intro s font h; omega
  | succ f ih =>
    intro s font h
    rw [fontLoop]
    obtain ⟨k, os, err, s', h1, h2, h3, h4, h5⟩ := readCommand_total cmap s
    rw [h1]
    show ∃ font', (if err = .readError then _ else _) = _
    by_cases he : err = .readError
    · rw [if_pos he]; exact ⟨_, rfl⟩
    · rw [if_neg he]
      have hp := h4 he
      split
      · obtain ⟨font', s'', g1, g2⟩ := bfRange_runs cmap hno (operandCount os) s' font
        rw [g1]
        exact ih s'' font' (by omega)
      · split
        · have := bfChar_pos cmap (operandCount os) s' font
          exact ih _ _ (by omega)
        · exact ih _ _ (by omega)

theorem newFont_runs (cmap : Bytes) (hno : ∀ s : PS, bytesToInt (readHexRaw cmap s).1 ≠ 9223372036854775807) : ∃ font, newFont cmap = .ok font :=
  fontLoop_runs cmap hno _ _ _ (by omega)

/-! ### Values -/

theorem bytesToInt_isInt64 (b : Bytes) : IsInt64Of (beVal b : Nat) (bytesToInt b) := by
  have key : ∀ (b : Bytes) (x : Nat) (v : Int), IsInt64Of x v →
      IsInt64Of (b.foldl (fun v x => v * 256 + x.toNat) x : Nat) (b.foldl (fun v x => wrap64 (v * 256 + x.toNat)) v) := by
    intro b
    induction b with
    | nil => intro x v h; exact h
    | cons c t ih =>
      intro x v h
      rw [List.foldl_cons, List.foldl_cons]
      refine ih _ _ ?_
      obtain ⟨-, -, k, hk⟩ := h
      obtain ⟨h1, h2, k', hk'⟩ := wrap64_isInt64 (v * 256 + c.toNat)
      generalize wrap64 (v * 256 + c.toNat) = w at h1 h2 hk' ⊢
      refine ⟨h1, h2, k' + 256 * k, ?_⟩
      have hcast : ((x * 256 + c.toNat : Nat) : Int) = (x : Int) * 256 + (c.toNat : Int) := by omega
      rw [hcast, hk]
      omega
  exact key b 0 0 ⟨by decide, by decide, 0, rfl⟩

theorem beVal_lt (b : Bytes) : beVal b < 256 ^ b.length := by
  have key : ∀ (b : Bytes) (x k : Nat), x < 256 ^ k → b.foldl (fun v x => v * 256 + x.toNat) x < 256 ^ (k + b.length) := by
    intro b
    induction b with
    | nil => intro x k h; exact h
    | cons c t ih =>
      intro x k h
      rw [List.foldl_cons]
      have := ih (x * 256 + c.toNat) (k + 1) (by
        have := c.toNat_lt
        rw [Nat.pow_succ]
        omega)
      rw [show k + (c :: t).length = k + 1 + t.length by simp; omega]
      exact this
  have := key b 0 0 (by decide)
  rwa [Nat.zero_add] at this

theorem bytesToInt_short {b : Bytes} (h : b.length ≤ 7) : bytesToInt b = (beVal b : Int) := by
  have h1 := beVal_lt b
  have h2 : 256 ^ b.length ≤ 256 ^ 7 := Nat.pow_le_pow_right (by decide) h
  exact IsInt64Of.unique (bytesToInt_isInt64 b) ⟨by omega, by omega, 0, by omega⟩

/-! ### Text of a character map -/

theorem hexAt_read {file b t r : Bytes} (h : HexAt b t) (s : PS) (hin : file.drop s.pos = t ++ r) :
    (readHexRaw file s).1 = b ∧ (readHexRaw file s).2.pos = s.pos + t.length ∧ b ≠ [] := by
  cases h with
  | @mk w ds t k hw hb hne =>
    obtain ⟨s', h1, h2, -⟩ := Props.C03_hex_closed (r := r) hb hw file s (by rw [hin]; simp)
    have h3 : Res.ok ((readHexRaw file s).1, (readHexRaw file s).2) = Res.ok (hexPairs ds, s') := h1
    obtain ⟨h4, h5⟩ := Prod.mk.inj (Res.ok.inj h3)
    refine ⟨h4, by rw [h5, h2]; simp; omega, ?_⟩
    cases ds with
    | nil => exact absurd rfl hne
    | cons d ds => cases ds <;> simp [hexPairs]

/-- the font after an entry -/
def addEntry (font : Font) (e : Bytes × Bytes × Bytes) : Font := ⟨(bytesToInt e.1, bytesToInt e.2.1, e.2.2) :: font.cmap, e.1.length⟩

theorem short_ne_max {b : Bytes} (h : b.length ≤ 7) : bytesToInt b ≠ 9223372036854775807 := by
  rw [bytesToInt_short h]
  have h1 := beVal_lt b
  have h2 : 256 ^ b.length ≤ 256 ^ 7 := Nat.pow_le_pow_right (by decide) h
  omega

theorem drop_add {file t r : Bytes} {n : Nat} (h : file.drop n = t ++ r) {m : Nat} (hm : m = n + t.length) : file.drop m = r := by
  rw [hm, ← List.drop_drop, h]; simp

theorem bfRange_text {file : Bytes} : ∀ {l : List (Bytes × Bytes × Bytes)} {t : Bytes}, RangesAt l t → ∀ (r : Bytes) (s : PS) (font : Font), file.drop s.pos = t ++ r →
    ∃ s', bfRange file l.length s font = .ok (l.foldl addEntry font, s') ∧ s'.pos = s.pos + t.length := by
  intro l t h
  induction h with
  | nil => intro r s font hin; exact ⟨s, rfl, rfl⟩
  | @cons a at' b bt v vt l t ha hb hv hl ih =>
    intro r s font hin
    obtain ⟨ha, ha7⟩ := ha
    obtain ⟨hb, hb7⟩ := hb
    obtain ⟨a1, a2, a3⟩ := hexAt_read (r := bt ++ (vt ++ (t ++ r))) ha s (by rw [hin]; simp)
    obtain ⟨b1, b2, b3⟩ := hexAt_read (r := vt ++ (t ++ r)) hb (readHexRaw file s).2 (drop_add (t := at') (by rw [hin]; simp) a2)
    obtain ⟨v1, v2, v3⟩ := hexAt_read (r := t ++ r) hv (readHexRaw file (readHexRaw file s).2).2 (drop_add (t := at' ++ bt) (by rw [hin]; simp) (by rw [b2, a2]; simp; omega))
    obtain ⟨s', h1, h2⟩ := ih r (readHexRaw file (readHexRaw file (readHexRaw file s).2).2).2 (addEntry font (a, b, v))
      (drop_add (t := at' ++ (bt ++ vt)) (by rw [hin]; simp) (by rw [v2, b2, a2]; simp; omega))
    refine ⟨s', ?_, by rw [h2, v2, b2, a2]; simp; omega⟩
    rw [List.length_cons, bfRange]
    dsimp only
    rw [a1, b1, v1, if_neg (by simpa using a3), if_neg (by simpa using b3), if_neg (by simpa using v3), if_neg (short_ne_max hb7)]
    exact h1

theorem bfChar_text {file : Bytes} : ∀ {l : List (Bytes × Bytes)} {t : Bytes}, CharsAt l t → ∀ (r : Bytes) (s : PS) (font : Font), file.drop s.pos = t ++ r →
    (bfChar file l.length s font).1 = (l.map fun p => (p.1, p.1, p.2)).foldl addEntry font ∧ (bfChar file l.length s font).2.pos = s.pos + t.length := by
  intro l t h
  induction h with
  | nil => intro r s font hin; exact ⟨rfl, rfl⟩
  | @cons a at' v vt l t ha hv hl ih =>
    intro r s font hin
    obtain ⟨ha, ha7⟩ := ha
    obtain ⟨a1, a2, a3⟩ := hexAt_read (r := vt ++ (t ++ r)) ha s (by rw [hin]; simp)
    obtain ⟨v1, v2, v3⟩ := hexAt_read (r := t ++ r) hv (readHexRaw file s).2 (drop_add (t := at') (by rw [hin]; simp) a2)
    obtain ⟨h1, h2⟩ := ih r (readHexRaw file (readHexRaw file s).2).2 (addEntry font (a, a, v))
      (drop_add (t := at' ++ vt) (by rw [hin]; simp) (by rw [v2, a2]; simp; omega))
    rw [List.length_cons, bfChar]
    dsimp only
    rw [a1, v1, if_neg (by simpa using a3), if_neg (by simpa using v3)]
    exact ⟨h1, h2.trans (by rw [v2, a2]; simp; omega)⟩

theorem operandCount_append (a : List Obj) {n : Nat} (h : n < 2 ^ 53) : operandCount (a ++ [.num (intNum false n)]) = n := by
  have h1 : ((a ++ [Obj.num (intNum false n)]).length : Int) - 1 = (a.length : Nat) := by simp
  have h2 := signed_toInt false h
  rw [signed_eq] at h2
  rw [operandCount, h1, operand, if_neg (by omega), Int.toNat_natCast, List.getElem?_append_right (by omega)]
  simp [Obj.asNum?, h2]

theorem readCommand_end {file w : Bytes} (h : BlankEnd w) (s : PS) (hin : file.drop s.pos = w) :
    ∃ s', readCommand file s = .ok ((b!"null", [], .readError), s') ∧ s'.pos = s.pos + w.length := by
  obtain ⟨s', h1, h2, -⟩ := readObj_of_lObj noDec_ne hin (lObj_blankEnd h noDec 0)
  refine ⟨s', ?_, h2⟩
  rw [readCommand, readCommandLoop, h1]
  rfl

theorem fontLoop_cmd {cmap k : Bytes} {s s' : PS} {os : List Obj} (h : readCommand cmap s = .ok ((k, os, .nil), s')) (f : Nat) (font : Font) :
    fontLoop cmap (f + 1) s font =
      if k = b!"beginbfrange" then bfRange cmap (operandCount os) s' font >>= fun p => fontLoop cmap f p.2 p.1
      else if k = b!"beginbfchar" then fontLoop cmap f (bfChar cmap (operandCount os) s' font).2 (bfChar cmap (operandCount os) s' font).1
      else fontLoop cmap f s' font := by
  rw [fontLoop, h]
  rfl

theorem fontLoop_text {file : Bytes} : ∀ {is : List MapItem} {t : Bytes}, MapText is t → ∀ (f : Nat) (s : PS) (font : Font), t.length < f → file.drop s.pos = t →
    fontLoop file f s font = .ok ((is.flatMap MapItem.entries).foldl addEntry font) := by
  intro is t h
  induction h with
  | @nil w hw =>
    intro f s font hf hin
    obtain ⟨f, rfl⟩ : ∃ g, f = g + 1 := ⟨f - 1, by omega⟩
    obtain ⟨s', h1, -⟩ := readCommand_end hw s hin
    rw [fontLoop, h1]
    rfl
  | @ranges l a ct t is u hc hr hl hm ih =>
    intro f s font hf hin
    obtain ⟨f, rfl⟩ : ∃ g, f = g + 1 := ⟨f - 1, by omega⟩
    have hct := cmdAt_args hc
    obtain ⟨s1, h1, h2⟩ := readCommand_text hc s hin
    obtain ⟨s2, h3, h4⟩ := bfRange_text hr u s1 font (drop_add hin h2)
    rw [fontLoop_cmd h1, if_pos rfl, operandCount_append a hl, h3]
    rw [List.flatMap_cons, List.foldl_append]
    exact ih f s2 _ (by simp at hf hct; omega) (drop_add (t := ct ++ t) (by rw [hin]; simp) (by rw [h4, h2]; simp; omega))
  | @chars l a ct t is u hc hr hl hm ih =>
    intro f s font hf hin
    obtain ⟨f, rfl⟩ : ∃ g, f = g + 1 := ⟨f - 1, by omega⟩
    have hct := cmdAt_args hc
    obtain ⟨s1, h1, h2⟩ := readCommand_text hc s hin
    obtain ⟨h3, h4⟩ := bfChar_text hr u s1 font (drop_add hin h2)
    rw [fontLoop_cmd h1, if_neg (by show ¬ b!"beginbfchar" = b!"beginbfrange"; decide), if_pos rfl, operandCount_append a hl, h3]
    rw [List.flatMap_cons, List.foldl_append]
    exact ih f _ _ (by simp at hf hct; omega) (drop_add (t := ct ++ t) (by rw [hin]; simp) (by rw [h4, h2]; simp; omega))
  | @other c ct is u hc h1 h2 hm ih =>
    intro f s font hf hin
    obtain ⟨f, rfl⟩ : ∃ g, f = g + 1 := ⟨f - 1, by omega⟩
    have hct := cmdAt_args hc
    obtain ⟨s1, h3, h4⟩ := readCommand_text hc s hin
    rw [fontLoop_cmd h3, if_neg h1, if_neg h2]
    exact ih f s1 font (by simp at hf; omega) (drop_add hin h4)

theorem newFont_text {is : List MapItem} {t : Bytes} (h : MapText is t) : newFont t = .ok ((is.flatMap MapItem.entries).foldl addEntry {}) :=
  fontLoop_text h _ _ _ (by omega) rfl

theorem entries_short {is : List MapItem} {t : Bytes} (h : MapText is t) : ∀ e ∈ is.flatMap MapItem.entries, e.1.length ≤ 7 ∧ e.2.1.length ≤ 7 := by
  have hr : ∀ {l : List (Bytes × Bytes × Bytes)} {t : Bytes}, RangesAt l t → ∀ e ∈ l, e.1.length ≤ 7 ∧ e.2.1.length ≤ 7 := by
    intro l t h
    induction h with
    | nil => intro e he; cases he
    | cons ha hb hv hl ih =>
      intro e he
      rcases List.mem_cons.1 he with rfl | he
      · cases ha; cases hb; exact ⟨by assumption, by assumption⟩
      · exact ih e he
  have hc : ∀ {l : List (Bytes × Bytes)} {t : Bytes}, CharsAt l t → ∀ e ∈ l, e.1.length ≤ 7 := by
    intro l t h
    induction h with
    | nil => intro e he; cases he
    | cons ha hv hl ih =>
      intro e he
      rcases List.mem_cons.1 he with rfl | he
      · cases ha; assumption
      · exact ih e he
  induction h with
  | nil => intro e he; cases he
  | ranges h1 h2 h3 h4 ih =>
    intro e he
    rw [List.flatMap_cons, List.mem_append] at he
    rcases he with he | he
    · exact hr h2 e he
    · exact ih e he
  | chars h1 h2 h3 h4 ih =>
    intro e he
    rw [List.flatMap_cons, List.mem_append] at he
    rcases he with he | he
    · obtain ⟨p, hp, rfl⟩ := List.mem_map.1 he
      exact ⟨hc h2 p hp, hc h2 p hp⟩
    · exact ih e he
  | other h1 h2 h3 h4 ih => exact ih

theorem foldl_addEntry : ∀ (es : List (Bytes × Bytes × Bytes)) (font : Font), (es.foldl addEntry font).cmap =
    (es.map fun e => (bytesToInt e.1, bytesToInt e.2.1, e.2.2)).reverse ++ font.cmap := by
  intro es
  induction es with
  | nil => intro font; rfl
  | cons e es ih => intro font; rw [List.foldl_cons, ih]; simp [addEntry]

theorem lookup_entries {es : List (Bytes × Bytes × Bytes)} (h : ∀ e ∈ es, e.1.length ≤ 7 ∧ e.2.1.length ≤ 7) (n : Nat) :
    (es.foldl addEntry {}).lookup n = (lastRange es n).map (·.2) := by
  have h' : ∀ e ∈ es.reverse, e.1.length ≤ 7 ∧ e.2.1.length ≤ 7 := fun e he => h e (List.mem_reverse.1 he)
  rw [Font.lookup, foldl_addEntry, lastRange, ← List.map_reverse, List.append_nil]
  generalize es.reverse = l at h'
  induction l with
  | nil => rfl
  | cons e l ih =>
    have h1 := h' e (by simp)
    rw [List.map_cons, List.find?_cons, List.find?_cons]
    simp only [bytesToInt_short h1.1, bytesToInt_short h1.2]
    have hiff : (decide ((beVal e.1 : Int) ≤ (n : Int) ∧ (n : Int) ≤ (beVal e.2.1 : Int))) = decide (beVal e.1 ≤ n ∧ n ≤ beVal e.2.1) := by
      rw [decide_eq_decide]; omega
    rw [hiff]
    by_cases hd : beVal e.1 ≤ n ∧ n ≤ beVal e.2.1
    · simp [hd]
    · rw [decide_eq_false hd]
      exact ih fun x hx => h' x (by simp [hx])

end Pdf
