import Verif.Lemmas.Font
/-!
Page text: the loop over the commands of a content stream, on texts.
-/

namespace Pdf
open Pdf.Spec

theorem asStr_last (args : List Obj) : ((operand args (args.length - 1)).bind Obj.asStr?).getD [] = lastString args := by
  rcases List.eq_nil_or_concat args with rfl | ⟨l, o, rfl⟩
  · rfl
  · rw [operand, if_neg (by simp), show ((l.concat o).length - 1 : Int).toNat = l.length by simp, lastString]
    simp only [List.concat_eq_append, List.getLast?_append, List.getLast?_singleton, List.getElem?_append_right (Nat.le_refl _), Nat.sub_self]
    cases o <;> rfl

theorem asArr_last (args : List Obj) : ((operand args (args.length - 1)).bind Obj.asArr?).getD [] = lastArray args := by
  rcases List.eq_nil_or_concat args with rfl | ⟨l, o, rfl⟩
  · rfl
  · rw [operand, if_neg (by simp), show ((l.concat o).length - 1 : Int).toNat = l.length by simp, lastArray]
    simp only [List.concat_eq_append, List.getLast?_append, List.getLast?_singleton, List.getElem?_append_right (Nat.le_refl _), Nat.sub_self]
    cases o <;> rfl

theorem tjString_evens (l : List Obj) : tjString l = strings (evens l) := by
  induction l using tjString.induct with
  | case1 => rfl
  | case2 o => cases o <;> simp [tjString, evens, strings, operand, Obj.asStr?]
  | case3 o x t ih =>
    rw [tjString, evens, strings, List.flatMap_cons, ih, ← strings]
    cases o <;> rfl

theorem asName_font (fonts : Assoc Bytes Font) (args : List Obj) :
    (fonts.get? (((operand args (args.length - 2)).bind Obj.asName?).getD [])).getD fontDefault = fontNamed fonts.get? args := by
  rcases List.eq_nil_or_concat args with rfl | ⟨l, o, rfl⟩
  · rfl
  · rcases List.eq_nil_or_concat l with rfl | ⟨l, o', rfl⟩
    · rfl
    · rw [operand, if_neg (by simp), show (((l.concat o').concat o).length - 2 : Int).toNat = l.length by simp, fontNamed]
      simp only [List.concat_eq_append, List.reverse_append, List.reverse_cons, List.reverse_nil, List.nil_append, List.cons_append, List.append_assoc,
        List.getElem?_append_right (Nat.le_refl _), Nat.sub_self]
      cases o' <;> rfl

/-- What the loop does with one command. -/
theorem pageLoop_cmd {contents k : Bytes} {s s' : PS} {os : List Obj} (fonts : Assoc Bytes Font) (h : readCommand contents s = .ok ((k, os, .nil), s'))
    (f : Nat) (mode : Option Font) (out : Bytes) :
    pageLoop contents fonts (f + 1) s mode out = match mode with
      | none => if k = b!"BT" then pageLoop contents fonts f s' (some fontDefault) out else pageLoop contents fonts f s' none out
      | some font =>
        if k = b!"ET" then pageLoop contents fonts f s' none out
        else if k = b!"Tf" then pageLoop contents fonts f s' (some (fontNamed fonts.get? os)) out
        else match shown (fun l => strings (evens l)) ⟨k, os⟩ with
          | some b => font.decode b >>= fun t => pageLoop contents fonts f s' (some font) (out ++ t ++ b!"\n")
          | none => pageLoop contents fonts f s' (some font) out := by
  rw [pageLoop, h]
  cases mode with
  | none => rfl
  | some font =>
    show (if RErr.nil = RErr.readError ∨ k = b!"ET" then _ else _) = _
    by_cases h1 : k = b!"ET"
    · rw [if_pos (.inr h1)]; simp only [if_pos h1]
    · rw [if_neg (by rintro (h | h); · cases h
                     · exact h1 h)]
      simp only [if_neg h1]
      by_cases h2 : k = b!"Tf"
      · rw [if_pos h2, if_pos h2, ← asName_font]
      · rw [if_neg h2, if_neg h2]
        by_cases h3 : k = b!"Tj" ∨ k = b!"'" ∨ k = b!"\""
        · rw [if_pos h3, shown, if_pos (by rcases h3 with h | h | h <;> simp [isShow, h]), asStr_last]
        · have h3' : ¬ isShow k = true := by simpa [isShow, and_assoc] using h3
          rw [if_neg h3, shown]
          simp only [if_neg h3']
          by_cases h4 : k = b!"TJ"
          · rw [if_pos h4, if_pos h4, asArr_last, tjString_evens]
          · rw [if_neg h4, if_neg h4]

theorem decode_of {font : Font} {b t : Bytes} (h : Decodes font b t) : font.decode b = .ok t := by
  obtain ⟨codes, tail, rfl, h1, h2, rfl⟩ := h
  have hw : 1 ≤ font.width := by omega
  have := length_flatten_ge hw h1
  rw [Font.decode, if_neg (by omega), decodeLoopFont_codes hw h2 codes _ h1 (by rw [List.length_append]; omega)]

theorem cmdsAt_append {cs ds : List Cmd} : ∀ {t r : Bytes}, CmdsAt (cs ++ ds) t r → ∃ u v, t = u ++ v ∧ CmdsAt cs u (v ++ r) ∧ CmdsAt ds v r := by
  induction cs with
  | nil => intro t r h; exact ⟨[], t, rfl, .nil, h⟩
  | cons c cs ih =>
    intro t r h
    cases h with
    | @cons _ t _ u _ h1 h2 =>
      obtain ⟨u', v, rfl, h3, h4⟩ := ih h2
      exact ⟨t ++ u', v, by simp, .cons (by simpa using h1) h3, h4⟩

theorem cmdsAt_len {cs : List Cmd} : ∀ {t r : Bytes}, CmdsAt cs t r → cs.length ≤ t.length := by
  induction cs with
  | nil => intro t r h; simp
  | cons c cs ih =>
    intro t r h
    cases h with
    | @cons _ t _ u _ h1 h2 =>
      have := ih h2
      have := cmdAt_args h1
      simp; omega

/-- The commands of a block. -/
theorem pageLoop_block {file : Bytes} {fonts : Assoc Bytes Font} {cs : List Cmd} : ∀ {font : Font} {l : Bytes},
    BlockText fonts.get? (fun l => strings (evens l)) font cs l → (∀ c ∈ cs, c.op ≠ b!"ET") →
    ∀ {t r : Bytes}, CmdsAt cs t r → ∀ (f : Nat) (s : PS) (out : Bytes), file.drop s.pos = t ++ r →
    ∃ s' font', s'.pos = s.pos + t.length ∧
      pageLoop file fonts (cs.length + f) s (some font) out = pageLoop file fonts f s' (some font') (out ++ l) := by
  induction cs with
  | nil =>
    intro font l h _ t r ht f s out hin
    cases h
    cases ht
    exact ⟨s, font, by simp, by simp⟩
  | cons c cs ih =>
    intro font l h hp t r ht f s out hin
    cases ht with
    | @cons _ t _ u _ hc hcs =>
      rw [List.append_assoc] at hin
      obtain ⟨s1, h1, h2⟩ := readCommand_text hc s hin
      have hin1 := drop_add hin h2
      have het := hp c (by simp)
      have hp' : ∀ c ∈ cs, c.op ≠ b!"ET" := fun x hx => hp x (by simp [hx])
      have e : (c :: cs).length + f = (cs.length + f) + 1 := by simp; omega
      have hlast : ∀ {l' out' font'}, BlockText fonts.get? (fun l => strings (evens l)) font' cs l' →
          ∃ s' font'', s'.pos = s.pos + (t ++ u).length ∧
            pageLoop file fonts (cs.length + f) s1 (some font') out' = pageLoop file fonts f s' (some font'') (out' ++ l') := by
        intro l' out' font' hb
        obtain ⟨s', font'', h3, h4⟩ := ih hb hp' hcs f s1 out' hin1
        exact ⟨s', font'', by rw [h3, h2]; simp; omega, h4⟩
      rw [e, pageLoop_cmd fonts h1]
      simp only [if_neg het]
      cases h with
      | font ht hb =>
        rw [if_pos ht]
        exact hlast hb
      | @line _ _ _ b l' t' hs hd hb =>
        have htf : c.op ≠ b!"Tf" := by
          intro h
          rw [shown, h] at hs
          cases hs
        rw [if_neg htf]
        simp only [show shown (fun l => strings (evens l)) ⟨c.op, c.args⟩ = some b from hs, decode_of hd]
        obtain ⟨s', font'', h3, h4⟩ := hlast (out' := out ++ l' ++ b!"\n") hb
        refine ⟨s', font'', h3, ?_⟩
        rw [show out ++ (l' ++ 10 :: t') = out ++ l' ++ b!"\n" ++ t' by simp]
        exact h4
      | other htf hs hb =>
        rw [if_neg htf]
        simp only [show shown (fun l => strings (evens l)) ⟨c.op, c.args⟩ = none from hs]
        exact hlast hb

theorem pageLoop_end {contents k : Bytes} {s s' : PS} {os : List Obj} (fonts : Assoc Bytes Font) (h : readCommand contents s = .ok ((k, os, .readError), s'))
    (f : Nat) (out : Bytes) :
    pageLoop contents fonts (f + 1) s none out = .ok out := by
  rw [pageLoop, h]; rfl

theorem pageLoop_cut {contents k : Bytes} {s s' : PS} {os : List Obj} (fonts : Assoc Bytes Font) (h : readCommand contents s = .ok ((k, os, .readError), s'))
    (f : Nat) (font : Font) (out : Bytes) :
    pageLoop contents fonts (f + 1) s (some font) out = pageLoop contents fonts f s' none out := by
  rw [pageLoop, h]; rfl

/-- The commands of a content stream. -/
theorem pageLoop_text {file : Bytes} {fonts : Assoc Bytes Font} {ps : List Piece} {cs : List Cmd} (h : Content ps cs) : (∀ p ∈ ps, p.Proper) →
    ∀ {l : Bytes}, ContentText fonts.get? (fun l => strings (evens l)) ps l → ∀ {t w : Bytes}, CmdsAt cs t w → BlankEnd w →
    ∀ (f : Nat) (s : PS) (out : Bytes), cs.length + 2 ≤ f → file.drop s.pos = t ++ w → pageLoop file fonts f s none out = .ok (out ++ l) := by
  induction h with
  | nil =>
    intro _ l hl t w ht hw f s out hf hin
    cases hl
    cases ht
    obtain ⟨f, rfl⟩ : ∃ g, f = g + 1 := ⟨f - 1, by omega⟩
    obtain ⟨s', h1, -⟩ := readCommand_end hw s hin
    rw [pageLoop_end fonts h1]; simp
  | @«open» cs a =>
    intro hp l hl t w ht hw f s out hf hin
    cases hl with
    | block hb hl =>
      cases hl
      cases ht with
      | @cons _ t _ u _ hc hcs =>
        rw [List.append_assoc] at hin
        obtain ⟨s1, h1, h2⟩ := readCommand_text hc s hin
        have hin1 := drop_add hin h2
        obtain ⟨f, rfl⟩ : ∃ g, f = (cs.length + (g + 2)) + 1 := ⟨f - cs.length - 3, by simp at hf; omega⟩
        rw [pageLoop_cmd fonts h1]
        simp only [if_pos]
        obtain ⟨s2, font, h3, h4⟩ := pageLoop_block hb (show Piece.Proper (.block cs) from hp _ (by simp)) hcs (f + 2) s1 out hin1
        rw [h4]
        have hin2 := drop_add hin1 h3
        obtain ⟨s3, h5, h6⟩ := readCommand_end hw s2 hin2
        rw [pageLoop_cut fonts h5]
        obtain ⟨s4, h7, -⟩ := readCommand_end (file := file) (w := []) ⟨[], [], rfl, .nil, .inl rfl⟩ s3 (drop_add (t := w) (r := []) (by simpa using hin2) h6)
        rw [pageLoop_end fonts h7]
        simp
  | @cons p cs ps ds hp1 hc ih =>
    intro hp l hl t w ht hw f s out hf hin
    obtain ⟨u, v, rfl, h1, h2⟩ := cmdsAt_append ht
    rw [List.append_assoc] at hin
    have hp' : ∀ q ∈ ps, q.Proper := fun q hq => hp q (by simp [hq])
    cases hp1 with
    | @cmd c =>
      cases hl with
      | cmd hl =>
        cases h1 with
        | @cons _ t _ u _ hc hn =>
          cases hn
          rw [List.append_nil] at hin
          obtain ⟨s1, h3, h4⟩ := readCommand_text hc s hin
          obtain ⟨f, rfl⟩ : ∃ g, f = g + 1 := ⟨f - 1, by omega⟩
          rw [pageLoop_cmd fonts h3]
          simp only [if_neg (show c.op ≠ b!"BT" from hp (.cmd c) (by simp))]
          exact ih hp' hl h2 hw f s1 out (by simp at hf; omega) (drop_add hin h4)
    | @block bs a b =>
      cases hl with
      | @block _ _ l l' hb hl =>
        cases h1 with
        | @cons _ t _ u _ hc hn =>
          rw [List.append_assoc] at hin
          obtain ⟨s1, h3, h4⟩ := readCommand_text hc s hin
          have hin1 := drop_add hin h4
          obtain ⟨f, rfl⟩ : ∃ g, f = (bs.length + (g + 1)) + 1 := ⟨f - bs.length - 2, by simp at hf; omega⟩
          rw [pageLoop_cmd fonts h3]
          simp only [if_pos]
          obtain ⟨u1, u2, rfl, h5, h6⟩ := cmdsAt_append hn
          rw [List.append_assoc] at hin1
          obtain ⟨s2, font, h7, h8⟩ := pageLoop_block hb (show Piece.Proper (.block bs) from hp _ (by simp)) h5 (f + 1) s1 out (by simpa using hin1)
          rw [h8]
          have hin2 := drop_add hin1 h7
          cases h6 with
          | @cons _ t2 _ u3 _ hc2 hn2 =>
            cases hn2
            rw [List.append_nil] at hin2
            obtain ⟨s3, h9, h10⟩ := readCommand_text hc2 s2 hin2
            rw [pageLoop_cmd fonts h9]
            simp only [if_pos]
            rw [ih hp' hl h2 hw f s3 (out ++ l) (by simp at hf; omega) (drop_add hin2 h10)]
            simp

end Pdf
