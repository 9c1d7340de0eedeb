import Verif.Spec.Xref
import Verif.Lemmas.IndObj
import Verif.Lemmas.Assoc
import Verif.Lemmas.Getters
import Verif.Lemmas.Tiff
/-!
Cross reference tables: reading the entries and the trailer.
-/

namespace Pdf
open Spec St

attribute [local irreducible] wrap64

theorem isInt64_unique {n : Nat} {y : Int} (h : n < 2 ^ 63) (hy : IsInt64Of n y) : y = n := by
  obtain ⟨h1, h2, k, hk⟩ := hy
  omega

/-- `r` starts with white space or a comment. -/
def GapHead (r : Bytes) : Prop := ∃ b u, r = b :: u ∧ (IsWhite b ∨ b = 37)

theorem gap_head {w : Bytes} (h : Gap w) (r : Bytes) : GapHead (w ++ r) := by
  obtain ⟨h1, h2⟩ := h
  cases h1 with
  | nil => exact absurd rfl h2
  | ws hb _ => exact ⟨_, _, rfl, .inl hb⟩
  | comment _ _ _ => exact ⟨_, _, rfl, .inr rfl⟩

theorem GapHead.noDigit {r : Bytes} (h : GapHead r) : NoDigit r := by
  obtain ⟨b, u, rfl, hb⟩ := h
  rintro c t ⟨⟩
  exact white_noDigit hb

theorem GapHead.stops {r : Bytes} (h : GapHead r) : Stops r := by
  obtain ⟨b, u, rfl, hb⟩ := h
  rintro c t ⟨⟩
  rintro ⟨h1, h2⟩
  rcases hb with hb | hb
  · exact h1 hb
  · exact h2 (by rw [hb]; decide)

theorem readInt_nat {w t r : Bytes} {n : Nat} (hw : Blank w) (ht : NatText n t) (hr : NoDigit r) {file : Bytes} {s : PS}
    (hl : rest file s = w ++ (t ++ r)) :
    ∃ s', readInt file s = (((n : Int), true), s') ∧ Step s s' (w.length + t.length) [] ∧ rest file s' = r := by
  cases ht with
  | @mk ds hd hne hlt =>
    obtain ⟨y, hy, h1⟩ := lInt_digits hw ds hd hne r hr
    rw [isInt64_unique hlt hy, ← hl] at h1
    obtain ⟨s', e, st⟩ := readInt_some h1
    refine ⟨s', e, st.cast (by simp) rfl, ?_⟩
    rw [rest_eq st.pos, hl, ← List.append_assoc, List.drop_left' (by simp)]

theorem readKeyword_word {w k r : Bytes} (hw : Blank w) (hne : k ≠ []) (hk : ∀ c ∈ k, Spec.IsRegular c) (hr : Stops r) {file : Bytes} {s : PS}
    (hl : rest file s = w ++ (k ++ r)) :
    ∃ s', readKeyword file s = (k, s') ∧ Step s s' (w.length + k.length) [] ∧ rest file s' = r := by
  obtain ⟨k1, k2⟩ := readKeyword_spec file s
  rw [hl, lKeyword_word hw hne hk hr] at k1 k2
  refine ⟨(readKeyword file s).2, Prod.ext k1 rfl, k2, ?_⟩
  rw [rest_eq k2.pos, hl, ← List.append_assoc, List.drop_left' (by simp)]

theorem linesText_head {ls : List Line} {t r : Bytes} (h : LinesText ls t) (hr : GapHead r) : GapHead (t ++ r) := by
  cases h with
  | nil => exact hr
  | cons hw => simp only [List.append_assoc]; exact gap_head hw _

theorem sectionsText_head {ss : List (Nat × List Line)} {t r : Bytes} (h : SectionsText ss t) (hr : GapHead r) : GapHead (t ++ r) := by
  cases h with
  | nil => exact hr
  | cons hw => simp only [List.append_assoc]; exact gap_head hw _

/-- later entries override earlier ones -/
def setAll (x : Assoc Int XrefEntry) (l : List (Int × XrefEntry)) : Assoc Int XrefEntry := l.foldl (fun (d : Assoc Int XrefEntry) e => d.set e.1 e.2) x

theorem setAll_append (x : Assoc Int XrefEntry) (l l' : List (Int × XrefEntry)) : setAll x (l ++ l') = setAll (setAll x l) l' := by
  rw [setAll, List.foldl_append]; rfl

theorem get?_setAll (x : Assoc Int XrefEntry) (l : List (Int × XrefEntry)) (n : Int) :
    (setAll x l).get? n = (lastFor l n).or (x.get? n) := Assoc.get?_foldl_set l x n

theorem tableEntries_text {file : Bytes} : ∀ {ls : List Line} {t : Bytes}, LinesText ls t → ∀ {r : Bytes}, GapHead r →
    ∀ (a : Nat) (s : PS) (x : Assoc Int XrefEntry), a + ls.length < 2 ^ 63 → rest file s = t ++ r →
    ∃ s', tableEntries file ls.length a s x = (setAll x (numbered a ls), s') ∧ Step s s' t.length [] ∧ rest file s' = r := by
  intro ls t h
  induction h with
  | nil => intro r hr a s x _ hl; exact ⟨s, rfl, Step.refl s, hl⟩
  | @cons w o ot w1 g gt w2 u ls t hw ho hw1 hg hw2 ht ih =>
    intro r hr a s x ha hl
    simp only [List.append_assoc] at hl
    have hflag : (∀ c ∈ (if u then [110] else [102] : Bytes), Spec.IsRegular c) ∧ (if u then [110] else [102] : Bytes) ≠ [] ∧
        (if u then [110] else [102] : Bytes).length = 1 := by cases u <;> decide
    obtain ⟨s1, e1, st1, l1⟩ := readInt_nat hw.1 ho (gap_head hw1 _).noDigit hl
    obtain ⟨s2, e2, st2, l2⟩ := readInt_nat hw1.1 hg (gap_head hw2 _).noDigit l1
    obtain ⟨s3, e3, st3, l3⟩ := readKeyword_word hw2.1 hflag.2.1 hflag.1 (linesText_head ht hr).stops l2
    rw [List.length_cons] at ha
    obtain ⟨s4, e4, st4, l4⟩ := ih hr (a + 1) s3 (x.set a (Line.entry ⟨o, g, u⟩)) (by omega) l3
    refine ⟨s4, ?_, ?_, l4⟩
    · rw [List.length_cons, tableEntries, e1]; dsimp only
      rw [e2]; dsimp only
      rw [e3]; dsimp only
      rw [wrap64_id (by omega) (by omega), show ((a : Int) + 1) = ((a + 1 : Nat) : Int) by omega]
      rw [show (if (if u then [110] else [102] : Bytes) = b!"n" then (1 : Int) else 0) = if u then 1 else 0 by cases u <;> rfl]
      exact e4
    · have h2 := hflag.2.2
      refine ((st1.trans st2).trans (st3.trans st4)).cast ?_ rfl
      simp only [List.length_append] at *; omega

theorem lInt_none_of {w : Bytes} (hw : Blank w) {b : UInt8} {r : Bytes} (hb : Spec.IsRegular b) (hd : ¬ (48 ≤ b.toNat ∧ b.toNat ≤ 57)) :
    lInt (w ++ b :: r) = none ∧ skipWs false (w ++ b :: r) = w.length := by
  have hz : skipWs false (b :: r) = 0 := skipWs_zero hb.1 (fun h => hb.2 (by rw [h]; decide))
  refine ⟨?_, by rw [skipWs_blank hw, hz, Nat.add_zero]⟩
  rw [lInt, drop_blank hw, hz, List.drop_zero]
  have : isDigit b = false := by
    rw [← Bool.not_eq_true, isDigit_iff]; exact hd
  simp [this]

theorem tableSections_text {file : Bytes} : ∀ {ss : List (Nat × List Line)} {t : Bytes}, SectionsText ss t → ∀ {w k r : Bytes} {b : UInt8},
    Gap w → Spec.IsRegular b → ¬ (48 ≤ b.toNat ∧ b.toNat ≤ 57) → r = b :: k →
    ∀ (f : Nat) (s : PS) (x : Assoc Int XrefEntry), ss.length < f → rest file s = t ++ (w ++ r) →
    ∃ s', tableSections file f s x = (setAll x (listed ss), s') ∧ Step s s' (t.length + w.length) [] ∧ rest file s' = r := by
  intro ss t h
  induction h with
  | nil =>
    intro w k r b hw hb hd hr f s x hf hl
    cases f with
    | zero => simp at hf
    | succ f =>
      subst hr
      obtain ⟨h1, h2⟩ := lInt_none_of hw.1 (r := k) hb hd
      rw [List.nil_append] at hl
      rw [← hl] at h1 h2
      obtain ⟨s', e, _, st, _⟩ := readInt_none h1
      have st := st (by
        have hw' := consumeWs_step file s
        rw [rest_eq hw'.pos, h2, hl, List.drop_left]; simp)
      rw [h2] at st
      refine ⟨s', ?_, st.cast (by simp) rfl, ?_⟩
      · rw [tableSections, e]; rfl
      · rw [rest_eq st.pos, hl, List.drop_left]
  | @cons w0 a at' w1 ct ls lt ss t hw0 ha hw1 hc hls hlt _ ih =>
    intro w k r b hw hb hd hr f s x hf hl
    cases f with
    | zero => simp at hf
    | succ f =>
      simp only [List.append_assoc] at hl
      have hh : GapHead (t ++ (w ++ r)) := sectionsText_head ‹_› (gap_head hw r)
      obtain ⟨s1, e1, st1, l1⟩ := readInt_nat hw0.1 ha (gap_head hw1 _).noDigit hl
      obtain ⟨s2, e2, st2, l2⟩ := readInt_nat hw1.1 hc (linesText_head hls hh).noDigit l1
      obtain ⟨s3, e3, st3, l3⟩ := tableEntries_text hls hh a s2 x hlt l2
      obtain ⟨s4, e4, st4, l4⟩ := ih hw hb hd hr f s3 (setAll x (numbered a ls)) (by simp at hf; omega) l3
      refine ⟨s4, ?_, ?_, l4⟩
      · rw [tableSections, e1]; dsimp only
        rw [e2]; dsimp only
        rw [Int.toNat_natCast, e3]; dsimp only
        rw [e4, show listed ((a, ls) :: ss) = numbered a ls ++ listed ss from rfl, setAll_append]
      · refine ((st1.trans st2).trans (st3.trans st4)).cast ?_ rfl
        simp only [List.length_append]; omega

theorem sectionsText_len {ss : List (Nat × List Line)} {t : Bytes} (h : SectionsText ss t) : ss.length ≤ t.length := by
  induction h with
  | nil => exact Nat.le_refl _
  | @cons w _ _ _ _ _ _ _ _ hw _ _ _ _ _ _ ih =>
    have : w.length ≠ 0 := fun h => hw.2 (List.eq_nil_of_length_eq_zero h)
    simp only [List.length_cons, List.length_append]; omega

/-! ### The buffer after a seek: filled in blocks of 4096 bytes -/

/-- Since a seek to `off`, bytes were only read and unread. -/
structure Grid (file : Bytes) (off : Nat) (s : PS) : Prop where
  pos : s.pos ≤ s.lim
  buf : ∃ k, s.lim = min (off + 4096 * k) file.length ∧ off + 4096 * k ≤ s.pos + 4096 ∧ (s.last = true → off + 4096 * k < s.pos + 4096 ∧ 0 < s.pos)

theorem grid_inv (file : Bytes) (off : Nat) : Inv0 file (Grid file off) := by
  constructor
  · rintro s ⟨h1, k, h2, h3, h4⟩
    rw [readByte]
    split
    · exact ⟨h1, k, h2, h3, h4⟩
    · rename_i hb
      have hlt : s.pos < file.length := by
        obtain ⟨hl, -⟩ := List.getElem?_eq_some_iff.1 hb; exact hl
      dsimp only
      by_cases hp : s.pos < s.lim
      · rw [if_pos hp]
        exact ⟨by dsimp only; omega, k, h2, by dsimp only; omega, fun _ => by dsimp only; omega⟩
      · rw [if_neg hp]
        have hk : off + 4096 * k = s.pos := by omega
        refine ⟨by simp only [bufSize]; omega, k + 1, ?_, by dsimp only; omega, fun _ => by dsimp only; omega⟩
        simp only [bufSize]; rw [Nat.mul_add, ← Nat.add_assoc, hk]
  · rintro s ⟨h1, k, h2, h3, h4⟩
    rw [unreadByte]
    split
    · rename_i hl
      have := h4 hl
      exact ⟨by dsimp only; omega, k, h2, by dsimp only; omega, fun h => by cases h⟩
    · exact ⟨h1, k, h2, h3, h4⟩

theorem grid_seek {file : Bytes} (s : PS) {off : Nat} (h : off ≤ file.length) : Grid file off (seek s off) := by
  rw [seek, if_neg (by omega)]
  exact ⟨Nat.le_refl _, 0, by simp only [Int.toNat_natCast]; omega, by simp only [Int.toNat_natCast]; omega, fun h => by cases h⟩

/-- `Read` of two bytes in the state `Grid` describes: one byte only when it is the last of a block. -/
theorem readN_grid {file : Bytes} {off : Nat} {s : PS} (hg : Grid file off s) {b c : UInt8} {t : Bytes} (hl : rest file s = b :: c :: t) :
    (if s.pos % 4096 = (off + 4095) % 4096 then (readN file s 2).1 = [b] ∧ Step s (readN file s 2).2 1 []
     else (readN file s 2).1 = [b, c] ∧ Step s (readN file s 2).2 2 []) := by
  obtain ⟨h1, k, h2, h3, h4⟩ := hg
  have hlen := rest_length file s
  rw [hl] at hlen
  simp only [List.length_cons] at hlen
  have ht1 : (file.drop s.pos).take 1 = [b] := by rw [← rest, hl]; rfl
  have ht2 : (file.drop s.pos).take 2 = [b, c] := by rw [← rest, hl]; rfl
  rw [readN]
  split
  · rename_i hc
    have hlim : s.lim = s.pos + 1 := by omega
    rw [if_pos (by omega), hlim]
    simp only [Nat.add_sub_cancel_left, show min 2 1 = 1 by decide]
    exact ⟨ht1, rfl, by simp⟩
  · rename_i hc
    have hlim : s.lim ≠ s.pos + 1 := by omega
    by_cases hp : s.pos < s.lim
    · rw [if_pos hp]
      have : min 2 (s.lim - s.pos) = 2 := by omega
      simp only [this]
      exact ⟨ht2, rfl, by simp⟩
    · rw [if_neg hp, if_pos (by omega)]
      have : min 2 (min (s.pos + bufSize) file.length - s.pos) = 2 := by simp only [bufSize]; omega
      simp only [this]
      exact ⟨ht2, rfl, by simp⟩

/-- `ReadDictionary` in the state `Grid` describes. -/
theorem readDictionary_grid {file : Bytes} {off : Nat} {s : PS} (hg : Grid file off s) {w t r : Bytes} {es : List (Bytes × Obj)} {e : List Err}
    (hw : Blank w) (ht : DictAny es t r e) (hl : rest file s = w ++ (60 :: 60 :: (t ++ r)))
    (hp : (s.pos + w.length) % 4096 ≠ (off + 4095) % 4096) :
    ∃ s', readDictionary file noDec s = .ok (dictOf es, s') ∧ Step s s' (w.length + 2 + t.length) e := by
  have hws := consumeWs_step file s
  have hz : skipWs false (60 :: 60 :: (t ++ r)) = 0 := skipWs_zero (by decide) (by decide)
  rw [hl, skipWs_blank hw, hz, Nat.add_zero] at hws
  have hr1 : rest file (consumeWs file s) = 60 :: 60 :: (t ++ r) := by rw [rest_eq hws.pos, hl, List.drop_left]
  have h := readN_grid (consumeWs_inv (grid_inv file off) hg) hr1
  rw [hws.pos, if_neg hp] at h
  obtain ⟨h1, h2⟩ := h
  have hr2 : rest file (readN file (consumeWs file s) 2).2 = t ++ r := by rw [rest_eq h2.pos, hr1]; rfl
  obtain ⟨f, hf⟩ := dictAny_read ht []
  have hd := (readObject_spec file noDec (objFuel file)).2.2 (readN file (consumeWs file s) 2).2 []
  rw [hr2] at hd
  have hlen : (t ++ r).length ≤ file.length := by rw [← hr2]; exact rest_length_le _ _
  have hgood := (lObj_good noDec_ne (objFuel file)).2.2 (t ++ r) [] (by simp only [objFuel]; omega)
  have hne : lDict noDec (objFuel file) (t ++ r) [] ≠ .oof := by
    intro h0; rw [h0] at hgood; exact hgood
  have e1 := lDict_fuel noDec (Nat.le_max_left f (objFuel file)) (l := t ++ r) (d := []) (by rw [hf]; simp)
  have e2 := lDict_fuel noDec (Nat.le_max_right f (objFuel file)) (l := t ++ r) (d := []) hne
  rw [← e2, e1, hf] at hd
  rw [readDictionary, readDictHead]
  dsimp only
  rw [h1]
  show ∃ s', dictLoop file noDec (objFuel file) (readN file (consumeWs file s) 2).2 [] = _ ∧ _
  generalize dictLoop file noDec (objFuel file) (readN file (consumeWs file s) 2).2 [] = x at *
  match x, hd with
  | .ok (a, s'), ⟨k1, k2⟩ =>
    exact ⟨s', by rw [k1]; rfl, ((hws.trans h2).trans k2).cast rfl rfl⟩

/-- When the first `<` is the last byte of a block, the dictionary is missed. -/
theorem readDictionary_missed {file : Bytes} {off : Nat} {s : PS} (hg : Grid file off s) {w t : Bytes}
    (hw : Blank w) (hl : rest file s = w ++ (60 :: 60 :: t))
    (hp : (s.pos + w.length) % 4096 = (off + 4095) % 4096) :
    ∃ s', readDictionary file noDec s = .ok ([], s') := by
  have hws := consumeWs_step file s
  have hz : skipWs false (60 :: 60 :: t) = 0 := skipWs_zero (by decide) (by decide)
  rw [hl, skipWs_blank hw, hz, Nat.add_zero] at hws
  have hr1 : rest file (consumeWs file s) = 60 :: 60 :: t := by rw [rest_eq hws.pos, hl, List.drop_left]
  have h := readN_grid (consumeWs_inv (grid_inv file off) hg) hr1
  rw [hws.pos, if_pos hp] at h
  refine ⟨(readN file (consumeWs file s) 2).2, ?_⟩
  rw [readDictionary, readDictHead]
  dsimp only
  rw [h.1]; rfl

theorem tableEntries_inv {file : Bytes} {I : PS → Prop} (hI : Inv0 file I) : ∀ n a s x, I s → I (tableEntries file n a s x).2 := by
  intro n
  induction n with
  | zero => intro a s x h; exact h
  | succ n ih =>
    intro a s x h
    rw [tableEntries]
    have h1 := readInt_inv hI h
    split
    · rename_i e; rw [e] at h1; exact h1
    · rename_i e; rw [e] at h1
      have h2 := readInt_inv hI h1
      split
      · rename_i e; rw [e] at h2; exact h2
      · rename_i e; rw [e] at h2
        exact ih _ _ _ (readKeyword_inv hI h2)

theorem tableSections_inv {file : Bytes} {I : PS → Prop} (hI : Inv0 file I) : ∀ f s x, I s → I (tableSections file f s x).2 := by
  intro n
  induction n with
  | zero => intro s x h; exact h
  | succ n ih =>
    intro s x h
    rw [tableSections]
    have h1 := readInt_inv hI h
    split
    · rename_i e; rw [e] at h1; exact h1
    · rename_i e; rw [e] at h1
      have h2 := readInt_inv hI h1
      split
      · rename_i e; rw [e] at h2; exact h2
      · rename_i e; rw [e] at h2
        exact ih _ _ (tableEntries_inv hI _ _ _ _ h2)

end Pdf
